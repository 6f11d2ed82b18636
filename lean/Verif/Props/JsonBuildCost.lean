import Verif.Proofs.JsonBuildCost
import Verif.Props.JsonFinal
import Mathlib.Data.List.Induction

/-!
# Property C143: how many steps building a JSON text takes

Src/json.c:41-103.  A step is a memory access or a decision as listed in `Verif/C/Leak.lean` and `Verif/C/LeakStr.lean`.
-/

namespace IMU.Props
open Spec Spec.Leak Spec.Json Spec.JsonBuildCost T IMU.Json

/-- C143: what is counted is the code that the other properties are about. -/
theorem C143_same_code (buffer : Ptr) (size : SizeT) (key value : Ptr) (ps : List (Ptr × Ptr)) :
    erase (startStringT buffer size) = startString buffer size ∧
    erase (addDataT buffer size key value) = addData buffer size key value ∧
    erase (endStringT buffer size) = endString buffer size ∧
    erase (buildT buffer size ps) = build buffer size ps :=
  ⟨erase_startString buffer size, erase_addData buffer size key value, erase_endString buffer size,
    erase_build buffer size ps⟩

/-- C143: one addition to any non-empty text, successful or not. -/
theorem C143_add (b o bk ok bv ov : Nat) (size : SizeT) (s k v : List Byte) (m : Mem) (hs : CStr (m.bytes b) o s) (hne : s ≠ [])
    (hk : CStr (m.bytes bk) ok k) (hv : CStr (m.bytes bv) ov v)
    (hka : bk ≠ b ∨ ok + k.length + 1 ≤ o ∨ o + size.toNat ≤ ok) (hva : bv ≠ b ∨ ov + v.length + 1 ≤ o ∨ o + size.toNat ≤ ov)
    (hroom : o + size.toNat ≤ (m.bytes b).length) (hsmall : s.length + k.length + v.length + 7 < 2 ^ 64)
    (hfit : s.length + (sep s).length < size.toNat) :
    ∃ t m', addDataT (ptr b o) size (ptr bk ok) (ptr bv ov) m = .ok ((add size.toNat s (k, v)).1, t) m' ∧
      t.length = addSteps size.toNat s (k, v) := by
  obtain ⟨m', ⟨t, h1, h2⟩, -⟩ := addData_goes (size := size) ⟨hs, hk, hv, hka, hva, hroom, by omega⟩ hne hsmall hfit
  exact ⟨t, m', h1, h2⟩

/-- C143: any sequence of additions to any non-empty text, including failing ones. -/
theorem C143_additions (b o : Nat) (size : SizeT) (l : List (List Byte × List Byte)) (ps : List (Ptr × Ptr))
    (s : List Byte) (m : Mem) (hs : CStr (m.bytes b) o s) (hn : s ≠ []) (hl : s.length < size.toNat)
    (hroom : o + size.toNat ≤ (m.bytes b).length) (hh : Holds m b o size.toNat ps l)
    (hsm : ∀ x ∈ l, size.toNat + x.1.length + x.2.length + 7 < 2 ^ 64) (rs : List Bool) (s' : List Byte)
    (hrun : run size.toNat s l = some (rs, s')) :
    ∃ t m', addAllT (ptr b o) size ps m = .ok (rs, t) m' ∧ t.length = additionSteps size.toNat s l := by
  obtain ⟨m', ⟨t, h1, h2⟩, -⟩ := addAll_goes (size := size) l ps s m (rs, s') hs hn hl hroom hh hsm hrun
  exact ⟨t, m', h1, h2⟩

/-- C143: closing any text, successful or not. -/
theorem C143_end (b o : Nat) (size : SizeT) (s : List Byte) (m : Mem) (hs : CStr (m.bytes b) o s)
    (hroom : o + size.toNat ≤ (m.bytes b).length) (hsmall : s.length + 2 < 2 ^ 64) :
    ∃ t m', endStringT (ptr b o) size m = .ok (decide (s.length + 2 ≤ size.toNat), t) m' ∧
      t.length = endSteps size.toNat s := by
  obtain ⟨m', t, h1, h2⟩ := endString_goes (size := size) hs hroom hsmall
  exact ⟨t, m', h1, h2⟩

/-! ### A whole document -/

theorem member_len (k v : List Byte) : (member k v).length = k.length + v.length + 5 := by
  simp only [member, str, List.length_append, List.length_cons, List.length_nil]; omega

theorem document_len (l : List (List Byte × List Byte)) : (document l).length = ([123#8] ++ members l).length + 1 := by
  simp [document]

theorem sep_len_open (l : List (List Byte × List Byte)) : (sep ([123#8] ++ members l)).length = if l = [] then 0 else 1 := by
  cases l with
  | nil => simp [members, sep]
  | cons y l =>
    obtain ⟨u, hu⟩ := members_quote y l
    rw [hu, show [123#8] ++ (u ++ [34#8]) = ([123#8] ++ u) ++ [34#8] by simp, sep_quote]
    simp

theorem last_open (l : List (List Byte × List Byte)) : (([123#8] ++ members l).getLast? = some 34#8) ↔ l ≠ [] := by
  cases l with
  | nil => simp [members]
  | cons y l =>
    obtain ⟨u, hu⟩ := members_quote y l
    rw [hu, show [123#8] ++ (u ++ [34#8]) = ([123#8] ++ u) ++ [34#8] by simp, List.getLast?_concat]
    simp

theorem document_snoc_len (l : List (List Byte × List Byte)) (x : List Byte × List Byte) :
    (document (l ++ [x])).length = (document l).length + x.1.length + x.2.length + 5 + if l = [] then 0 else 1 := by
  have h := congrArg List.length (open_snoc l x)
  rw [List.length_append, List.length_append (as := [123#8] ++ members l), sep_len_open, member_len] at h
  rw [document_len, document_len]
  omega

theorem additionSteps_document {size : Nat} : ∀ (l l0 : List (List Byte × List Byte)),
    (document (l0 ++ l)).length + 1 ≤ size →
    additionSteps size ([123#8] ++ members l0) l + 4 * (document l0).length =
      ((List.range l.length).map fun i => (document (l0 ++ l.take i)).length).sum + 4 * (document (l0 ++ l)).length := by
  intro l
  induction l with
  | nil => intro l0 _; simp [additionSteps]
  | cons x l ih =>
    intro l0 h
    have e : l0 ++ x :: l = (l0 ++ [x]) ++ l := by simp
    have hs := open_snoc l0 x
    have hlen : ([123#8] ++ members (l0 ++ [x])).length + 2 ≤ size := by
      have := members_length (l0 ++ [x]) l
      rw [e] at h
      simp only [document, List.length_append, List.length_cons, List.length_nil] at h this ⊢
      omega
    have hadd : add size ([123#8] ++ members l0) x = (true, [123#8] ++ members (l0 ++ [x])) := by
      unfold add
      rw [hs, if_pos (by omega)]
    have hih := ih (l0 ++ [x]) (by rw [← e]; exact h)
    rw [additionSteps, addSteps, hadd]
    rw [List.length_cons, List.range_succ_eq_map, List.map_cons, List.sum_cons, List.map_map]
    have hm : ((List.range l.length).map ((fun i => (document (l0 ++ (x :: l).take i)).length) ∘ Nat.succ)) =
        (List.range l.length).map fun i => (document ((l0 ++ [x]) ++ l.take i)).length := by
      apply List.map_congr_left
      intro i _
      simp
    rw [hm, e]
    have h1 := document_snoc_len l0 x
    have h2 := document_len l0
    simp only [List.take_zero, List.append_nil, if_true]
    by_cases hl : l0 = []
    · have := last_open l0
      rw [if_neg (fun h => (last_open l0).mp h hl)]
      rw [if_pos hl] at h1
      omega
    · rw [if_pos ((last_open l0).mpr hl)]
      rw [if_neg hl] at h1
      omega

/-- C143: building a document that fits.  The number of steps is the sum of the lengths of the documents with the first 0,
1, ..., all members, plus four times the length of the document, less two. -/
theorem C143_build (b o : Nat) (size : SizeT) (l : List (List Byte × List Byte)) (ps : List (Ptr × Ptr)) (m : Mem)
    (hroom : o + size.toNat ≤ (m.bytes b).length) (hh : Holds m b o size.toNat ps l)
    (hfit : (document l).length + 1 ≤ size.toNat)
    (hsm : ∀ x ∈ l, size.toNat + x.1.length + x.2.length + 7 < 2 ^ 64) :
    ∃ rs t m', buildT (ptr b o) size ps m = .ok (rs, t) m' ∧ CStr (m'.bytes b) o (document l) ∧
      t.length + 2 = lengths l + 4 * (document l).length := by
  have hd := document_len l
  have hd2 : 1 ≤ ([123#8] ++ members l).length := by simp
  have hsz := size.isLt
  obtain ⟨m1, a1, a2, a3⟩ := startString_goes (m := m) (b := b) (o := o) (size := size) hroom (by omega)
  have a3' := oc_mono a3 (o2 := o) (n2 := size.toNat) (by omega) (by omega)
  have hr := run_document (size := size.toNat) l [] (by simpa using hfit)
  rw [show [123#8] ++ members [] = [123#8] by simp [members], List.nil_append] at hr
  obtain ⟨m2, b1, b2, b3⟩ := addAll_goes (size := size) l ps [123#8] m1 _ a2 (by simp) (by simp; omega)
    (by rw [oc_length a3]; exact hroom) (holds_frame a3' hh) hsm hr
  dsimp only at b1 b2
  obtain ⟨m3, c1⟩ := endString_goes (size := size) b2 (by rw [oc_length b3, oc_length a3]; exact hroom) (by omega)
  have hg : Goes (buildT (ptr b o) size ps) m
      (true :: List.replicate l.length true ++ [decide (([123#8] ++ members l).length + 2 ≤ size.toNat)])
      (3 + (additionSteps size.toNat [123#8] l + (endSteps size.toNat ([123#8] ++ members l) + 0))) m3 :=
    Goes.bind a1 (Goes.bind b1 (Goes.bind c1 (Goes.pure _ _)))
  have he := Goes.erase hg
  rw [erase_build] at he
  obtain ⟨m4, g1, g2, -⟩ := build_ok l ps m hroom hh hfit hsm
  rw [he] at g1
  injection g1 with _ g1
  subst g1
  obtain ⟨t, h1, h2⟩ := hg
  refine ⟨_, t, m3, h1, g2, ?_⟩
  rw [h2, endSteps, if_pos (by omega)]
  have h := additionSteps_document (size := size.toNat) l [] (by simpa using hfit)
  simp only [List.nil_append] at h
  rw [show [123#8] ++ members [] = [123#8] by simp [members],
    show (document []).length = 2 by simp [document, members]] at h
  rw [lengths, List.range_succ, List.map_append, List.sum_append]
  simp only [List.map_cons, List.map_nil, List.sum_cons, List.sum_nil, List.take_length]
  omega

theorem lengths_nil : lengths [] = 2 := by simp [lengths, document, members]

theorem lengths_snoc (l : List (List Byte × List Byte)) (x : List Byte × List Byte) :
    lengths (l ++ [x]) = lengths l + (document (l ++ [x])).length := by
  unfold lengths
  rw [List.length_append, List.length_singleton, List.range_succ (n := l.length + 1), List.map_append, List.sum_append]
  have hm : ((List.range (l.length + 1)).map fun i => (document ((l ++ [x]).take i)).length) =
      (List.range (l.length + 1)).map fun i => (document (l.take i)).length := by
    apply List.map_congr_left
    intro i hi
    rw [List.mem_range] at hi
    rw [List.take_append_of_le_length (by omega)]
  rw [hm]
  simp only [List.map_cons, List.map_nil, List.sum_cons, List.sum_nil, Nat.add_zero]
  rw [List.take_of_length_le (by simp)]

/-- C143, upper bound: at most the length of the document times the number of members plus five. -/
theorem C143_bound (l : List (List Byte × List Byte)) :
    lengths l + 4 * (document l).length ≤ (l.length + 5) * (document l).length := by
  have h : lengths l ≤ (l.length + 1) * (document l).length := by
    induction l using List.reverseRecOn with
    | nil => rw [lengths_nil]; simp [document, members]
    | append_singleton l x ih =>
      rw [lengths_snoc, List.length_append, List.length_singleton, Nat.add_mul (l.length + 1)]
      have := document_snoc_len l x
      have h2 : (l.length + 1) * (document l).length ≤ (l.length + 1) * (document (l ++ [x])).length :=
        Nat.mul_le_mul_left _ (by omega)
      omega
  have : (l.length + 5) * (document l).length = (l.length + 1) * (document l).length + 4 * (document l).length := by
    rw [← Nat.add_mul]
  omega

theorem document_len_ge (l : List (List Byte × List Byte)) : 6 * l.length + 1 ≤ (document l).length := by
  induction l using List.reverseRecOn with
  | nil => simp [document, members]
  | append_singleton l x ih =>
    rw [document_snoc_len, List.length_append, List.length_singleton]
    by_cases h : l = []
    · subst h; simp [document, members]; omega
    · rw [if_neg h]; omega

/-- C143, lower bound: whatever the keys and values, the number of steps grows with the square of the number of members. -/
theorem C143_quadratic (l : List (List Byte × List Byte)) :
    3 * l.length * l.length + 28 * l.length + 6 ≤ lengths l + 4 * (document l).length := by
  have h : 3 * l.length * l.length + 4 * l.length + 2 ≤ lengths l := by
    induction l using List.reverseRecOn with
    | nil => rw [lengths_nil]; simp
    | append_singleton l x ih =>
      have := document_len_ge (l ++ [x])
      rw [lengths_snoc]
      rw [List.length_append, List.length_singleton] at this ⊢
      simp only [Nat.mul_add, Nat.add_mul, Nat.mul_one, Nat.one_mul] at this ⊢
      omega
  have := document_len_ge l
  omega

/-- C143: the lower bound is attained by empty keys and values. -/
theorem C143_shortest (n : Nat) :
    lengths (List.replicate (n + 1) ([], [])) + 4 * (document (List.replicate (n + 1) ([], []))).length =
      3 * (n + 1) * (n + 1) + 28 * (n + 1) + 6 := by
  have hd : ∀ n, (document (List.replicate (n + 1) ([], []))).length = 6 * (n + 1) + 1 := by
    intro n
    induction n with
    | zero => rfl
    | succ n ih =>
      rw [List.replicate_succ', document_snoc_len, ih, if_neg (by simp)]
      simp only [List.length_nil]
      omega
  have hl : ∀ n, lengths (List.replicate (n + 1) ([], [])) = 3 * (n + 1) * (n + 1) + 4 * (n + 1) + 2 := by
    intro n
    induction n with
    | zero => rfl
    | succ n ih =>
      rw [List.replicate_succ', lengths_snoc, ih, ← List.replicate_succ', hd]
      simp only [Nat.mul_add, Nat.add_mul, Nat.mul_one, Nat.one_mul]
      omega
  rw [hl, hd]
  omega

/-- C143, the lower bound for the calls themselves. -/
theorem C143_calls (b o : Nat) (size : SizeT) (l : List (List Byte × List Byte)) (ps : List (Ptr × Ptr)) (m : Mem)
    (hroom : o + size.toNat ≤ (m.bytes b).length) (hh : Holds m b o size.toNat ps l)
    (hfit : (document l).length + 1 ≤ size.toNat)
    (hsm : ∀ x ∈ l, size.toNat + x.1.length + x.2.length + 7 < 2 ^ 64) :
    ∃ rs t m', buildT (ptr b o) size ps m = .ok (rs, t) m' ∧
      3 * l.length * l.length + 28 * l.length + 4 ≤ t.length ∧ t.length + 2 ≤ (l.length + 5) * (document l).length := by
  obtain ⟨rs, t, m', h1, -, h2⟩ := C143_build b o size l ps m hroom hh hfit hsm
  have h3 := C143_quadratic l
  have h4 := C143_bound l
  exact ⟨rs, t, m', h1, by omega, by omega⟩

/-! ### Non-vacuity -/

/-- The number of steps of a run. -/
def stepCount {α : Type} : Res (α × List Leak) → Option Nat
  | .ok (_, t) _ => some t.length
  | .ub _ => none

/-- `{"a":"1","bc":""}`: documents of 2, 9 and 17 characters, 28 + 68 - 2 steps. -/
example : Holds (memL [ascii "??" ++ List.replicate 19 7, [97, 0, 49, 0], [98, 99, 0]]) 0 2 19
      [(ptr 1 0, ptr 1 2), (ptr 2 0, ptr 2 2)] [([97], [49]), ([98, 99], [])] ∧
    lengths [([97], [49]), ([98, 99], [])] = 28 ∧ (document [([97], [49]), ([98, 99], [])]).length = 17 ∧
    stepCount (buildT (ptr 0 2) 19#64 [(ptr 1 0, ptr 1 2), (ptr 2 0, ptr 2 2)]
      (memL [ascii "??" ++ List.replicate 19 7, [97, 0, 49, 0], [98, 99, 0]])) = some 94 := by
  refine ⟨⟨⟨1, 0, 1, 2, rfl, ⟨by decide, ⟨_, rfl⟩⟩, ⟨by decide, ⟨_, rfl⟩⟩, by decide, by decide⟩,
    ⟨2, 0, 2, 2, rfl, ⟨by decide, ⟨_, rfl⟩⟩, ⟨by decide, ⟨_, rfl⟩⟩, by decide, by decide⟩, trivial⟩, ?_, ?_, ?_⟩
  all_goals decide +kernel

/-- A refused addition costs the measuring and, behind a quote, the comma: 1 + 9 + 7 + 0 steps behind `{`, 6 + 9 + 7 + 4
behind `{"":""`. -/
example : addSteps 12 (ascii "{") (ascii "abc", ascii "def123") = 17 ∧
    (add 12 (ascii "{") (ascii "abc", ascii "def123")).1 = false ∧
    addSteps 12 (ascii "{\"\":\"\"") (ascii "abc", ascii "def123") = 26 := by decide +kernel

end IMU.Props
