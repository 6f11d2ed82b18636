import Verif.Proofs.LeakNumber
import Verif.Props.Utils

/-!
# Property C146: what reading a number shows

Src/utils.c:44-93, to an observer who sees all addresses and decisions (`Verif/C/Leak.lean`).
-/

namespace IMU.Props
open Spec Spec.LeakNumber T Utils

/-- C146: what is observed is the code that the other properties are about. -/
theorem C146_same_code (charSigned : Bool) (str : Ptr) (n : Byte) :
    erase (stringToUint32T charSigned str n) = stringToUint32 charSigned str n :=
  erase_stringToUint32 charSigned str n

/-- C146: two calls with the same arguments show the same exactly if the same can be told of their texts. -/
theorem C146_shown (charSigned : Bool) (b o : Nat) (n : Byte) (m1 m2 : Mem)
    (h1 : o + n.toNat ≤ (m1.bytes b).length) (h2 : o + n.toNat ≤ (m2.bytes b).length) :
    ∃ r1 t1 r2 t2, stringToUint32T charSigned (ptr b o) n m1 = .ok (r1, t1) m1 ∧
      stringToUint32T charSigned (ptr b o) n m2 = .ok (r2, t2) m2 ∧
      (t1 = t2 ↔ told charSigned (slice (m1.bytes b) o n.toNat) = told charSigned (slice (m2.bytes b) o n.toNat)) := by
  obtain ⟨r1, g1⟩ := number_runs charSigned h1
  obtain ⟨r2, g2⟩ := number_runs charSigned h2
  exact ⟨r1, _, r2, _, g1, g2, numShown_iff charSigned b o _ _ (by rw [slice_length _ _ _ h1, slice_length _ _ _ h2])⟩

/-- An accepted text. -/
theorem accepted_text {charSigned : Bool} {b o : Nat} {n : Byte} {m m' : Mem} {v : U32} {t : List Leak}
    (hm : o + n.toNat ≤ (m.bytes b).length) (h : stringToUint32T charSigned (ptr b o) n m = .ok ((true, v), t) m') :
    n.toNat ≤ 10 ∧ (∀ c ∈ slice (m.bytes b) o n.toNat, IsDigit c) ∧
      decimal (slice (m.bytes b) o n.toNat) = v.toNat ∧ t = numShown charSigned b o (slice (m.bytes b) o n.toNat) := by
  obtain ⟨r, k, hk, hiff, hval⟩ := C01_stringToUint32_exact charSigned m b o n hm
  obtain ⟨r2, g⟩ := number_runs charSigned hm
  have e1 := Runs.erase h
  rw [C146_same_code, hk] at e1
  injection e1 with e1 _
  obtain ⟨rfl, rfl⟩ := Prod.mk.inj e1
  have e2 : Res.ok ((true, k), t) m' = Res.ok (r2, numShown charSigned b o (slice (m.bytes b) o n.toNat)) m := by
    rw [← h]; exact g
  injection e2 with e2 _
  exact ⟨(hiff.1 rfl).1, (hiff.1 rfl).2.1, (hval rfl).symm, (Prod.mk.inj e2).2⟩

/-- C146: two accepted numbers of the same number of digits show the same, unless exactly one of them is one of the six
greatest 32-bit numbers. -/
theorem C146_accepted (charSigned : Bool) (b o : Nat) (n : Byte) (m1 m2 m1' m2' : Mem) (v1 v2 : U32) (t1 t2 : List Leak)
    (h1 : o + n.toNat ≤ (m1.bytes b).length) (h2 : o + n.toNat ≤ (m2.bytes b).length)
    (g1 : stringToUint32T charSigned (ptr b o) n m1 = .ok ((true, v1), t1) m1')
    (g2 : stringToUint32T charSigned (ptr b o) n m2 = .ok ((true, v2), t2) m2') :
    t1 = t2 ↔ (v1.toNat < 4294967290 ↔ v2.toNat < 4294967290) := by
  obtain ⟨hn, hd1, hv1, rfl⟩ := accepted_text h1 g1
  obtain ⟨_, hd2, hv2, rfl⟩ := accepted_text h2 g2
  have hl1 : (slice (m1.bytes b) o n.toNat).length = n.toNat := slice_length _ _ _ h1
  have hl2 : (slice (m2.bytes b) o n.toNat).length = n.toNat := slice_length _ _ _ h2
  rw [numShown_iff charSigned b o _ _ (hl1.trans hl2.symm)]
  unfold told
  have hn' : ¬ 10 < n.toNat := by omega
  rw [hl1, hl2, if_neg hn', if_neg hn', front_all _ hd1, front_all _ hd2, hl1, hl2, hv1, hv2]
  have b1 := v1.isLt
  have b2 := v2.isLt
  by_cases h10 : n.toNat = 10
  · rw [if_pos ⟨h10, hd1⟩, if_pos ⟨h10, hd2⟩]
    simp only [Prod.mk.injEq, true_and]
    unfold level
    by_cases c1 : v1.toNat < 4294967290 <;> by_cases c2 : v2.toNat < 4294967290 <;>
      simp [c1, c2, show v1.toNat < 4294967296 by omega, show v2.toNat < 4294967296 by omega]
  · rw [if_neg (fun e => h10 e.1), if_neg (fun e => h10 e.1)]
    have c1 := decimal_lt _ hd1
    have c2 := decimal_lt _ hd2
    rw [hl1, hv1] at c1
    rw [hl2, hv2] at c2
    have : 10 ^ n.toNat ≤ 10 ^ 9 := Nat.pow_le_pow_right (by norm_num) (by omega)
    simp only [true_iff]
    omega

/-! ### The number of steps -/

theorem charShown_length (cs : Bool) (b o : Nat) (c : Byte) :
    (charShown cs b o c).length ≤ 4 ∧ (IsDigit c → (charShown cs b o c).length = 4) := by
  constructor
  · unfold charShown; cases side cs c <;> simp
  · intro h; unfold charShown; rw [(side_digit cs c).2 h]; rfl

theorem loopShown_length (cs : Bool) (b : Nat) : ∀ (s : List Byte) (o : Nat), (loopShown cs b o s).length ≤ 9 * s.length + 1 ∧
    ((∀ c ∈ s, IsDigit c) → (loopShown cs b o s).length = 9 * s.length + 1) := by
  intro s
  induction s with
  | nil => intro o; simp [loopShown]
  | cons c s ih =>
    intro o
    have h1 := charShown_length cs b o c
    have h2 := ih (o + 1)
    simp only [loopShown, List.length_cons, List.length_append]
    by_cases hd : IsDigit c
    · simp only [hd, if_true, List.length_cons]
      refine ⟨by omega, fun h => ?_⟩
      have := h2.2 (fun x hx => h x (List.mem_cons_of_mem _ hx))
      have := h1.2 hd
      omega
    · simp only [hd, if_false, List.length_cons, List.length_nil]
      exact ⟨by omega, fun h => absurd (h c (List.mem_cons_self)) hd⟩

theorem levelShown_length (l : Nat) : (levelShown l).length ≤ 3 := by
  unfold levelShown
  split
  · simp
  · split
    · simp
    · split <;> simp

/-- C146: an accepted number of up to nine digits takes nine steps per digit and three more; one of ten digits takes 92, the
six greatest ones 93. -/
theorem C146_steps (charSigned : Bool) (b o : Nat) (n : Byte) (m m' : Mem) (v : U32) (t : List Leak)
    (hm : o + n.toNat ≤ (m.bytes b).length) (h : stringToUint32T charSigned (ptr b o) n m = .ok ((true, v), t) m') :
    t.length = if n.toNat = 10 then (if v.toNat < 4294967290 then 92 else 93) else 9 * n.toNat + 3 := by
  obtain ⟨hn, hd, hv, rfl⟩ := accepted_text hm h
  have hl : (slice (m.bytes b) o n.toNat).length = n.toNat := slice_length _ _ _ hm
  have hb := v.isLt
  generalize slice (m.bytes b) o n.toNat = s at hd hv hl
  unfold numShown
  rw [hl]
  by_cases h10 : n.toNat = 10
  · rw [if_neg (by omega), if_pos h10, if_pos h10]
    have hs : s = s.take 9 ++ [s.getD 9 0#8] := by
      have := List.take_append_drop 9 s
      conv_lhs => rw [← this]
      rw [List.drop_eq_getElem_cons (by omega), List.drop_eq_nil_of_le (by omega), List.getD_eq_getElem?_getD,
        List.getElem?_eq_getElem (by omega)]; rfl
    have hd9 : ∀ x ∈ s.take 9, IsDigit x := fun x hx => hd x (List.mem_of_mem_take hx)
    have hdl : IsDigit (s.getD 9 0#8) := by
      have hm9 : s.getD 9 0#8 ∈ s.take 9 ++ [s.getD 9 0#8] := by simp
      rw [← hs] at hm9
      exact hd _ hm9
    unfold tenShown
    rw [if_pos hd9, if_pos hdl, ← hs, hv]
    have e1 := (loopShown_length charSigned b (s.take 9) o).2 hd9
    have e2 := (charShown_length charSigned b (o + 9) (s.getD 9 0#8)).2 hdl
    have e3 : (s.take 9).length = 9 := by simp; omega
    simp only [List.length_cons, List.length_append, e1, e2, e3]
    by_cases hc : v.toNat < 4294967290
    · rw [if_pos hc, levelShown_zero hc]; rfl
    · rw [if_neg hc, levelShown_one hc (by omega)]; rfl
  · rw [if_pos (by omega), if_neg h10]
    have e1 := (loopShown_length charSigned b s o).2 hd
    simp only [List.length_cons, List.length_append, e1, hl, List.length_nil]

/-- C146: no call takes more than 93 steps. -/
theorem C146_most (charSigned : Bool) (b o : Nat) (n : Byte) (m : Mem) (hm : o + n.toNat ≤ (m.bytes b).length) :
    ∃ r t, stringToUint32T charSigned (ptr b o) n m = .ok (r, t) m ∧ t.length ≤ 93 ∧ (10 < n.toNat → t.length ≤ 12) := by
  obtain ⟨r, g⟩ := number_runs charSigned hm
  refine ⟨r, _, g, ?_⟩
  have hl : (slice (m.bytes b) o n.toNat).length = n.toNat := slice_length _ _ _ hm
  generalize slice (m.bytes b) o n.toNat = s at hl
  unfold numShown
  rw [hl]
  by_cases h1 : n.toNat < 10
  · rw [if_pos h1]
    have := (loopShown_length charSigned b s o).1
    simp only [List.length_cons, List.length_append, List.length_nil]
    omega
  · rw [if_neg h1]
    by_cases h2 : n.toNat = 10
    · rw [if_pos h2]
      have e1 := (loopShown_length charSigned b (s.take 9) o).1
      have e2 := (charShown_length charSigned b (o + 9) (s.getD 9 0#8)).1
      have e3 : (s.take 9).length = 9 := by simp; omega
      have e4 := levelShown_length (level (decimal (s.take 9 ++ [s.getD 9 0#8])))
      unfold tenShown
      simp only [List.length_cons, List.length_append]
      split
      · split
        · simp only [List.length_append, List.length_cons]; omega
        · simp only [List.length_append, List.length_nil]; omega
      · simp only [List.length_nil]; omega
    · rw [if_neg h2]
      have e2 := (charShown_length charSigned b o (s.getD 0 0#8)).1
      unfold longShown
      simp only [List.length_cons, List.length_append]
      split <;> simp only [List.length_cons, List.length_nil] <;> omega

/-! ### Cases -/

/-- A text in memory. -/
def numMem (s : String) : Mem := mem1 (s.toList.map fun c => BitVec.ofNat 8 c.toNat)

/-- The number of steps of a call. -/
def numSteps (s : String) (n : Byte) : Nat :=
  match stringToUint32T true (ptr 0 0) n (numMem s) with
  | .ok (_, t) _ => t.length
  | .ub _ => 0

-- nine digits, ten digits, one of the six greatest numbers, the first number that is too great
example : numSteps "123456789" 9 = 84 := by decide +kernel
example : numSteps "1234567890" 10 = 92 := by decide +kernel
example : numSteps "4294967290" 10 = 93 := by decide +kernel
example : numSteps "4294967296" 10 = 93 := by decide +kernel
example : numSteps "9999999999" 10 = 91 := by decide +kernel
-- a wrong character shows its place and its side
example : told true [49#8, 50#8, 43#8, 51#8] = ((2, some .below), 0) := by decide +kernel
example : told true [49#8, 50#8, 97#8, 51#8] = ((2, some .above), 0) := by decide +kernel
example : told true [49#8, 255#8] = ((1, some .below), 0) ∧ told false [49#8, 255#8] = ((1, some .above), 0) := by decide +kernel
-- C146_accepted and C146_steps: an accepted text
example : ∃ t m', stringToUint32T true (ptr 0 0) 3#8 (numMem "427") = .ok ((true, 427#32), t) m' := ⟨_, _, rfl⟩

end IMU.Props
