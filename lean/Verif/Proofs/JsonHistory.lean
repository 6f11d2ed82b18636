import Verif.Proofs.JsonFind
import Verif.Proofs.JsonText
import Verif.Spec.JsonCalls

namespace IMU.Json
open Spec

theorem holds_frame {m m' : Mem} {b o n : Nat} (h : OnlyChanged m m' b o n) : ∀ {ps l}, Spec.Json.Holds m b o n ps l →
    Spec.Json.Holds m' b o n ps l := by
  intro ps
  induction ps with
  | nil => intro l hl; cases l with
    | nil => trivial
    | cons x l => exact hl
  | cons p ps ih =>
    intro l hl
    cases l with
    | nil => exact hl
    | cons x l =>
      obtain ⟨⟨bk, ok, bv, ov, e, h1, h2, h3, h4⟩, hl⟩ := hl
      exact ⟨⟨bk, ok, bv, ov, e, cstr_frame h1 h (by omega), cstr_frame h2 h (by omega), h3, h4⟩, ih hl⟩

theorem add_length {size : Nat} {t : List Byte} {x : List Byte × List Byte} (h : t.length + (Spec.Json.sep t).length < size) :
    (Spec.Json.add size t x).2.length < size := by
  unfold Spec.Json.add
  split
  · dsimp only; omega
  · simp; omega

theorem add_ne {size : Nat} {t : List Byte} {x : List Byte × List Byte} (h : t ≠ []) :
    (Spec.Json.add size t x).2 ≠ [] := by
  unfold Spec.Json.add
  split <;> simp [h]

theorem add_le {size : Nat} (t : List Byte) (x : List Byte × List Byte) :
    t.length ≤ (Spec.Json.add size t x).2.length := by
  unfold Spec.Json.add
  split
  · simp only [List.length_append]; omega
  · simp

/-- Any number of additions. -/
theorem addAll_ok {b o : Nat} {size : SizeT} : ∀ (l : List (List Byte × List Byte)) (ps : List (Ptr × Ptr)) (t : List Byte)
    (m : Mem), CStr (m.bytes b) o t → t ≠ [] → t.length < size.toNat → o + size.toNat ≤ (m.bytes b).length →
    Spec.Json.Holds m b o size.toNat ps l → (∀ x ∈ l, size.toNat + x.1.length + x.2.length + 7 < 2 ^ 64) →
    (∀ r, Spec.Json.run size.toNat t l = some r → ∃ m', Spec.Json.addAll (ptr b o) size ps m = .ok r.1 m' ∧
      CStr (m'.bytes b) o r.2 ∧ OnlyChanged m m' b (o + t.length) (size.toNat - t.length)) ∧
    (Spec.Json.run size.toNat t l = none → (m.bytes b).length = o + size.toNat →
      Spec.Json.addAll (ptr b o) size ps m = .ub .oobWrite) := by
  intro l
  induction l with
  | nil =>
    intro ps t m ht hn hl hroom hh _
    cases ps with
    | cons p ps => exact absurd hh id
    | nil =>
      refine ⟨?_, fun h => by cases h⟩
      intro r hr
      injection hr with hr
      subst hr
      exact ⟨m, rfl, ht, oc_refl _ _ _ _⟩
  | cons x l ih =>
    intro ps t m ht hn hl hroom hh hsm
    cases ps with
    | nil => exact absurd hh id
    | cons p ps =>
      obtain ⟨⟨bk, ok, bv, ov, e, h1, h2, h3, h4⟩, hh'⟩ := hh
      subst e
      have hx := hsm x (by simp)
      rw [Spec.Json.addAll, Spec.Json.run]
      by_cases hf : t.length + (Spec.Json.sep t).length < size.toNat
      · rw [if_pos hf]
        obtain ⟨m1, a1, a2, a3⟩ := addData_ok (size := size) ⟨ht, h1, h2, h3, h4, hroom, by omega⟩ hn (by omega) hf
        have a3' := oc_mono a3 (o2 := o) (n2 := size.toNat) (by omega) (by omega)
        have hih := ih ps (Spec.Json.add size.toNat t (x.1, x.2)).2 m1 a2 (add_ne hn) (add_length hf)
          (by rw [oc_length a3]; exact hroom) (holds_frame a3' hh') (fun y hy => hsm y (by simp [hy]))
        have hle := add_le (size := size.toNat) t (x.1, x.2)
        have hlt := add_length (x := (x.1, x.2)) hf
        rw [C.bind_ok a1]
        constructor
        · intro r hr
          rw [Option.map_eq_some_iff] at hr
          obtain ⟨r', hr', e⟩ := hr
          subst e
          obtain ⟨m2, b1, b2, b3⟩ := hih.1 r' hr'
          refine ⟨m2, ?_, b2, oc_trans a3 (oc_mono b3 (by omega) (by omega))⟩
          rw [C.bind_ok b1]
          rfl
        · intro hr hend
          rw [Option.map_eq_none_iff] at hr
          rw [C.bind_ub (hih.2 hr (by rw [oc_length a3]; exact hend))]
      · rw [if_neg hf]
        refine ⟨fun r h => (nomatch h), fun _ hend => ?_⟩
        have hq : t.getLast? = some 34#8 := by
          apply Classical.byContradiction
          intro hq
          rw [Spec.Json.sep_eq_nil hq] at hf
          simp at hf; omega
        have hs : (Spec.Json.sep t).length = 1 := by simp [Spec.Json.sep, hq]
        rw [C.bind_ub (addData_oob ht h1 h2 (by omega) hq (by omega))]

/-- Failure without a separator: nothing changes. -/
theorem addData_same {m : Mem} {b o : Nat} {size : SizeT} {t : List Byte} {bk ok : Nat} {k : List Byte} {bv ov : Nat}
    {v : List Byte} (ht : CStr (m.bytes b) o t) (hk : CStr (m.bytes bk) ok k) (hv : CStr (m.bytes bv) ov v) (hn : t ≠ [])
    (hsmall : t.length + k.length + v.length + 6 < 2 ^ 64) (hq : t.getLast? ≠ some 34#8)
    (hbig : size.toNat < (t ++ Spec.Json.member k v).length + 1) :
    addData (ptr b o) size (ptr bk ok) (ptr bv ov) m = .ok false m := by
  have hml : (Spec.Json.member k v).length = k.length + v.length + 5 := by
    simp only [Spec.Json.member, Spec.Json.str, List.length_append, List.length_cons, List.length_nil]; omega
  unfold addData
  rw [C.bind_ok (strlen_ok ht), C.bind_ok (strlen_ok hk), C.bind_ok (strlen_ok hv),
    C.bind_ok (addComma_none ht hn (by omega) hq), if_neg]
  · rfl
  · rw [BitVec.le_def, show 5#64 + BitVec.ofNat 64 k.length + BitVec.ofNat 64 v.length + 1#64 + BitVec.ofNat 64 t.length =
        BitVec.ofNat 64 (5 + k.length + v.length + 1 + t.length) by simp only [BitVec.ofNat_add], ofNat64 (by omega)]
    rw [List.length_append, hml] at hbig
    omega

theorem members_length (l : List (List Byte × List Byte)) (l' : List (List Byte × List Byte)) :
    (Spec.Json.members l).length ≤ (Spec.Json.members (l ++ l')).length := by
  cases l' with
  | nil => simp
  | cons x l' =>
    have h := Spec.Json.members_mid l x l'
    rw [h]; simp only [List.length_append]; omega

/-- If the whole document fits, every addition succeeds. -/
theorem run_document {size : Nat} : ∀ (l l0 : List (List Byte × List Byte)),
    (Spec.Json.document (l0 ++ l)).length + 1 ≤ size →
    Spec.Json.run size ([123#8] ++ Spec.Json.members l0) l =
      some (List.replicate l.length true, [123#8] ++ Spec.Json.members (l0 ++ l)) := by
  intro l
  induction l with
  | nil => intro l0 _; simp [Spec.Json.run]
  | cons x l ih =>
    intro l0 h
    have e : l0 ++ x :: l = (l0 ++ [x]) ++ l := by simp
    have hs := Spec.Json.open_snoc l0 x
    have hlen : ([123#8] ++ Spec.Json.members (l0 ++ [x])).length + 2 ≤ size := by
      have := members_length (l0 ++ [x]) l
      rw [e] at h
      simp only [Spec.Json.document, List.length_append, List.length_cons, List.length_nil] at h this ⊢
      omega
    have hadd : Spec.Json.add size ([123#8] ++ Spec.Json.members l0) x =
        (true, [123#8] ++ Spec.Json.members (l0 ++ [x])) := by
      unfold Spec.Json.add
      rw [hs, if_pos (by omega)]
    rw [Spec.Json.run, if_pos, hadd, ih (l0 ++ [x]) (by rw [← e]; exact h), e]
    · rfl
    · have := congrArg List.length hs
      rw [List.length_append, List.length_append (as := [123#8] ++ Spec.Json.members l0)] at this
      omega

/-- The whole construction. -/
theorem build_ok {b o : Nat} {size : SizeT} (l : List (List Byte × List Byte)) (ps : List (Ptr × Ptr)) (m : Mem)
    (hroom : o + size.toNat ≤ (m.bytes b).length) (hh : Spec.Json.Holds m b o size.toNat ps l)
    (hfit : (Spec.Json.document l).length + 1 ≤ size.toNat)
    (hsm : ∀ x ∈ l, size.toNat + x.1.length + x.2.length + 7 < 2 ^ 64) :
    ∃ m', Spec.Json.build (ptr b o) size ps m = .ok (List.replicate (l.length + 2) true) m' ∧
      CStr (m'.bytes b) o (Spec.Json.document l) ∧ OnlyChanged m m' b o size.toNat := by
  have hd : (Spec.Json.document l).length = ([123#8] ++ Spec.Json.members l).length + 1 := by
    simp [Spec.Json.document]
  have hd2 : 1 ≤ ([123#8] ++ Spec.Json.members l).length := by simp
  have hsz := size.isLt
  obtain ⟨m1, a1, a2, a3⟩ := startString_ok (m := m) (b := b) (o := o) (size := size) hroom (by omega)
  have a3' := oc_mono a3 (o2 := o) (n2 := size.toNat) (by omega) (by omega)
  have hr := run_document (size := size.toNat) l [] (by simpa using hfit)
  rw [show [123#8] ++ Spec.Json.members [] = [123#8] by simp [Spec.Json.members], List.nil_append] at hr
  obtain ⟨m2, b1, b2, b3⟩ := (addAll_ok (size := size) l ps [123#8] m1 a2 (by simp) (by simp; omega)
    (by rw [oc_length a3]; exact hroom) (holds_frame a3' hh) hsm).1 _ hr
  have b3' := oc_mono b3 (o2 := o) (n2 := size.toNat) (by omega) (by simp; omega)
  dsimp only at b2 b1
  obtain ⟨m3, c1, c2, c3⟩ := endString_ok (size := size) b2 (by rw [oc_length b3, oc_length a3]; exact hroom)
    (by omega) (by omega)
  have c3' := oc_mono c3 (o2 := o) (n2 := size.toNat) (by omega) (by omega)
  refine ⟨m3, ?_, c2, oc_trans a3' (oc_trans b3' c3')⟩
  unfold Spec.Json.build
  rw [C.bind_ok a1, C.bind_ok b1, C.bind_ok c1]
  have e : (true :: List.replicate l.length true) ++ [true] = List.replicate (l.length + 2) true := by
    rw [← List.replicate_succ, ← List.replicate_succ']
  rw [← e]
  rfl

end IMU.Json
