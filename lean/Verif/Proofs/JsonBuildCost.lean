import Verif.Proofs.JsonCost
import Verif.Proofs.JsonHistory
import Verif.Spec.JsonBuildCost

/-!
# Counting the steps of building a JSON text
-/

namespace IMU
open Spec Spec.JsonBuildCost Spec.Leak T

theorem erase_strcmpLit (lit : List Byte) : ∀ p : Ptr, erase (strcmpLitT p lit) = strcmpLit p lit := by
  induction lit with
  | nil => intro p; simp only [strcmpLitT, strcmpLit, erase_bind, erase_load, erase_branch]
  | cons x lit ih =>
    intro p
    simp only [strcmpLitT, strcmpLit, erase_bind, erase_load, erase_branch, pure_bind_C, erase_ite, erase_pure, ih]

theorem erase_strcpyLit (d : Ptr) (lit : List Byte) : erase (strcpyLitT d lit) = strcpyLit d lit := by
  simp only [strcpyLitT, erase_emit_bind, erase_quiet]

theorem erase_emit (t : List Leak) : erase (emit t) = pure () := rfl

theorem erase_strcpy (d s : Ptr) : erase (strcpyT d s) = strcpy d s := by
  simp only [strcpyT, strcpy, erase_bind, erase_emit, pure_bind_C, erase_quiet]

namespace Json

theorem erase_startString (b : Ptr) (n : SizeT) : erase (startStringT b n) = startString b n := by
  simp only [startStringT, startString, erase_branch, pure_bind_C, erase_ite, erase_bind, erase_strcpyLit, erase_pure, decide_eq_true_eq]

theorem erase_addComma (b : Ptr) (i : SizeT) : erase (addCommaT b i) = addComma b i := by
  simp only [addCommaT, addComma, erase_branch, pure_bind_C, erase_ite, erase_bind, erase_strcpyLit, erase_strcmpLit, erase_pure]

theorem erase_addMember (b : Ptr) (i : SizeT) (k v : Ptr) : erase (addMemberT b i k v) = addMember b i k v := by
  simp only [addMemberT, addMember, erase_bind, erase_strcpyLit, erase_strcpy, erase_strlen]

theorem erase_addData (b : Ptr) (n : SizeT) (k v : Ptr) : erase (addDataT b n k v) = addData b n k v := by
  simp only [addDataT, addData, erase_branch, pure_bind_C, erase_ite, erase_bind, erase_strlen, erase_addComma, erase_addMember,
    erase_pure, decide_eq_true_eq]

theorem erase_endString (b : Ptr) (n : SizeT) : erase (endStringT b n) = endString b n := by
  simp only [endStringT, endString, erase_branch, pure_bind_C, erase_ite, erase_bind, erase_strlen, erase_strcpyLit, erase_pure,
    decide_eq_true_eq]

theorem erase_addAll (b : Ptr) (n : SizeT) (ps : List (Ptr × Ptr)) :
    erase (addAllT b n ps) = Spec.Json.addAll b n ps := by
  induction ps with
  | nil => rfl
  | cons p ps ih =>
    obtain ⟨k, v⟩ := p
    simp only [addAllT, Spec.Json.addAll, erase_bind, erase_addData, erase_pure, ih]

theorem erase_build (b : Ptr) (n : SizeT) (ps : List (Ptr × Ptr)) :
    erase (buildT b n ps) = Spec.Json.build b n ps := by
  simp only [buildT, Spec.Json.build, erase_bind, erase_startString, erase_addAll, erase_endString, erase_pure]

theorem _root_.IMU.T.Goes.strcpyLit {p : Ptr} {m m' : Mem} {lit : List Byte} (h : IMU.strcpyLit p lit m = .ok () m') :
    Goes (strcpyLitT p lit) m () (lit.length + 1) m' :=
  (Goes.bind (Goes.emit _ m) (Goes.quiet h)).of_eq (by simp)

theorem flat_length {α : Type} (f g : Nat → α) (l : List Nat) : (l.flatMap fun i => [f i, g i]).length = 2 * l.length := by
  induction l with
  | nil => rfl
  | cons a l ih => rw [List.flatMap_cons, List.length_append, ih]; simp; omega

theorem strcpy_goes {m m' : Mem} {p : Ptr} {bs os : Nat} {s : List Byte} (hs : CStr (m.bytes bs) os s)
    (h : strcpy p (ptr bs os) m = .ok () m') : Goes (strcpyT p (ptr bs os)) m () (2 * (s.length + 1)) m' := by
  unfold strcpy at h
  rw [C.bind_ok (strlen_ok hs)] at h
  refine (Goes.bind (k := 0) (Goes.quiet (strlen_ok hs)) (Goes.bind (Goes.emit _ m) (Goes.quiet h))).of_eq ?_
  rw [flat_length, List.length_range]; omega

theorem startString_goes {m : Mem} {b o : Nat} {size : SizeT} (hroom : o + size.toNat ≤ (m.bytes b).length)
    (hs : 2 ≤ size.toNat) :
    ∃ m', Goes (startStringT (ptr b o) size) m true 3 m' ∧ CStr (m'.bytes b) o [123#8] ∧ OnlyChanged m m' b o 2 := by
  obtain ⟨m', h1, h2, h3⟩ := startString_ok hroom hs
  refine ⟨m', ?_, h2, h3⟩
  unfold startString at h1
  have hc : 2#64 ≤ size := by rw [BitVec.le_def]; exact hs
  rw [if_pos hc] at h1
  unfold startStringT
  refine Goes.bind (l := 2) (Goes.branch _ m) ?_
  rw [if_pos (decide_eq_true hc)]
  have h4 : strcpyLit (ptr b o) [123#8] m = .ok () m' := by
    cases hx : strcpyLit (ptr b o) [123#8] m with
    | ub e => rw [C.bind_ub hx] at h1; cases h1
    | ok u m1 => rw [C.bind_ok hx] at h1; cases h1; rfl
  exact Goes.bind (l := 0) (Goes.strcpyLit h4) (Goes.pure _ _)

theorem endString_goes {m : Mem} {b o : Nat} {size : SizeT} {t : List Byte} (ht : CStr (m.bytes b) o t)
    (hroom : o + size.toNat ≤ (m.bytes b).length) (hsmall : t.length + 2 < 2 ^ 64) :
    ∃ m', Goes (endStringT (ptr b o) size) m (decide (t.length + 2 ≤ size.toNat)) (endSteps size.toNat t) m' := by
  have e : (2#64 + BitVec.ofNat 64 t.length).toNat = 2 + t.length := by
    rw [show (2#64 + BitVec.ofNat 64 t.length) = BitVec.ofNat 64 (2 + t.length) by simp [BitVec.ofNat_add], ofNat64 (by omega)]
  unfold endStringT endSteps
  by_cases hs : t.length + 2 ≤ size.toNat
  · obtain ⟨m1, a1, a2, a3⟩ := strcpyLit_ok (s := [125#8]) ht (by decide) (by simp; omega)
    refine ⟨m1, (Goes.bind (l := 3) (Goes.strlen (strlen_ok ht)) ?_).of_eq (by rw [if_pos hs])⟩
    have hc : 2#64 + BitVec.ofNat 64 t.length ≤ size := by rw [BitVec.le_def, e]; omega
    refine Goes.bind (l := 2) (Goes.branch _ m) ?_
    rw [if_pos (decide_eq_true hc), ptr_addN, decide_eq_true hs]
    exact Goes.bind (l := 0) (Goes.strcpyLit a1) (Goes.pure _ _)
  · refine ⟨m, (Goes.bind (l := 1) (Goes.strlen (strlen_ok ht)) ?_).of_eq (by rw [if_neg hs])⟩
    have hc : ¬ 2#64 + BitVec.ofNat 64 t.length ≤ size := by rw [BitVec.le_def, e]; omega
    refine Goes.bind (l := 0) (Goes.branch _ m) ?_
    rw [if_neg (by simpa using hc), decide_eq_false hs]
    exact Goes.pure _ _

theorem addComma_goes {m : Mem} {b o size : Nat} {t : List Byte} (ht : CStr (m.bytes b) o t) (hn : t ≠ [])
    (hsmall : t.length < 2 ^ 64) (hroom : o + size ≤ (m.bytes b).length) (hfit : t.length + (Spec.Json.sep t).length < size) :
    ∃ m', Goes (addCommaT (ptr b o) (BitVec.ofNat 64 t.length)) m (BitVec.ofNat 64 (t ++ Spec.Json.sep t).length)
      (3 + if t.getLast? = some 34#8 then 4 else 0) m' ∧ CStr (m'.bytes b) o (t ++ Spec.Json.sep t) ∧
      OnlyChanged m m' b (o + t.length) (size - t.length) := by
  have hpos : 0 < t.length := List.length_pos_iff.mpr hn
  have e : (BitVec.ofNat 64 t.length - 1#64).toNat = t.length - 1 := by
    rw [BitVec.toNat_sub_of_le (by rw [BitVec.le_def, ofNat64 hsmall]; simp; omega), ofNat64 hsmall]; simp
  unfold addCommaT
  rw [e, ptr_addN]
  by_cases hl : t.getLast? = some 34#8
  · have hs : Spec.Json.sep t = [44#8] := by simp [Spec.Json.sep, hl]
    rw [hs] at hfit ⊢
    simp only [List.length_cons, List.length_nil] at hfit
    obtain ⟨m1, a1, a2, a3⟩ := strcpyLit_ok (s := [44#8]) ht (by decide) (by simp; omega)
    refine ⟨m1, ?_, a2, oc_mono a3 (by omega) (by simp; omega)⟩
    rw [if_pos hl]
    have hl' := hl
    rw [List.getLast?_eq_getElem?] at hl'
    have hld : load (ptr b (o + (t.length - 1))) m = .ok 34#8 m := load_ok (by rw [ht.get (by omega), hl'])
    have hld2 : load (ptr b (o + (t.length - 1) + 1)) m = .ok 0#8 m := by
      rw [show o + (t.length - 1) + 1 = o + t.length by omega]; exact load_ok ht.nul
    have hcmp : Goes (strcmpLitT (ptr b (o + (t.length - 1))) [34#8]) m true 4 m := by
      simp only [strcmpLitT, ptr_addN]
      refine Goes.bind (l := 3) (Goes.load hld) (Goes.bind (l := 2) (Goes.branch _ m) ?_)
      exact Goes.bind (l := 1) (Goes.load hld2) (Goes.branch _ m)
    refine Goes.bind (l := 3) hcmp (Goes.bind (l := 2) (Goes.branch _ m) ?_)
    rw [if_pos rfl, ofNat64 hsmall, ptr_addN]
    refine Goes.bind (l := 0) (Goes.strcpyLit a1) ?_
    have : BitVec.ofNat 64 t.length + 1#64 = BitVec.ofNat 64 (t ++ [44#8]).length := by simp [BitVec.ofNat_add]
    rw [this]
    exact Goes.pure _ _
  · have hs : Spec.Json.sep t = [] := by simp [Spec.Json.sep, hl]
    rw [hs, if_neg hl]
    refine ⟨m, ?_, by simpa using ht, oc_refl _ _ _ _⟩
    have h2 : t[t.length - 1]? = some t[t.length - 1] := List.getElem?_eq_getElem (by omega)
    have hld : load (ptr b (o + (t.length - 1))) m = .ok t[t.length - 1] m := load_ok (by rw [ht.get (by omega), h2])
    rw [List.getLast?_eq_getElem?, h2] at hl
    have hf : (t[t.length - 1] == 34#8) = false := by
      rw [beq_eq_false_iff_ne]; intro e; exact hl (congrArg some e)
    have hcmp : Goes (strcmpLitT (ptr b (o + (t.length - 1))) [34#8]) m false 2 m := by
      simp only [strcmpLitT]
      refine Goes.bind (l := 1) (Goes.load hld) (Goes.bind (l := 0) (Goes.branch _ m) ?_)
      rw [hf]
      exact Goes.pure _ _
    refine Goes.bind (l := 1) hcmp (Goes.bind (l := 0) (Goes.branch _ m) ?_)
    simp only [List.append_nil]
    exact Goes.pure _ _

theorem addMember_goes {m : Mem} {b o size : Nat} {t : List Byte} {bk ok : Nat} {k : List Byte} {bv ov : Nat}
    {v : List Byte} (h : Args m b o size t bk ok k bv ov v) (hfit : (t ++ Spec.Json.member k v).length + 1 ≤ size) :
    ∃ m', Goes (addMemberT (ptr b o) (BitVec.ofNat 64 t.length) (ptr bk ok) (ptr bv ov)) m ()
        (3 * (k.length + v.length) + 14) m' ∧
      CStr (m'.bytes b) o (t ++ Spec.Json.member k v) ∧ OnlyChanged m m' b (o + t.length) (size - t.length) := by
  obtain ⟨ht, hk, hv, hka, hva, hroom, hsmall⟩ := h
  have hfit' : t.length + k.length + v.length + 6 ≤ size := by
    simp only [Spec.Json.member, Spec.Json.str, List.length_append, List.length_cons, List.length_nil] at hfit; omega
  have i0 : (BitVec.ofNat 64 t.length).toNat = t.length := ofNat64 (by omega)
  have i1 : BitVec.ofNat 64 t.length + 1#64 = BitVec.ofNat 64 (t.length + 1) := by simp [BitVec.ofNat_add]
  have i2 : BitVec.ofNat 64 (t.length + 1) + BitVec.ofNat 64 k.length = BitVec.ofNat 64 (t.length + 1 + k.length) := by
    simp [BitVec.ofNat_add]
  have i3 : BitVec.ofNat 64 (t.length + 1 + k.length) + 3#64 = BitVec.ofNat 64 (t.length + 1 + k.length + 3) := by
    simp [BitVec.ofNat_add]
  have i4 : BitVec.ofNat 64 (t.length + 1 + k.length + 3) + BitVec.ofNat 64 v.length =
      BitVec.ofNat 64 (t.length + 1 + k.length + 3 + v.length) := by simp [BitVec.ofNat_add]
  obtain ⟨m1, a1, a2, a3⟩ := strcpyLit_ok (s := [34#8]) ht (by decide) (by simp; omega)
  have hk1 := cstr_frame hk (oc_mono a3 (o2 := o + t.length) (n2 := size - t.length) (by omega) (by simp; omega)) (by omega)
  have hv1 := cstr_frame hv (oc_mono a3 (o2 := o + t.length) (n2 := size - t.length) (by omega) (by simp; omega)) (by omega)
  obtain ⟨m2, b1, b2, b3⟩ := strcpy_ok a2 hk1 (by rw [oc_length a3]; simp; omega) (by simp; omega)
  have b3' := oc_mono b3 (o2 := o + t.length) (n2 := size - t.length) (by simp) (by simp; omega)
  have hk2 := cstr_frame hk1 b3' (by omega)
  have hv2 := cstr_frame hv1 b3' (by omega)
  obtain ⟨m3, c1, c2, c3⟩ := strcpyLit_ok (s := [34#8, 58#8, 34#8]) b2 (by decide)
    (by rw [oc_length b3, oc_length a3]; simp; omega)
  have c3' := oc_mono c3 (o2 := o + t.length) (n2 := size - t.length) (by simp) (by simp; omega)
  have hv3 := cstr_frame hv2 c3' (by omega)
  obtain ⟨m4, d1, d2, d3⟩ := strcpy_ok c2 hv3 (by rw [oc_length c3, oc_length b3, oc_length a3]; simp; omega)
    (by simp; omega)
  have d3' := oc_mono d3 (o2 := o + t.length) (n2 := size - t.length) (by simp) (by simp; omega)
  have hv4 := cstr_frame hv3 d3' (by omega)
  obtain ⟨m5, e1, e2, e3⟩ := strcpyLit_ok (s := [34#8]) d2 (by decide)
    (by rw [oc_length d3, oc_length c3, oc_length b3, oc_length a3]; simp; omega)
  have e3' := oc_mono e3 (o2 := o + t.length) (n2 := size - t.length) (by simp) (by simp; omega)
  have a3' := oc_mono a3 (o2 := o + t.length) (n2 := size - t.length) (by omega) (by simp; omega)
  refine ⟨m5, ?_, ?_, oc_trans a3' (oc_trans b3' (oc_trans c3' (oc_trans d3' e3')))⟩
  · unfold addMemberT
    simp only [ptr_addN, i0, i1]
    simp only [List.length_append, List.length_cons, List.length_nil] at b1 c1 d1 e1
    rw [ofNat64 (by omega), show o + (t.length + 1) = o + (t.length + (0 + 1)) by omega]
    refine (Goes.bind (l := 2 * (k.length + 1) + (k.length + 1 + (4 + (2 * (v.length + 1) + (v.length + 1 + 2)))))
      (Goes.strcpyLit a1) (Goes.bind (strcpy_goes hk1 b1) (Goes.bind (Goes.strlen (strlen_ok hk2)) ?_))).of_eq
      (by simp only [List.length_cons, List.length_nil]; omega)
    simp only [i2]
    rw [ofNat64 (by omega), show o + (t.length + 1 + k.length) = o + (t.length + (0 + 1) + k.length) by omega]
    refine Goes.bind (l := 2 * (v.length + 1) + (v.length + 1 + 2)) (Goes.strcpyLit c1) ?_
    simp only [i3]
    rw [ofNat64 (by omega), show o + (t.length + 1 + k.length + 3) = o + (t.length + (0 + 1) + k.length + (0 + 1 + 1 + 1))
      by omega]
    refine Goes.bind (strcpy_goes hv3 d1) (Goes.bind (l := 2) (Goes.strlen (strlen_ok hv4)) ?_)
    simp only [i4]
    rw [ofNat64 (by omega), show o + (t.length + 1 + k.length + 3 + v.length) =
      o + (t.length + (0 + 1) + k.length + (0 + 1 + 1 + 1) + v.length) by omega]
    exact Goes.strcpyLit e1
  · have : t ++ Spec.Json.member k v = t ++ [34#8] ++ k ++ [34#8, 58#8, 34#8] ++ v ++ [34#8] := by
      simp [Spec.Json.member, Spec.Json.str]
    rw [this]; exact e2

theorem addData_goes {m : Mem} {b o : Nat} {size : SizeT} {t : List Byte} {bk ok : Nat} {k : List Byte} {bv ov : Nat}
    {v : List Byte} (h : Args m b o size.toNat t bk ok k bv ov v) (hn : t ≠ [])
    (hsmall : t.length + k.length + v.length + 7 < 2 ^ 64) (hfit : t.length + (Spec.Json.sep t).length < size.toNat) :
    ∃ m', Goes (addDataT (ptr b o) size (ptr bk ok) (ptr bv ov)) m (Spec.Json.add size.toNat t (k, v)).1
        (addSteps size.toNat t (k, v)) m' ∧
      CStr (m'.bytes b) o (Spec.Json.add size.toNat t (k, v)).2 ∧
      OnlyChanged m m' b (o + t.length) (size.toNat - t.length) := by
  obtain ⟨ht, hk, hv, hka, hva, hroom, _⟩ := h
  obtain ⟨m1, a1, a2, a3⟩ := addComma_goes ht hn (by omega) hroom hfit
  have hsl : (Spec.Json.sep t).length ≤ 1 := by unfold Spec.Json.sep; split <;> simp
  have hk1 := cstr_frame hk a3 (by omega)
  have hv1 := cstr_frame hv a3 (by omega)
  have htl : (t ++ Spec.Json.sep t).length = t.length + (Spec.Json.sep t).length := by simp
  have hml : (Spec.Json.member k v).length = k.length + v.length + 5 := by
    simp only [Spec.Json.member, Spec.Json.str, List.length_append, List.length_cons, List.length_nil]; omega
  have hck : (5#64 + BitVec.ofNat 64 k.length + BitVec.ofNat 64 v.length + 1#64 +
      BitVec.ofNat 64 (t ++ Spec.Json.sep t).length).toNat = (t ++ Spec.Json.sep t ++ Spec.Json.member k v).length + 1 := by
    rw [List.length_append (as := t ++ Spec.Json.sep t), hml]
    have e1 : 5#64 + BitVec.ofNat 64 k.length + BitVec.ofNat 64 v.length + 1#64 +
      BitVec.ofNat 64 (t ++ Spec.Json.sep t).length =
        BitVec.ofNat 64 (5 + k.length + v.length + 1 + (t ++ Spec.Json.sep t).length) := by
      simp only [BitVec.ofNat_add]
    rw [e1, ofNat64 (by omega)]
    omega
  unfold addDataT addSteps
  unfold Spec.Json.add
  generalize (if t.getLast? = some 34#8 then 4 else 0) = q at a1 ⊢
  by_cases hf : (t ++ Spec.Json.sep t ++ Spec.Json.member k v).length + 1 ≤ size.toNat
  · rw [if_pos hf]
    obtain ⟨m2, b1, b2, b3⟩ := addMember_goes (m := m1) (size := size.toNat) (t := t ++ Spec.Json.sep t)
      ⟨a2, hk1, hv1, hka, hva, by rw [oc_length a3]; exact hroom, by
        rw [List.length_append (as := t ++ Spec.Json.sep t), hml] at hf; omega⟩ hf
    refine ⟨m2, ?_, b2, oc_trans a3 (oc_mono b3 (by omega) (by omega))⟩
    refine (Goes.bind (Goes.strlen (strlen_ok ht)) (Goes.bind (Goes.strlen (strlen_ok hk)) (Goes.bind
      (Goes.strlen (strlen_ok hv)) (Goes.bind a1 (Goes.bind (l := 3 * (k.length + v.length) + 14) (Goes.branch _ m1) ?_))))).of_eq ?_
    · rw [if_pos (decide_eq_true (by rw [BitVec.le_def, hck]; exact hf))]
      exact Goes.bind (l := 0) b1 (Goes.pure _ _)
    · simp only [if_true]; omega
  · rw [if_neg hf]
    refine ⟨m1, ?_, a2, a3⟩
    refine (Goes.bind (Goes.strlen (strlen_ok ht)) (Goes.bind (Goes.strlen (strlen_ok hk)) (Goes.bind
      (Goes.strlen (strlen_ok hv)) (Goes.bind a1 (Goes.bind (l := 0) (Goes.branch _ m1) ?_))))).of_eq ?_
    · have hc : ¬ (5#64 + BitVec.ofNat 64 k.length + BitVec.ofNat 64 v.length + 1#64 +
        BitVec.ofNat 64 (t ++ Spec.Json.sep t).length ≤ size) := by rw [BitVec.le_def, hck]; exact hf
      rw [if_neg (by simpa using hc)]
      exact Goes.pure _ _
    · simp only [Bool.false_eq_true, if_false]; omega

theorem addAll_goes {b o : Nat} {size : SizeT} : ∀ (l : List (List Byte × List Byte)) (ps : List (Ptr × Ptr)) (t : List Byte)
    (m : Mem) (r : List Bool × List Byte), CStr (m.bytes b) o t → t ≠ [] → t.length < size.toNat → o + size.toNat ≤ (m.bytes b).length →
    Spec.Json.Holds m b o size.toNat ps l → (∀ x ∈ l, size.toNat + x.1.length + x.2.length + 7 < 2 ^ 64) →
    Spec.Json.run size.toNat t l = some r →
    ∃ m', Goes (addAllT (ptr b o) size ps) m r.1 (additionSteps size.toNat t l) m' ∧
      CStr (m'.bytes b) o r.2 ∧ OnlyChanged m m' b (o + t.length) (size.toNat - t.length) := by
  intro l
  induction l with
  | nil =>
    intro ps t m r ht hn hl hroom hh _ hr
    cases ps with
    | cons p ps => exact absurd hh id
    | nil =>
      injection hr with hr
      subst hr
      exact ⟨m, Goes.pure _ _, ht, oc_refl _ _ _ _⟩
  | cons x l ih =>
    intro ps t m r ht hn hl hroom hh hsm hr
    cases ps with
    | nil => exact absurd hh id
    | cons p ps =>
      obtain ⟨⟨bk, ok, bv, ov, e, h1, h2, h3, h4⟩, hh'⟩ := hh
      subst e
      have hx := hsm x (by simp)
      rw [Spec.Json.run] at hr
      by_cases hf : t.length + (Spec.Json.sep t).length < size.toNat
      · rw [if_pos hf] at hr
        obtain ⟨m1, a1, a2, a3⟩ := addData_goes (size := size) ⟨ht, h1, h2, h3, h4, hroom, by omega⟩ hn (by omega) hf
        have a3' := oc_mono a3 (o2 := o) (n2 := size.toNat) (by omega) (by omega)
        rw [Option.map_eq_some_iff] at hr
        obtain ⟨r', hr', e⟩ := hr
        subst e
        obtain ⟨m2, b1, b2, b3⟩ := ih ps (Spec.Json.add size.toNat t (x.1, x.2)).2 m1 r' a2 (add_ne hn) (add_length hf)
          (by rw [oc_length a3]; exact hroom) (holds_frame a3' hh') (fun y hy => hsm y (by simp [hy])) hr'
        have hle := add_le (size := size.toNat) t (x.1, x.2)
        have hlt := add_length (x := (x.1, x.2)) hf
        refine ⟨m2, ?_, b2, oc_trans a3 (oc_mono b3 (by omega) (by omega))⟩
        rw [addAllT, additionSteps]
        exact Goes.bind a1 (Goes.bind (l := 0) b1 (Goes.pure ((Spec.Json.add size.toNat t (x.1, x.2)).1 :: r'.1) m2))
      · rw [if_neg hf] at hr; cases hr

end Json
end IMU
