import Verif.Proofs.LeakJson
import Verif.Proofs.JsonBuildCost
import Verif.Spec.LeakJsonBuild

/-!
# What building a JSON text shows: the exact list
-/

namespace IMU.Json
open Spec Spec.JsonBuildCost Spec.LeakJsonBuild T

theorem runs_then {α β : Type} {x : T α} {m m' : Mem} {a : α} {t : List Leak} (h : Runs x m a t m') (c : β) :
    Runs (x >>= fun _ => pure c) m c t m' := by
  have := Runs.bind (f := fun _ => pure c) h (Runs.pure c m')
  rw [List.append_nil] at this
  exact this

theorem runs_strlen {m : Mem} {b o : Nat} {s : List Byte} (h : CStr (m.bytes b) o s) :
    Runs (strlenT (ptr b o)) m s.length (rd b o (s.length + 1)) m := by
  have := Runs.strlen (strlen_ok h)
  simp only [ptr_addN] at this
  exact this

theorem runs_strcpyLit {m m' : Mem} {b o : Nat} {lit : List Byte} {n : Nat} (h : strcpyLit (ptr b o) lit m = .ok () m')
    (hn : lit.length + 1 = n) : Runs (strcpyLitT (ptr b o) lit) m () (wr b o n) m' := by
  subst hn
  refine (Runs.bind (Runs.emit _ m) (Runs.quiet h)).of_eq ?_
  simp only [ptr_addN, List.append_nil, wr]

theorem runs_strcpy {m m' : Mem} {b o bs os : Nat} {s : List Byte} (hs : CStr (m.bytes bs) os s)
    (h : strcpy (ptr b o) (ptr bs os) m = .ok () m') :
    Runs (strcpyT (ptr b o) (ptr bs os)) m () (cp b o bs os (s.length + 1)) m' := by
  unfold strcpy at h
  rw [C.bind_ok (strlen_ok hs)] at h
  refine (Runs.bind (t := []) (Runs.quiet (strlen_ok hs)) (Runs.bind (Runs.emit _ m) (Runs.quiet h))).of_eq ?_
  simp only [ptr_addN, List.append_nil, List.nil_append, cp]

theorem startString_runs {m : Mem} {b o : Nat} {size : SizeT} (hroom : o + size.toNat ≤ (m.bytes b).length)
    (hs : 2 ≤ size.toNat) :
    ∃ m', Runs (startStringT (ptr b o) size) m true (.branch true :: wr b o 2) m' ∧ CStr (m'.bytes b) o [123#8] ∧
      OnlyChanged m m' b o 2 := by
  obtain ⟨m', h1, h2, h3⟩ := startString_ok hroom hs
  refine ⟨m', ?_, h2, h3⟩
  unfold startString at h1
  have hc : 2#64 ≤ size := by rw [BitVec.le_def]; exact hs
  rw [if_pos hc] at h1
  unfold startStringT
  refine Runs.bind (t := [_]) (u := wr b o 2) (Runs.branchv (decide_eq_true hc) m) ?_
  rw [if_pos rfl]
  have h4 : strcpyLit (ptr b o) [123#8] m = .ok () m' := by
    cases hx : strcpyLit (ptr b o) [123#8] m with
    | ub e => rw [C.bind_ub hx] at h1; cases h1
    | ok u m1 => rw [C.bind_ok hx] at h1; cases h1; rfl
  exact runs_then (runs_strcpyLit h4 rfl) true

/-- The closing brace. -/
def endShown (b o size n : Nat) : List Leak :=
  rd b o (n + 1) ++ if n + 2 ≤ size then .branch true :: wr b (o + n) 2 else [.branch false]

theorem endString_runs {m : Mem} {b o : Nat} {size : SizeT} {t : List Byte} (ht : CStr (m.bytes b) o t)
    (hroom : o + size.toNat ≤ (m.bytes b).length) (hsmall : t.length + 2 < 2 ^ 64) :
    ∃ m', Runs (endStringT (ptr b o) size) m (decide (t.length + 2 ≤ size.toNat)) (endShown b o size.toNat t.length) m' := by
  have e : (2#64 + BitVec.ofNat 64 t.length).toNat = 2 + t.length := by
    rw [show (2#64 + BitVec.ofNat 64 t.length) = BitVec.ofNat 64 (2 + t.length) by simp [BitVec.ofNat_add], ofNat64 (by omega)]
  unfold endStringT endShown
  by_cases hs : t.length + 2 ≤ size.toNat
  · obtain ⟨m1, a1, a2, a3⟩ := strcpyLit_ok (s := [125#8]) ht (by decide) (by simp; omega)
    refine ⟨m1, Runs.bind (runs_strlen ht) ?_⟩
    have hc : 2#64 + BitVec.ofNat 64 t.length ≤ size := by rw [BitVec.le_def, e]; omega
    rw [if_pos hs, decide_eq_true hs]
    refine Runs.bind (t := [_]) (u := wr b (o + t.length) 2) (Runs.branchv (decide_eq_true hc) m) ?_
    rw [if_pos rfl, ptr_addN]
    exact runs_then (runs_strcpyLit a1 rfl) true
  · refine ⟨m, Runs.bind (runs_strlen ht) ?_⟩
    have hc : ¬ 2#64 + BitVec.ofNat 64 t.length ≤ size := by rw [BitVec.le_def, e]; omega
    rw [if_neg hs, decide_eq_false hs]
    refine Runs.bind (t := [_]) (u := []) (Runs.branchv (decide_eq_false hc) m) ?_
    exact Runs.pure _ _

theorem addComma_runs {m : Mem} {b o size : Nat} {t : List Byte} (ht : CStr (m.bytes b) o t) (hn : t ≠ [])
    (hsmall : t.length < 2 ^ 64) (hroom : o + size ≤ (m.bytes b).length) (hfit : t.length + (Spec.Json.sep t).length < size) :
    ∃ m', Runs (addCommaT (ptr b o) (BitVec.ofNat 64 t.length)) m (BitVec.ofNat 64 (t ++ Spec.Json.sep t).length)
      (commaShown b o t.length (quoted t)) m' ∧ CStr (m'.bytes b) o (t ++ Spec.Json.sep t) ∧
      OnlyChanged m m' b (o + t.length) (size - t.length) := by
  have hpos : 0 < t.length := List.length_pos_iff.mpr hn
  have e : (BitVec.ofNat 64 t.length - 1#64).toNat = t.length - 1 := by
    rw [BitVec.toNat_sub_of_le (by rw [BitVec.le_def, ofNat64 hsmall]; simp; omega), ofNat64 hsmall]; simp
  unfold addCommaT commaShown quoted
  rw [e, ptr_addN]
  by_cases hl : t.getLast? = some 34#8
  · have hs : Spec.Json.sep t = [44#8] := by simp [Spec.Json.sep, hl]
    rw [hs] at hfit ⊢
    simp only [List.length_cons, List.length_nil] at hfit
    obtain ⟨m1, a1, a2, a3⟩ := strcpyLit_ok (s := [44#8]) ht (by decide) (by simp; omega)
    refine ⟨m1, ?_, a2, oc_mono a3 (by omega) (by simp; omega)⟩
    rw [decide_eq_true hl, if_pos rfl]
    have hl' := hl
    rw [List.getLast?_eq_getElem?] at hl'
    have hld : load (ptr b (o + (t.length - 1))) m = .ok 34#8 m := load_ok (by rw [ht.get (by omega), hl'])
    have hld2 : load (ptr b (o + t.length)) m = .ok 0#8 m := load_ok ht.nul
    have hcmp : Runs (strcmpLitT (ptr b (o + (t.length - 1))) [34#8]) m true
        [.read (ptr b (o + (t.length - 1))), .branch true, .read (ptr b (o + t.length)), .branch true] m := by
      simp only [strcmpLitT, ptr_addN]
      rw [show o + (t.length - 1) + 1 = o + t.length by omega]
      refine Runs.bind (t := [_]) (u := [_, _, _]) (Runs.load hld) (Runs.bind (t := [_]) (u := [_, _]) (Runs.branch _ m) ?_)
      exact Runs.bind (t := [_]) (u := [_]) (Runs.load hld2) (Runs.branch _ m)
    refine (Runs.bind hcmp (Runs.bind (t := [_]) (u := wr b (o + t.length) 2) (Runs.branch _ m) ?_)).of_eq rfl
    rw [if_pos rfl, ofNat64 hsmall, ptr_addN]
    refine (Runs.bind (u := []) (runs_strcpyLit a1 rfl) ?_).of_eq (by simp)
    have : BitVec.ofNat 64 t.length + 1#64 = BitVec.ofNat 64 (t ++ [44#8]).length := by simp [BitVec.ofNat_add]
    rw [this]
    exact Runs.pure _ _
  · have hs : Spec.Json.sep t = [] := by simp [Spec.Json.sep, hl]
    rw [hs, decide_eq_false hl, if_neg (by simp)]
    refine ⟨m, ?_, by simpa using ht, oc_refl _ _ _ _⟩
    have h2 : t[t.length - 1]? = some t[t.length - 1] := List.getElem?_eq_getElem (by omega)
    have hld : load (ptr b (o + (t.length - 1))) m = .ok t[t.length - 1] m := load_ok (by rw [ht.get (by omega), h2])
    rw [List.getLast?_eq_getElem?, h2] at hl
    have hf : (t[t.length - 1] == 34#8) = false := by
      rw [beq_eq_false_iff_ne]; intro e; exact hl (congrArg some e)
    have hcmp : Runs (strcmpLitT (ptr b (o + (t.length - 1))) [34#8]) m false
        [.read (ptr b (o + (t.length - 1))), .branch false] m := by
      simp only [strcmpLitT]
      refine Runs.bind (t := [_]) (u := [_]) (Runs.load hld) (Runs.bind (t := [_]) (u := []) (Runs.branchv hf m) ?_)
      exact Runs.pure _ _
    refine Runs.bind (u := [_]) hcmp (Runs.bind (t := [_]) (u := []) (Runs.branch _ m) ?_)
    simp only [List.append_nil]
    exact Runs.pure _ _

theorem addMember_runs {m : Mem} {b o size : Nat} {t : List Byte} {bk ok : Nat} {k : List Byte} {bv ov : Nat}
    {v : List Byte} (h : Args m b o size t bk ok k bv ov v) (hfit : (t ++ Spec.Json.member k v).length + 1 ≤ size) :
    ∃ m', Runs (addMemberT (ptr b o) (BitVec.ofNat 64 t.length) (ptr bk ok) (ptr bv ov)) m ()
        (memberShown b o bk ok bv ov t.length k.length v.length) m' ∧
      CStr (m'.bytes b) o (t ++ Spec.Json.member k v) ∧ OnlyChanged m m' b (o + t.length) (size - t.length) := by
  obtain ⟨ht, hk, hv, hka, hva, hroom, hsmall⟩ := h
  have hfit' : t.length + k.length + v.length + 6 ≤ size := by
    simp only [Spec.Json.member, Spec.Json.str, List.length_append, List.length_cons, List.length_nil] at hfit; omega
  have i0 : (BitVec.ofNat 64 t.length).toNat = t.length := ofNat64 (by omega)
  have i1 : BitVec.ofNat 64 t.length + 1#64 = BitVec.ofNat 64 (t.length + 1) := by simp [BitVec.ofNat_add]
  have i2 : BitVec.ofNat 64 (t.length + 1) + BitVec.ofNat 64 k.length = BitVec.ofNat 64 (t.length + 1 + k.length) := by
    simp [BitVec.ofNat_add]
  have i3 : BitVec.ofNat 64 (t.length + 1 + k.length) + 3#64 = BitVec.ofNat 64 (t.length + 1 + k.length + 3) := by
    simp [BitVec.ofNat_add]
  have i4 : BitVec.ofNat 64 (t.length + 1 + k.length + 3) + BitVec.ofNat 64 v.length =
      BitVec.ofNat 64 (t.length + 1 + k.length + 3 + v.length) := by simp [BitVec.ofNat_add]
  obtain ⟨m1, a1, a2, a3⟩ := strcpyLit_ok (s := [34#8]) ht (by decide) (by simp; omega)
  have hk1 := cstr_frame hk (oc_mono a3 (o2 := o + t.length) (n2 := size - t.length) (by omega) (by simp; omega)) (by omega)
  have hv1 := cstr_frame hv (oc_mono a3 (o2 := o + t.length) (n2 := size - t.length) (by omega) (by simp; omega)) (by omega)
  obtain ⟨m2, b1, b2, b3⟩ := strcpy_ok a2 hk1 (by rw [oc_length a3]; simp; omega) (by simp; omega)
  have b3' := oc_mono b3 (o2 := o + t.length) (n2 := size - t.length) (by simp) (by simp; omega)
  have hk2 := cstr_frame hk1 b3' (by omega)
  have hv2 := cstr_frame hv1 b3' (by omega)
  obtain ⟨m3, c1, c2, c3⟩ := strcpyLit_ok (s := [34#8, 58#8, 34#8]) b2 (by decide)
    (by rw [oc_length b3, oc_length a3]; simp; omega)
  have c3' := oc_mono c3 (o2 := o + t.length) (n2 := size - t.length) (by simp) (by simp; omega)
  have hv3 := cstr_frame hv2 c3' (by omega)
  obtain ⟨m4, d1, d2, d3⟩ := strcpy_ok c2 hv3 (by rw [oc_length c3, oc_length b3, oc_length a3]; simp; omega)
    (by simp; omega)
  have d3' := oc_mono d3 (o2 := o + t.length) (n2 := size - t.length) (by simp) (by simp; omega)
  have hv4 := cstr_frame hv3 d3' (by omega)
  obtain ⟨m5, e1, e2, e3⟩ := strcpyLit_ok (s := [34#8]) d2 (by decide)
    (by rw [oc_length d3, oc_length c3, oc_length b3, oc_length a3]; simp; omega)
  have e3' := oc_mono e3 (o2 := o + t.length) (n2 := size - t.length) (by simp) (by simp; omega)
  have a3' := oc_mono a3 (o2 := o + t.length) (n2 := size - t.length) (by omega) (by simp; omega)
  refine ⟨m5, ?_, ?_, oc_trans a3' (oc_trans b3' (oc_trans c3' (oc_trans d3' e3')))⟩
  · unfold addMemberT memberShown
    simp only [ptr_addN, i0, i1, List.append_assoc]
    simp only [List.length_append, List.length_cons, List.length_nil] at b1 c1 d1 e1
    rw [show o + (t.length + (0 + 1)) = o + t.length + 1 by omega] at b1
    rw [show o + (t.length + (0 + 1) + k.length) = o + t.length + 1 + k.length by omega] at c1
    rw [show o + (t.length + (0 + 1) + k.length + (0 + 1 + 1 + 1)) = o + t.length + k.length + 4 by omega] at d1
    rw [show o + (t.length + (0 + 1) + k.length + (0 + 1 + 1 + 1) + v.length) = o + t.length + k.length + 4 + v.length by omega] at e1
    rw [ofNat64 (by omega), show o + (t.length + 1) = o + t.length + 1 by omega]
    refine Runs.bind (runs_strcpyLit a1 rfl) (Runs.bind (runs_strcpy hk1 b1) (Runs.bind (runs_strlen hk2) ?_))
    simp only [i2]
    rw [ofNat64 (by omega), show o + (t.length + 1 + k.length) = o + t.length + 1 + k.length by omega]
    refine Runs.bind (runs_strcpyLit c1 rfl) ?_
    simp only [i3]
    rw [ofNat64 (by omega), show o + (t.length + 1 + k.length + 3) = o + t.length + k.length + 4 by omega]
    refine Runs.bind (runs_strcpy hv3 d1) (Runs.bind (runs_strlen hv4) ?_)
    simp only [i4]
    rw [ofNat64 (by omega), show o + (t.length + 1 + k.length + 3 + v.length) = o + t.length + k.length + 4 + v.length by omega]
    exact runs_strcpyLit e1 rfl
  · have : t ++ Spec.Json.member k v = t ++ [34#8] ++ k ++ [34#8, 58#8, 34#8] ++ v ++ [34#8] := by
      simp [Spec.Json.member, Spec.Json.str]
    rw [this]; exact e2

theorem addData_runs {m : Mem} {b o : Nat} {size : SizeT} {t : List Byte} {bk ok : Nat} {k : List Byte} {bv ov : Nat}
    {v : List Byte} (h : Args m b o size.toNat t bk ok k bv ov v) (hn : t ≠ [])
    (hsmall : t.length + k.length + v.length + 7 < 2 ^ 64) (hfit : t.length + (Spec.Json.sep t).length < size.toNat) :
    ∃ m', Runs (addDataT (ptr b o) size (ptr bk ok) (ptr bv ov)) m (Spec.Json.add size.toNat t (k, v)).1
        (addShown b o bk ok bv ov size.toNat t.length (quoted t) k.length v.length) m' ∧
      CStr (m'.bytes b) o (Spec.Json.add size.toNat t (k, v)).2 ∧
      OnlyChanged m m' b (o + t.length) (size.toNat - t.length) := by
  obtain ⟨ht, hk, hv, hka, hva, hroom, _⟩ := h
  obtain ⟨m1, a1, a2, a3⟩ := addComma_runs ht hn (by omega) hroom hfit
  have hsl : (Spec.Json.sep t).length ≤ 1 := by unfold Spec.Json.sep; split <;> simp
  have hk1 := cstr_frame hk a3 (by omega)
  have hv1 := cstr_frame hv a3 (by omega)
  have htl : (t ++ Spec.Json.sep t).length = if quoted t = true then t.length + 1 else t.length := by
    unfold Spec.Json.sep quoted
    by_cases hq : t.getLast? = some 34#8 <;> simp [hq]
  have hml : (Spec.Json.member k v).length = k.length + v.length + 5 := by
    simp only [Spec.Json.member, Spec.Json.str, List.length_append, List.length_cons, List.length_nil]; omega
  have htl2 : (t ++ Spec.Json.sep t).length ≤ t.length + 1 := by rw [List.length_append]; omega
  have htl3 : t.length ≤ (t ++ Spec.Json.sep t).length := by rw [List.length_append]; omega
  have hck : (5#64 + BitVec.ofNat 64 k.length + BitVec.ofNat 64 v.length + 1#64 +
      BitVec.ofNat 64 (t ++ Spec.Json.sep t).length).toNat = (t ++ Spec.Json.sep t ++ Spec.Json.member k v).length + 1 := by
    rw [List.length_append (as := t ++ Spec.Json.sep t), hml]
    have e1 : 5#64 + BitVec.ofNat 64 k.length + BitVec.ofNat 64 v.length + 1#64 +
      BitVec.ofNat 64 (t ++ Spec.Json.sep t).length =
        BitVec.ofNat 64 (5 + k.length + v.length + 1 + (t ++ Spec.Json.sep t).length) := by
      simp only [BitVec.ofNat_add]
    rw [e1, ofNat64 (by omega)]
    omega
  have hall : (t ++ Spec.Json.sep t ++ Spec.Json.member k v).length = (t ++ Spec.Json.sep t).length + (k.length + v.length + 5) := by
    rw [List.length_append (as := t ++ Spec.Json.sep t), hml]
  unfold addDataT addShown
  rw [← htl]
  unfold Spec.Json.add
  simp only [List.append_assoc (rd _ _ _)]
  by_cases hf : (t ++ Spec.Json.sep t ++ Spec.Json.member k v).length + 1 ≤ size.toNat
  · rw [if_pos hf]
    obtain ⟨m2, b1, b2, b3⟩ := addMember_runs (m := m1) (size := size.toNat) (t := t ++ Spec.Json.sep t)
      ⟨a2, hk1, hv1, hka, hva, by rw [oc_length a3]; exact hroom, by omega⟩ hf
    refine ⟨m2, ?_, b2, oc_trans a3 (oc_mono b3 (by omega) (by omega))⟩
    have hc : (t ++ Spec.Json.sep t).length + k.length + v.length + 6 ≤ size.toNat := by omega
    simp only [if_pos hc, List.append_assoc]
    refine Runs.bind (runs_strlen ht) (Runs.bind (runs_strlen hk) (Runs.bind (runs_strlen hv) (Runs.bind a1
      (Runs.bind (t := [_]) (u := memberShown b o bk ok bv ov (t ++ Spec.Json.sep t).length k.length v.length) (Runs.branchv (decide_eq_true (by rw [BitVec.le_def, hck]; exact hf)) m1) ?_))))
    rw [if_pos rfl]
    exact runs_then b1 true
  · rw [if_neg hf]
    refine ⟨m1, ?_, a2, a3⟩
    have hc : ¬ (t ++ Spec.Json.sep t).length + k.length + v.length + 6 ≤ size.toNat := by omega
    simp only [if_neg hc, List.append_assoc]
    refine Runs.bind (runs_strlen ht) (Runs.bind (runs_strlen hk) (Runs.bind (runs_strlen hv) (Runs.bind a1
      (Runs.bind (t := [_]) (u := []) (Runs.branchv (decide_eq_false (by rw [BitVec.le_def, hck]; exact hf)) m1) ?_))))
    exact Runs.pure _ _

/-- Several additions. -/
def additionsShown (b o size : Nat) (t : List Byte) : List (Ptr × Ptr) → List (List Byte × List Byte) → List Leak
  | p :: ps, x :: l => addShown b o p.1.blk p.1.off.toNat p.2.blk p.2.off.toNat size t.length (quoted t) x.1.length x.2.length ++
      additionsShown b o size (Spec.Json.add size t x).2 ps l
  | _, _ => []

theorem addAll_runs {b o : Nat} {size : SizeT} : ∀ (l : List (List Byte × List Byte)) (ps : List (Ptr × Ptr)) (t : List Byte)
    (m : Mem) (r : List Bool × List Byte), CStr (m.bytes b) o t → t ≠ [] → t.length < size.toNat → o + size.toNat ≤ (m.bytes b).length →
    Spec.Json.Holds m b o size.toNat ps l → (∀ x ∈ l, size.toNat + x.1.length + x.2.length + 7 < 2 ^ 64) →
    Spec.Json.run size.toNat t l = some r →
    ∃ m', Runs (addAllT (ptr b o) size ps) m r.1 (additionsShown b o size.toNat t ps l) m' ∧
      CStr (m'.bytes b) o r.2 ∧ OnlyChanged m m' b (o + t.length) (size.toNat - t.length) := by
  intro l
  induction l with
  | nil =>
    intro ps t m r ht hn hl hroom hh _ hr
    cases ps with
    | cons p ps => exact absurd hh id
    | nil =>
      injection hr with hr
      subst hr
      exact ⟨m, Runs.pure _ _, ht, oc_refl _ _ _ _⟩
  | cons x l ih =>
    intro ps t m r ht hn hl hroom hh hsm hr
    cases ps with
    | nil => exact absurd hh id
    | cons p ps =>
      obtain ⟨⟨bk, ok, bv, ov, e, h1, h2, h3, h4⟩, hh'⟩ := hh
      subst e
      have hx := hsm x (by simp)
      rw [Spec.Json.run] at hr
      by_cases hf : t.length + (Spec.Json.sep t).length < size.toNat
      · rw [if_pos hf] at hr
        obtain ⟨m1, a1, a2, a3⟩ := addData_runs (size := size) ⟨ht, h1, h2, h3, h4, hroom, by omega⟩ hn (by omega) hf
        have a3' := oc_mono a3 (o2 := o) (n2 := size.toNat) (by omega) (by omega)
        rw [Option.map_eq_some_iff] at hr
        obtain ⟨r', hr', e⟩ := hr
        subst e
        obtain ⟨m2, b1, b2, b3⟩ := ih ps (Spec.Json.add size.toNat t (x.1, x.2)).2 m1 r' a2 (add_ne hn) (add_length hf)
          (by rw [oc_length a3]; exact hroom) (holds_frame a3' hh') (fun y hy => hsm y (by simp [hy])) hr'
        have hle := add_le (size := size.toNat) t (x.1, x.2)
        have hlt := add_length (x := (x.1, x.2)) hf
        refine ⟨m2, ?_, b2, oc_trans a3 (oc_mono b3 (by omega) (by omega))⟩
        rw [addAllT, additionsShown]
        exact Runs.bind a1 ((Runs.bind (u := []) b1 (Runs.pure ((Spec.Json.add size.toNat t (x.1, x.2)).1 :: r'.1) m2)).of_eq (by simp))
      · rw [if_neg hf] at hr; cases hr

end IMU.Json
