import Verif.Model.Json
import Verif.Spec.Json
import Verif.Proofs.Str

namespace IMU.Json
open Spec

theorem oc_mono {m m' : Mem} {b o n o2 n2 : Nat} (h : OnlyChanged m m' b o n) (h1 : o2 ≤ o) (h2 : o + n ≤ o2 + n2) :
    OnlyChanged m m' b o2 n2 :=
  ⟨h.1, h.2.1, h.2.2.1, fun i hi => h.2.2.2 i (by omega)⟩

theorem oc_trans {m m' m'' : Mem} {b o n : Nat} (h : OnlyChanged m m' b o n) (h' : OnlyChanged m' m'' b o n) :
    OnlyChanged m m'' b o n :=
  ⟨h'.1.trans h.1, fun x hx => (h'.2.1 x hx).trans (h.2.1 x hx), h'.2.2.1.trans h.2.2.1,
    fun i hi => (h'.2.2.2 i hi).trans (h.2.2.2 i hi)⟩

theorem oc_refl (m : Mem) (b o n : Nat) : OnlyChanged m m b o n := ⟨rfl, fun _ _ => rfl, rfl, fun _ _ => rfl⟩

theorem oc_length {m m' : Mem} {b o n : Nat} (h : OnlyChanged m m' b o n) (x : Nat) :
    (m'.bytes x).length = (m.bytes x).length := by
  by_cases hx : x = b
  · subst hx; exact h.2.2.1
  · rw [h.2.1 x hx]

theorem cstr_iff {l : List Byte} {o : Nat} {s : List Byte} :
    CStr l o s ↔ 0#8 ∉ s ∧ ∀ i, i ≤ s.length → l[o + i]? = (s ++ [0#8])[i]? := by
  constructor
  · intro h
    refine ⟨h.1, fun i hi => ?_⟩
    by_cases hi' : i < s.length
    · rw [h.get hi', List.getElem?_append_left hi']
    · have : i = s.length := by omega
      subst this
      rw [h.nul]; simp
  · rintro ⟨h0, h⟩
    apply cstr_of_slice h0
    apply List.ext_getElem?
    intro i
    rw [getElem?_slice]
    split
    · exact h i (by omega)
    · rw [List.getElem?_eq_none (by simp; omega)]

theorem cstr_frame {m m' : Mem} {b o n b' o' : Nat} {s : List Byte} (hs : CStr (m.bytes b') o' s)
    (h : OnlyChanged m m' b o n) (hd : b' ≠ b ∨ o' + s.length + 1 ≤ o ∨ o + n ≤ o') : CStr (m'.bytes b') o' s := by
  by_cases hb : b' = b
  · subst hb
    rw [cstr_iff] at hs ⊢
    refine ⟨hs.1, fun i hi => ?_⟩
    rw [h.2.2.2 _ (by omega)]
    exact hs.2 i hi
  · rw [h.2.1 b' hb]; exact hs

/-- Appending to a string. -/
theorem append_ok {m : Mem} {b o : Nat} {t s : List Byte} (ht : CStr (m.bytes b) o t) (hs : 0#8 ∉ s)
    (hroom : o + t.length + s.length + 1 ≤ (m.bytes b).length) :
    CStr ((m.upd b (splice (m.bytes b) (o + t.length) (s ++ [0#8]))).bytes b) o (t ++ s) ∧
      OnlyChanged m (m.upd b (splice (m.bytes b) (o + t.length) (s ++ [0#8]))) b (o + t.length) (s.length + 1) := by
  constructor
  · rw [cstr_iff]
    refine ⟨by simp [ht.1, hs], fun i hi => ?_⟩
    rw [List.length_append] at hi
    rw [Mem.upd_bytes, if_pos rfl, getElem?_splice _ _ _ (by simp; omega)]
    by_cases h1 : i < t.length
    · rw [if_pos (by omega), ht.get h1, List.append_assoc, List.getElem?_append_left h1]
    · have e : o + i - (o + t.length) = i - t.length := by omega
      rw [if_neg (by omega), if_pos (by rw [List.length_append]; show o + i < o + t.length + (s.length + 1); omega),
        List.append_assoc, List.getElem?_append_right (l₁ := t) (by omega), e]
  · have := onlyChanged_splice m b (o + t.length) (s ++ [0#8]) (by simp; omega)
    simpa using this

theorem strcpyLit_ok {m : Mem} {b o : Nat} {t s : List Byte} (ht : CStr (m.bytes b) o t) (hs : 0#8 ∉ s)
    (hroom : o + t.length + s.length + 1 ≤ (m.bytes b).length) :
    ∃ m', strcpyLit (ptr b (o + t.length)) s m = .ok () m' ∧ CStr (m'.bytes b) o (t ++ s) ∧
      OnlyChanged m m' b (o + t.length) (s.length + 1) := by
  have h := append_ok ht hs hroom
  exact ⟨_, storeN_ok (by simp; omega), h.1, h.2⟩

theorem strcpyLit_oob {m : Mem} {b o : Nat} {s : List Byte} (h : (m.bytes b).length < o + s.length + 1) :
    strcpyLit (ptr b o) s m = .ub .oobWrite := storeN_oob (by simp) (by simp; omega)

theorem strcpy_ok {m : Mem} {b o bs os : Nat} {t s : List Byte} (ht : CStr (m.bytes b) o t) (hs : CStr (m.bytes bs) os s)
    (hroom : o + t.length + s.length + 1 ≤ (m.bytes b).length)
    (hd : bs ≠ b ∨ os + s.length + 1 ≤ o + t.length ∨ o + t.length + s.length + 1 ≤ os) :
    ∃ m', strcpy (ptr b (o + t.length)) (ptr bs os) m = .ok () m' ∧ CStr (m'.bytes b) o (t ++ s) ∧
      OnlyChanged m m' b (o + t.length) (s.length + 1) := by
  have h := append_ok ht hs.1 hroom
  have hlt := hs.lt
  refine ⟨_, ?_, h.1, h.2⟩
  unfold strcpy
  rw [C.bind_ok (strlen_ok hs), memcpy_ok (by omega) (by omega) (by omega), hs.slice_eq]

theorem ofNat64 {n : Nat} (h : n < 2 ^ 64) : (BitVec.ofNat 64 n).toNat = n := by
  rw [BitVec.toNat_ofNat]; omega

/-- Buffer with text `t`, and key and value elsewhere. -/
structure Args (m : Mem) (b o size : Nat) (t : List Byte) (bk ok : Nat) (k : List Byte) (bv ov : Nat) (v : List Byte) :
    Prop where
  text : CStr (m.bytes b) o t
  key : CStr (m.bytes bk) ok k
  val : CStr (m.bytes bv) ov v
  key_apart : bk ≠ b ∨ ok + k.length + 1 ≤ o ∨ o + size ≤ ok
  val_apart : bv ≠ b ∨ ov + v.length + 1 ≤ o ∨ o + size ≤ ov
  room : o + size ≤ (m.bytes b).length
  small : t.length + k.length + v.length + 6 < 2 ^ 64

theorem addComma_none {m : Mem} {b o : Nat} {t : List Byte} (ht : CStr (m.bytes b) o t) (hn : t ≠ [])
    (hsmall : t.length < 2 ^ 64) (hl : t.getLast? ≠ some 34#8) :
    addComma (ptr b o) (BitVec.ofNat 64 t.length) m = .ok (BitVec.ofNat 64 t.length) m := by
  have hpos : 0 < t.length := List.length_pos_iff.mpr hn
  have e : (BitVec.ofNat 64 t.length - 1#64).toNat = t.length - 1 := by
    rw [BitVec.toNat_sub_of_le (by rw [BitVec.le_def, ofNat64 hsmall]; simp; omega), ofNat64 hsmall]; simp
  have h2 : t[t.length - 1]? = some t[t.length - 1] := List.getElem?_eq_getElem (by omega)
  have hld : load (ptr b (o + (t.length - 1))) m = .ok t[t.length - 1] m :=
    load_ok (by rw [ht.get (by omega), h2])
  rw [List.getLast?_eq_getElem?, h2] at hl
  have hf : (t[t.length - 1] == 34#8) = false := by
    rw [beq_eq_false_iff_ne]; intro e; exact hl (congrArg some e)
  unfold addComma
  rw [e, ptr_addN]
  simp only [strcmpLit]
  rw [C.bind_ok (show (load (ptr b (o + (t.length - 1))) >>= fun c => if (c == 34#8) = true then
    load ((ptr b (o + (t.length - 1))).addN 1) >>= fun c => pure (c == 0#8) else pure false) m = .ok false m by
      rw [C.bind_ok hld, hf]; rfl)]
  rfl

theorem addComma_quote {m : Mem} {b o : Nat} {t : List Byte} (ht : CStr (m.bytes b) o t)
    (hsmall : t.length < 2 ^ 64) (hl : t.getLast? = some 34#8) :
    addComma (ptr b o) (BitVec.ofNat 64 t.length) m =
      (strcpyLit (ptr b (o + t.length)) [44#8] >>= fun _ => pure (BitVec.ofNat 64 t.length + 1#64)) m := by
  have hpos : 0 < t.length := by
    cases t with
    | nil => simp at hl
    | cons a t => simp
  have e : (BitVec.ofNat 64 t.length - 1#64).toNat = t.length - 1 := by
    rw [BitVec.toNat_sub_of_le (by rw [BitVec.le_def, ofNat64 hsmall]; simp; omega), ofNat64 hsmall]; simp
  rw [List.getLast?_eq_getElem?] at hl
  have hld : load (ptr b (o + (t.length - 1))) m = .ok 34#8 m :=
    load_ok (by rw [ht.get (by omega), hl])
  have hld2 : load (ptr b (o + (t.length - 1) + 1)) m = .ok 0#8 m := by
    rw [show o + (t.length - 1) + 1 = o + t.length by omega]; exact load_ok ht.nul
  unfold addComma
  rw [e, ptr_addN]
  simp only [strcmpLit, ptr_addN, ofNat64 hsmall]
  rw [C.bind_ok (show (load (ptr b (o + (t.length - 1))) >>= fun c => if (c == 34#8) = true then
    load (ptr b (o + (t.length - 1) + 1)) >>= fun c => pure (c == 0#8) else pure false) m = .ok true m by
      rw [C.bind_ok hld]
      show (load (ptr b (o + (t.length - 1) + 1)) >>= fun c => pure (c == 0#8)) m = _
      rw [C.bind_ok hld2]; rfl)]
  rfl

theorem addMember_ok {m : Mem} {b o size : Nat} {t : List Byte} {bk ok : Nat} {k : List Byte} {bv ov : Nat}
    {v : List Byte} (h : Args m b o size t bk ok k bv ov v) (hfit : (t ++ Spec.Json.member k v).length + 1 ≤ size) :
    ∃ m', addMember (ptr b o) (BitVec.ofNat 64 t.length) (ptr bk ok) (ptr bv ov) m = .ok () m' ∧
      CStr (m'.bytes b) o (t ++ Spec.Json.member k v) ∧ OnlyChanged m m' b (o + t.length) (size - t.length) := by
  obtain ⟨ht, hk, hv, hka, hva, hroom, hsmall⟩ := h
  have hfit' : t.length + k.length + v.length + 6 ≤ size := by
    simp only [Spec.Json.member, Spec.Json.str, List.length_append, List.length_cons, List.length_nil] at hfit; omega
  have i0 : (BitVec.ofNat 64 t.length).toNat = t.length := ofNat64 (by omega)
  have i1 : BitVec.ofNat 64 t.length + 1#64 = BitVec.ofNat 64 (t.length + 1) := by simp [BitVec.ofNat_add]
  have i2 : BitVec.ofNat 64 (t.length + 1) + BitVec.ofNat 64 k.length = BitVec.ofNat 64 (t.length + 1 + k.length) := by
    simp [BitVec.ofNat_add]
  have i3 : BitVec.ofNat 64 (t.length + 1 + k.length) + 3#64 = BitVec.ofNat 64 (t.length + 1 + k.length + 3) := by
    simp [BitVec.ofNat_add]
  have i4 : BitVec.ofNat 64 (t.length + 1 + k.length + 3) + BitVec.ofNat 64 v.length =
      BitVec.ofNat 64 (t.length + 1 + k.length + 3 + v.length) := by simp [BitVec.ofNat_add]
  obtain ⟨m1, a1, a2, a3⟩ := strcpyLit_ok (s := [34#8]) ht (by decide) (by simp; omega)
  have hk1 := cstr_frame hk (oc_mono a3 (o2 := o + t.length) (n2 := size - t.length) (by omega) (by simp; omega)) (by omega)
  have hv1 := cstr_frame hv (oc_mono a3 (o2 := o + t.length) (n2 := size - t.length) (by omega) (by simp; omega)) (by omega)
  obtain ⟨m2, b1, b2, b3⟩ := strcpy_ok a2 hk1 (by rw [oc_length a3]; simp; omega) (by simp; omega)
  have b3' := oc_mono b3 (o2 := o + t.length) (n2 := size - t.length) (by simp) (by simp; omega)
  have hk2 := cstr_frame hk1 b3' (by omega)
  have hv2 := cstr_frame hv1 b3' (by omega)
  obtain ⟨m3, c1, c2, c3⟩ := strcpyLit_ok (s := [34#8, 58#8, 34#8]) b2 (by decide)
    (by rw [oc_length b3, oc_length a3]; simp; omega)
  have c3' := oc_mono c3 (o2 := o + t.length) (n2 := size - t.length) (by simp) (by simp; omega)
  have hv3 := cstr_frame hv2 c3' (by omega)
  obtain ⟨m4, d1, d2, d3⟩ := strcpy_ok c2 hv3 (by rw [oc_length c3, oc_length b3, oc_length a3]; simp; omega)
    (by simp; omega)
  have d3' := oc_mono d3 (o2 := o + t.length) (n2 := size - t.length) (by simp) (by simp; omega)
  have hv4 := cstr_frame hv3 d3' (by omega)
  obtain ⟨m5, e1, e2, e3⟩ := strcpyLit_ok (s := [34#8]) d2 (by decide)
    (by rw [oc_length d3, oc_length c3, oc_length b3, oc_length a3]; simp; omega)
  have e3' := oc_mono e3 (o2 := o + t.length) (n2 := size - t.length) (by simp) (by simp; omega)
  have a3' := oc_mono a3 (o2 := o + t.length) (n2 := size - t.length) (by omega) (by simp; omega)
  refine ⟨m5, ?_, ?_, oc_trans a3' (oc_trans b3' (oc_trans c3' (oc_trans d3' e3')))⟩
  · unfold addMember
    simp only [ptr_addN, i0, i1]
    rw [C.bind_ok a1, ofNat64 (by omega)]
    simp only [List.length_append, List.length_cons, List.length_nil] at b1 c1 d1 e1
    rw [show o + (t.length + 1) = o + (t.length + (0 + 1)) by omega, C.bind_ok b1, C.bind_ok (strlen_ok hk2)]
    simp only [i2]
    rw [ofNat64 (by omega), show o + (t.length + 1 + k.length) = o + (t.length + (0 + 1) + k.length) by omega,
      C.bind_ok c1]
    simp only [i3]
    rw [ofNat64 (by omega), show o + (t.length + 1 + k.length + 3) = o + (t.length + (0 + 1) + k.length + (0 + 1 + 1 + 1))
      by omega, C.bind_ok d1, C.bind_ok (strlen_ok hv4)]
    simp only [i4]
    rw [ofNat64 (by omega), show o + (t.length + 1 + k.length + 3 + v.length) =
      o + (t.length + (0 + 1) + k.length + (0 + 1 + 1 + 1) + v.length) by omega]
    exact e1
  · have : t ++ Spec.Json.member k v = t ++ [34#8] ++ k ++ [34#8, 58#8, 34#8] ++ v ++ [34#8] := by
      simp [Spec.Json.member, Spec.Json.str]
    rw [this]; exact e2

/-- The whole call, if the comma does not overflow the object. -/
theorem addData_ok {m : Mem} {b o : Nat} {size : SizeT} {t : List Byte} {bk ok : Nat} {k : List Byte} {bv ov : Nat}
    {v : List Byte} (h : Args m b o size.toNat t bk ok k bv ov v) (hn : t ≠ [])
    (hsmall : t.length + k.length + v.length + 7 < 2 ^ 64) (hfit : t.length + (Spec.Json.sep t).length < size.toNat) :
    ∃ m', addData (ptr b o) size (ptr bk ok) (ptr bv ov) m = .ok (Spec.Json.add size.toNat t (k, v)).1 m' ∧
      CStr (m'.bytes b) o (Spec.Json.add size.toNat t (k, v)).2 ∧
      OnlyChanged m m' b (o + t.length) (size.toNat - t.length) := by
  obtain ⟨ht, hk, hv, hka, hva, hroom, _⟩ := h
  -- the comma
  have hc : ∃ m', addComma (ptr b o) (BitVec.ofNat 64 t.length) m =
      .ok (BitVec.ofNat 64 (t ++ Spec.Json.sep t).length) m' ∧ CStr (m'.bytes b) o (t ++ Spec.Json.sep t) ∧
      OnlyChanged m m' b (o + t.length) (size.toNat - t.length) := by
    by_cases hl : t.getLast? = some 34#8
    · have hs : Spec.Json.sep t = [44#8] := by simp [Spec.Json.sep, hl]
      rw [hs] at hfit ⊢
      simp only [List.length_cons, List.length_nil] at hfit
      obtain ⟨m1, a1, a2, a3⟩ := strcpyLit_ok (s := [44#8]) ht (by decide) (by simp; omega)
      refine ⟨m1, ?_, a2, oc_mono a3 (by omega) (by simp; omega)⟩
      rw [addComma_quote ht (by omega) hl, C.bind_ok a1]
      simp [BitVec.ofNat_add]
    · have hs : Spec.Json.sep t = [] := by simp [Spec.Json.sep, hl]
      rw [hs]
      refine ⟨m, ?_, by simpa using ht, oc_refl _ _ _ _⟩
      rw [addComma_none ht hn (by omega) hl]
      simp
  obtain ⟨m1, a1, a2, a3⟩ := hc
  have hsl : (Spec.Json.sep t).length ≤ 1 := by unfold Spec.Json.sep; split <;> simp
  have hk1 := cstr_frame hk a3 (by omega)
  have hv1 := cstr_frame hv a3 (by omega)
  have htl : (t ++ Spec.Json.sep t).length = t.length + (Spec.Json.sep t).length := by simp
  have hml : (Spec.Json.member k v).length = k.length + v.length + 5 := by
    simp only [Spec.Json.member, Spec.Json.str, List.length_append, List.length_cons, List.length_nil]; omega
  have hck : (5#64 + BitVec.ofNat 64 k.length + BitVec.ofNat 64 v.length + 1#64 +
      BitVec.ofNat 64 (t ++ Spec.Json.sep t).length).toNat = (t ++ Spec.Json.sep t ++ Spec.Json.member k v).length + 1 := by
    rw [List.length_append (as := t ++ Spec.Json.sep t), hml]
    have e1 : 5#64 + BitVec.ofNat 64 k.length + BitVec.ofNat 64 v.length + 1#64 +
      BitVec.ofNat 64 (t ++ Spec.Json.sep t).length =
        BitVec.ofNat 64 (5 + k.length + v.length + 1 + (t ++ Spec.Json.sep t).length) := by
      simp only [BitVec.ofNat_add]
    rw [e1, ofNat64 (by omega)]
    omega
  unfold addData
  rw [C.bind_ok (strlen_ok ht), C.bind_ok (strlen_ok hk), C.bind_ok (strlen_ok hv), C.bind_ok a1]
  unfold Spec.Json.add
  by_cases hf : (t ++ Spec.Json.sep t ++ Spec.Json.member k v).length + 1 ≤ size.toNat
  · rw [if_pos hf, if_pos (by rw [BitVec.le_def, hck]; exact hf)]
    obtain ⟨m2, b1, b2, b3⟩ := addMember_ok (m := m1) (size := size.toNat) (t := t ++ Spec.Json.sep t)
      ⟨a2, hk1, hv1, hka, hva, by rw [oc_length a3]; exact hroom, by
        rw [List.length_append (as := t ++ Spec.Json.sep t), hml] at hf; omega⟩ hf
    refine ⟨m2, ?_, b2, oc_trans a3 (oc_mono b3 (by omega) (by omega))⟩
    rw [C.bind_ok b1]
    rfl
  · rw [if_neg hf, if_neg (by rw [BitVec.le_def, hck]; exact hf)]
    exact ⟨m1, rfl, a2, a3⟩

/-- The comma does not fit the object. -/
theorem addData_oob {m : Mem} {b o : Nat} {size : SizeT} {t : List Byte} {bk ok : Nat} {k : List Byte} {bv ov : Nat}
    {v : List Byte} (ht : CStr (m.bytes b) o t) (hk : CStr (m.bytes bk) ok k) (hv : CStr (m.bytes bv) ov v)
    (hsmall : t.length < 2 ^ 64) (hl : t.getLast? = some 34#8) (hend : (m.bytes b).length = o + t.length + 1) :
    addData (ptr b o) size (ptr bk ok) (ptr bv ov) m = .ub .oobWrite := by
  unfold addData
  rw [C.bind_ok (strlen_ok ht), C.bind_ok (strlen_ok hk), C.bind_ok (strlen_ok hv), C.bind_ub]
  rw [addComma_quote ht hsmall hl, C.bind_ub (strcpyLit_oob (by simp; omega))]

/-- The empty text. -/
theorem addData_empty {m : Mem} {b o : Nat} {size : SizeT} {bk ok : Nat} {k : List Byte} {bv ov : Nat}
    {v : List Byte} (ht : CStr (m.bytes b) o []) (hk : CStr (m.bytes bk) ok k) (hv : CStr (m.bytes bv) ov v)
    (hsmall : (m.bytes b).length < 2 ^ 64) :
    addData (ptr b o) size (ptr bk ok) (ptr bv ov) m = .ub .oobRead := by
  unfold addData
  rw [C.bind_ok (strlen_ok ht), C.bind_ok (strlen_ok hk), C.bind_ok (strlen_ok hv), C.bind_ub]
  unfold addComma
  rw [C.bind_ub]
  simp only [strcmpLit, ptr_addN]
  rw [C.bind_ub (load_oob _)]
  show (m.bytes b).length ≤ o + (BitVec.ofNat 64 0 - 1#64).toNat
  rw [show (BitVec.ofNat 64 0 - 1#64).toNat = 2 ^ 64 - 1 by decide]
  omega

theorem startString_ok {m : Mem} {b o : Nat} {size : SizeT} (hroom : o + size.toNat ≤ (m.bytes b).length)
    (hs : 2 ≤ size.toNat) :
    ∃ m', startString (ptr b o) size m = .ok true m' ∧ CStr (m'.bytes b) o [123#8] ∧ OnlyChanged m m' b o 2 := by
  have hlen : ([123#8] ++ [0#8] : List Byte).length = 2 := rfl
  refine ⟨m.upd b (splice (m.bytes b) o ([123#8] ++ [0#8])), ?_, ?_, ?_⟩
  · unfold startString
    rw [if_pos (by rw [BitVec.le_def]; exact hs), C.bind_ok (show strcpyLit (ptr b o) [123#8] m = _ from
      storeN_ok (by rw [hlen]; omega))]
    rfl
  · rw [cstr_iff]
    refine ⟨by decide, fun i hi => ?_⟩
    simp only [List.length_cons, List.length_nil] at hi
    rw [Mem.upd_bytes, if_pos rfl, getElem?_splice _ _ _ (by rw [hlen]; omega), if_neg (by omega),
      if_pos (by rw [hlen]; omega)]
    congr 1; omega
  · have := onlyChanged_splice m b o ([123#8] ++ [0#8]) (by rw [hlen]; omega)
    rw [hlen] at this
    exact this

theorem endString_ok {m : Mem} {b o : Nat} {size : SizeT} {t : List Byte} (ht : CStr (m.bytes b) o t)
    (hroom : o + size.toNat ≤ (m.bytes b).length) (hsmall : t.length + 2 < 2 ^ 64) (hs : t.length + 2 ≤ size.toNat) :
    ∃ m', endString (ptr b o) size m = .ok true m' ∧ CStr (m'.bytes b) o (t ++ [125#8]) ∧
      OnlyChanged m m' b (o + t.length) 2 := by
  obtain ⟨m1, a1, a2, a3⟩ := strcpyLit_ok (s := [125#8]) ht (by decide) (by simp; omega)
  refine ⟨m1, ?_, a2, a3⟩
  unfold endString
  rw [C.bind_ok (strlen_ok ht), if_pos, ptr_addN, C.bind_ok a1]
  · rfl
  · rw [BitVec.le_def, show (2#64 + BitVec.ofNat 64 t.length) = BitVec.ofNat 64 (2 + t.length) by
      simp [BitVec.ofNat_add], ofNat64 (by omega)]
    omega

theorem endString_fail {m : Mem} {b o : Nat} {size : SizeT} {t : List Byte} (ht : CStr (m.bytes b) o t)
    (hsmall : t.length + 2 < 2 ^ 64) (hs : size.toNat < t.length + 2) :
    endString (ptr b o) size m = .ok false m := by
  unfold endString
  rw [C.bind_ok (strlen_ok ht), if_neg]
  · rfl
  · rw [BitVec.le_def, show (2#64 + BitVec.ofNat 64 t.length) = BitVec.ofNat 64 (2 + t.length) by
      simp [BitVec.ofNat_add], ofNat64 (by omega)]
    omega

end IMU.Json
