import Verif.Proofs.JsonBuild
import Verif.Proofs.Base64
import Verif.Proofs.JsonText

namespace IMU.Json
open Spec
open Base64 (Reads)

theorem reads_tail {m : Mem} {b o : Nat} {c : Byte} {d : List Byte} (h : Reads m b o (c :: d)) : Reads m b (o + 1) d := by
  intro i hi
  have := h (i + 1) (by simp; omega)
  rw [List.getElem?_cons_succ] at this
  rw [← this]; congr 1; omega

theorem reads_drop {m : Mem} {b o : Nat} {d : List Byte} (h : Reads m b o d) (i : Nat) : Reads m b (o + i) (d.drop i) := by
  intro j hj
  rw [List.length_drop] at hj
  rw [List.getElem?_drop, ← h (i + j) (by omega)]; congr 1; omega

theorem reads_take {m : Mem} {b o : Nat} {d : List Byte} (h : Reads m b o d) (i : Nat) : Reads m b o (d.take i) := by
  intro j hj
  rw [List.length_take] at hj
  rw [List.getElem?_take_of_lt (by omega), ← h j (by omega)]

theorem reads_cstr {m : Mem} {b o : Nat} {s : List Byte} (h : CStr (m.bytes b) o s) : Reads m b o s :=
  fun i hi => by rw [h.get hi]

theorem strncmpEq_ok {m : Mem} (k : List Byte) : ∀ {d : List Byte} {b o bk ok : Nat}, 0#8 ∉ k → Reads m bk ok k →
    Reads m b o d → d.length = k.length → strncmpEq (ptr b o) (ptr bk ok) k.length m = .ok (decide (d = k)) m := by
  induction k with
  | nil =>
    intro d b o bk ok _ _ _ hl
    have : d = [] := List.eq_nil_of_length_eq_zero hl
    subst this; rfl
  | cons x k ih =>
    intro d b o bk ok h0 hk hd hl
    cases d with
    | nil => simp at hl
    | cons y d =>
      have hx : x ≠ 0#8 := fun e => h0 (by simp [e])
      simp only [List.length_cons, strncmpEq, ptr_addN]
      rw [C.bind_ok hd.load0, C.bind_ok hk.load0]
      by_cases hxy : y = x
      · subst hxy
        rw [if_pos (by simp), if_neg (by simpa using hx)]
        rw [ih (fun h => h0 (by simp [h])) (reads_tail hk) (reads_tail hd) (by simpa using hl)]
        simp
      · rw [if_neg (by simpa using hxy)]
        show Res.ok false m = _
        rw [decide_eq_false (by simp [hxy])]

theorem afterKey_short (k : List Byte) : ∀ t : List Byte, t.length ≤ k.length → Spec.Json.afterKey k t = none := by
  intro t
  induction t with
  | nil => intro _; rfl
  | cons c t ih =>
    intro h
    rw [Spec.Json.afterKey, if_neg (by omega)]
    exact ih (by simp at h; omega)

theorem ofNat32 {n : Nat} (h : n < 2 ^ 32) : (BitVec.ofNat 32 n).toNat = n := by
  rw [BitVec.toNat_ofNat]; omega

theorem setWidth64 {n : Nat} (h : n < 2 ^ 32) : (BitVec.ofNat 32 n).setWidth 64 = BitVec.ofNat 64 n := by
  apply BitVec.eq_of_toNat_eq
  rw [BitVec.toNat_setWidth, ofNat32 h, BitVec.toNat_ofNat]

theorem ofNat32_succ (n : Nat) : BitVec.ofNat 32 n + 1#32 = BitVec.ofNat 32 (n + 1) := by simp [BitVec.ofNat_add]

theorem search_ok {m : Mem} {b o bk ok : Nat} {T k : List Byte} (hT : Reads m b o T) (hk : Reads m bk ok k)
    (h0 : 0#8 ∉ k) (hn : T.length < 2 ^ 32) {mx : U32} (hmx : mx.toNat = T.length - k.length) (fuel : Nat) :
    ∀ i, T.length < fuel + i → i ≤ T.length →
    ∃ j, search (ptr b o) (ptr bk ok) (BitVec.ofNat 64 k.length) mx fuel (BitVec.ofNat 32 i) m =
      .ok (BitVec.ofNat 32 j, (Spec.Json.afterKey k (T.drop i)).isSome) m ∧
      ∀ r, Spec.Json.afterKey k (T.drop i) = some r → r = T.drop (j + k.length + 1) ∧ j + k.length < T.length := by
  induction fuel with
  | zero => intro i h1 h2; omega
  | succ fuel ih =>
    intro i h1 h2
    rw [search]
    by_cases hi : i < T.length - k.length
    · rw [if_pos (by rw [BitVec.lt_def, hmx, ofNat32 (by omega)]; exact hi)]
      have hr : Reads m b (o + i) ((T.drop i).take k.length) := reads_take (reads_drop hT i) _
      rw [ptr_addN, ofNat32 (by omega), ofNat64 (by omega), C.bind_ok (strncmpEq_ok k h0 hk hr (by simp; omega))]
      have hcons : T.drop i = T[i] :: T.drop (i + 1) := List.drop_eq_getElem_cons (by omega)
      have hpre : k <+: T.drop i ↔ (T.drop i).take k.length = k := by
        rw [List.prefix_iff_eq_take]; exact ⟨fun h => h.symm, fun h => h.symm⟩
      have hlt : k.length < (T.drop i).length := by simp; omega
      by_cases he : (T.drop i).take k.length = k
      · rw [if_pos (by simp [he]), setWidth64 (by omega),
          show BitVec.ofNat 64 i + BitVec.ofNat 64 k.length = BitVec.ofNat 64 (i + k.length) by simp [BitVec.ofNat_add],
          ofNat64 (by omega)]
        have hg : T[i + k.length]? = some T[i + k.length] := List.getElem?_eq_getElem (by omega)
        rw [ptr_addN, C.bind_ok (hT.load hg)]
        have ha : Spec.Json.afterKey k (T.drop i) =
            if T[i + k.length] = 34#8 then some (T.drop (i + k.length + 1)) else none := by
          rw [hcons, Spec.Json.afterKey, ← hcons, if_pos ⟨hpre.mpr he, hlt⟩, List.getElem?_drop, hg, List.drop_drop]
          simp only [Option.some.injEq, Nat.add_assoc]
        refine ⟨i, ?_, ?_⟩
        · rw [ha]
          show Res.ok _ m = _
          by_cases hq : T[i + k.length] = 34#8
          · simp [hq]
          · simp [hq]
        · intro r hr
          rw [ha] at hr
          split at hr
          · injection hr with hr
            exact ⟨hr.symm, by omega⟩
          · cases hr
      · rw [if_neg (by simp [he]), ofNat32_succ]
        have ha : Spec.Json.afterKey k (T.drop i) = Spec.Json.afterKey k (T.drop (i + 1)) := by
          rw [hcons, Spec.Json.afterKey, ← hcons, if_neg (fun h => he (hpre.mp h.1))]
        rw [ha]
        exact ih (i + 1) (by omega) (by omega)
    · rw [if_neg (by rw [BitVec.lt_def, hmx, ofNat32 (by omega)]; exact hi)]
      rw [afterKey_short k (T.drop i) (by simp; omega)]
      exact ⟨i, rfl, fun r hr => by cases hr⟩

theorem skip_ok {m : Mem} {b o : Nat} {T : List Byte} (hT : Reads m b o T) (hn : T.length < 2 ^ 32) {size : SizeT}
    (hs : size.toNat = T.length) (fuel : Nat) : ∀ i, T.length < fuel + i → i ≤ T.length →
    skip (ptr b o) size fuel (BitVec.ofNat 32 i) m =
      .ok (BitVec.ofNat 32 (i + ((T.drop i).takeWhile Spec.Json.notQuote).length)) m := by
  induction fuel with
  | zero => intro i h1 h2; omega
  | succ fuel ih =>
    intro i h1 h2
    rw [skip, setWidth64 (by omega)]
    by_cases hi : i < T.length
    · rw [if_pos (by rw [BitVec.lt_def, hs, ofNat64 (by omega)]; exact hi)]
      have hcons : T.drop i = T[i] :: T.drop (i + 1) := List.drop_eq_getElem_cons (by omega)
      rw [ptr_addN, ofNat32 (by omega), C.bind_ok (hT.load (List.getElem?_eq_getElem hi)), hcons]
      by_cases hq : T[i] = 34#8
      · rw [if_pos (by simp [hq])]
        show Res.ok _ m = _
        simp [Spec.Json.notQuote, hq]
      · rw [if_neg (by simpa using hq), ofNat32_succ, ih (i + 1) (by omega) (by omega),
          List.takeWhile_cons_of_pos (by simpa [Spec.Json.notQuote] using hq)]
        rw [List.length_cons, show i + 1 + ((T.drop (i + 1)).takeWhile Spec.Json.notQuote).length =
          i + (((T.drop (i + 1)).takeWhile Spec.Json.notQuote).length + 1) by omega]
    · rw [if_neg (by rw [BitVec.lt_def, hs, ofNat64 (by omega)]; exact hi)]
      have : T.drop i = [] := List.drop_of_length_le (by omega)
      rw [this]; rfl

theorem store_frame {m : Mem} {b o : Nat} {v : Byte} (h : o < (m.bytes b).length) :
    ∃ m', store (ptr b o) v m = .ok () m' ∧ OnlyChanged m m' b o 1 ∧ (m'.bytes b)[o]? = some v := by
  refine ⟨_, store_ok h, ⟨rfl, fun x hx => by rw [Mem.upd_bytes, if_neg hx], by simp, fun i hi => ?_⟩, ?_⟩
  · rw [Mem.upd_bytes, if_pos rfl, List.getElem?_set_ne (by omega)]
  · rw [Mem.upd_bytes, if_pos rfl, List.getElem?_set_self h]

theorem copy_ok {b o bv ov : Nat} {T : List Byte} (hn : T.length < 2 ^ 32) {size mv : SizeT}
    (hs : size.toNat = T.length) (hd : bv ≠ b ∨ ov + mv.toNat ≤ o ∨ o + T.length ≤ ov) (fuel : Nat) :
    ∀ i (w : SizeT) (m : Mem), T.length < fuel + i → 0 < fuel → i ≤ T.length + 1 → i < 2 ^ 32 → w.toNat ≤ mv.toNat → Reads m b o T →
    ov + mv.toNat ≤ (m.bytes bv).length →
    ∃ m', copy (ptr b o) size (ptr bv ov) mv fuel (BitVec.ofNat 32 i) w m =
      .ok (decide (34#8 ∈ T.drop i ∧ ((T.drop i).takeWhile Spec.Json.notQuote).length < mv.toNat - w.toNat)) m' ∧
      OnlyChanged m m' bv (ov + w.toNat) (mv.toNat - w.toNat) ∧
      (34#8 ∈ T.drop i ∧ ((T.drop i).takeWhile Spec.Json.notQuote).length < mv.toNat - w.toNat →
        ∀ x, x ≤ ((T.drop i).takeWhile Spec.Json.notQuote).length →
          (m'.bytes bv)[ov + w.toNat + x]? = ((T.drop i).takeWhile Spec.Json.notQuote ++ [0#8])[x]?) := by
  induction fuel with
  | zero => intro i w m h1 h0; omega
  | succ fuel ih =>
    intro i w m h1 h0 h2 h3 hw hT hroom
    rw [copy, setWidth64 (by omega)]
    by_cases hi : i < T.length ∧ w.toNat < mv.toNat
    · obtain ⟨hi, hwm⟩ := hi
      rw [if_pos (by rw [BitVec.lt_def, BitVec.lt_def, hs, ofNat64 (by omega)]; exact ⟨hi, hwm⟩)]
      have hcons : T.drop i = T[i] :: T.drop (i + 1) := List.drop_eq_getElem_cons (by omega)
      have hg : T[i]? = some T[i] := List.getElem?_eq_getElem hi
      rw [ptr_addN, ofNat32 (by omega), ptr_addN, C.bind_ok (hT.load hg)]
      obtain ⟨m1, a1, a2, a3⟩ := store_frame (m := m) (b := bv) (o := ov + w.toNat) (v := T[i]) (by omega)
      have hT1 : Reads m1 b o T := hT.store a1 (by omega)
      rw [C.bind_ok a1, C.bind_ok (hT1.load hg), hcons]
      by_cases hq : T[i] = 34#8
      · rw [if_pos (by simp [hq])]
        obtain ⟨m2, b1, b2, b3⟩ := store_frame (m := m1) (b := bv) (o := ov + w.toNat) (v := 0#8)
          (by rw [oc_length a2]; omega)
        have ht : (T[i] :: T.drop (i + 1)).takeWhile Spec.Json.notQuote = [] :=
          List.takeWhile_cons_of_neg (by simp [Spec.Json.notQuote, hq])
        refine ⟨m2, ?_, ?_, ?_⟩
        · rw [C.bind_ok b1, ht, decide_eq_true]
          · rfl
          · exact ⟨by simp [hq], by simp; omega⟩
        · exact oc_trans (oc_mono a2 (by omega) (by omega)) (oc_mono b2 (by omega) (by omega))
        · intro _ x hx
          rw [ht] at hx ⊢
          have : x = 0 := by simpa using hx
          subst this
          rw [Nat.add_zero, b3]; rfl
      · rw [if_neg (by simpa using hq), ofNat32_succ]
        have hw1 : (w + 1#64).toNat = w.toNat + 1 := by
          have := mv.isLt
          rw [BitVec.toNat_add]; simp only [BitVec.toNat_ofNat]; omega
        obtain ⟨m2, b1, b2, b3⟩ := ih (i + 1) (w + 1#64) m1 (by omega) (by omega) (by omega) (by omega) (by omega) hT1
          (by rw [oc_length a2]; omega)
        have ht : (T[i] :: T.drop (i + 1)).takeWhile Spec.Json.notQuote = T[i] :: (T.drop (i + 1)).takeWhile Spec.Json.notQuote :=
          List.takeWhile_cons_of_pos (by simpa [Spec.Json.notQuote] using hq)
        have hiff : (34#8 ∈ T[i] :: T.drop (i + 1) ∧ (T[i] :: (T.drop (i + 1)).takeWhile Spec.Json.notQuote).length <
            mv.toNat - w.toNat) ↔ (34#8 ∈ T.drop (i + 1) ∧ ((T.drop (i + 1)).takeWhile Spec.Json.notQuote).length <
              mv.toNat - (w + 1#64).toNat) := by
          rw [hw1, List.length_cons, List.mem_cons]
          constructor
          · rintro ⟨h | h, h'⟩
            · exact absurd h.symm hq
            · exact ⟨h, by omega⟩
          · rintro ⟨h, h'⟩
            exact ⟨Or.inr h, by omega⟩
        rw [ht]
        refine ⟨m2, ?_, ?_, ?_⟩
        · rw [b1]; simp only [hiff]
        · exact oc_trans (oc_mono a2 (by omega) (by omega)) (oc_mono b2 (by omega) (by omega))
        · intro h x hx
          cases x with
          | zero =>
            rw [b2.2.2.2 _ (by omega), Nat.add_zero, a3]; rfl
          | succ x =>
            rw [List.cons_append, List.getElem?_cons_succ, ← b3 (hiff.mp h) x (by simpa using hx), hw1]
            congr 1; omega
    · rw [if_neg (by rw [BitVec.lt_def, BitVec.lt_def, hs, ofNat64 (by omega)]; exact hi)]
      have hno : ¬ (34#8 ∈ T.drop i ∧ ((T.drop i).takeWhile Spec.Json.notQuote).length < mv.toNat - w.toNat) := by
        rintro ⟨h, h'⟩
        have : T.drop i ≠ [] := by rintro e; rw [e] at h; simp at h
        have : 0 < (T.drop i).length := List.length_pos_iff.mpr this
        rw [List.length_drop] at this
        omega
      refine ⟨m, ?_, oc_refl _ _ _ _, fun h => absurd h hno⟩
      rw [decide_eq_false hno]; rfl

theorem drop_takeWhile (p : Byte → Bool) (t : List Byte) : t.drop (t.takeWhile p).length = t.dropWhile p := by
  induction t with
  | nil => rfl
  | cons c t ih =>
    by_cases h : p c
    · rw [List.takeWhile_cons_of_pos h, List.dropWhile_cons_of_pos h, List.length_cons, List.drop_succ_cons, ih]
    · rw [List.takeWhile_cons_of_neg h, List.dropWhile_cons_of_neg h]; rfl

theorem takeWhile_length_le (p : Byte → Bool) (t : List Byte) : (t.takeWhile p).length ≤ t.length :=
  (List.takeWhile_prefix p).length_le

/-- The whole function. -/
theorem findByKey_ok {m : Mem} {b o bk ok bv ov : Nat} {T k : List Byte} {size mv : SizeT} (hT : Reads m b o T)
    (hk : CStr (m.bytes bk) ok k) (hs : size.toNat = T.length) (hn : T.length < 2 ^ 32)
    (hq : T.length < 2 ^ 32 - 1 ∨ ∀ r, Spec.Json.afterKey k T = some r → 34#8 ∈ r) (hkl : k.length < 2 ^ 64)
    (hroom : ov + mv.toNat ≤ (m.bytes bv).length) (hd : bv ≠ b ∨ ov + mv.toNat ≤ o ∨ o + T.length ≤ ov) :
    ∃ r m', findByKey (ptr b o) size (ptr bk ok) (ptr bv ov) mv m = .ok r m' ∧
      OnlyChanged m m' bv ov mv.toNat ∧
      (r = true ↔ ∃ v, Spec.Json.lookup k T = some v ∧ v.length < mv.toNat) ∧
      (∀ v, r = true → Spec.Json.lookup k T = some v → ∀ x, x ≤ v.length →
        (m'.bytes bv)[ov + x]? = (v ++ [0#8])[x]?) := by
  unfold findByKey
  rw [C.bind_ok (strlen_ok hk)]
  have hmx : (if BitVec.ofNat 64 k.length < size then (size - BitVec.ofNat 64 k.length).setWidth 32 else 0#32).toNat =
      T.length - k.length := by
    have hc : BitVec.ofNat 64 k.length < size ↔ k.length < T.length := by rw [BitVec.lt_def, hs, ofNat64 hkl]
    by_cases h : k.length < T.length
    · rw [if_pos (hc.mpr h), BitVec.toNat_setWidth, BitVec.toNat_sub_of_le (by rw [BitVec.le_def, hs, ofNat64 hkl]; omega),
        hs, ofNat64 hkl]
      omega
    · rw [if_neg (fun h' => h (hc.mp h'))]
      simp; omega
  obtain ⟨j, a1, a2⟩ := search_ok hT (reads_cstr hk) hk.1 hn hmx (size.toNat + 1) 0 (by omega) (by omega)
  rw [List.drop_zero] at a1 a2
  simp only []
  rw [C.bind_ok a1]
  cases ha : Spec.Json.afterKey k T with
  | none =>
    refine ⟨false, m, rfl, oc_refl _ _ _ _, ?_, fun v h => by cases h⟩
    simp [Spec.Json.lookup, ha]
  | some r =>
    obtain ⟨hr, hj⟩ := a2 r ha
    have e1 : BitVec.ofNat 32 j + (BitVec.ofNat 64 k.length + 1#64).setWidth 32 = BitVec.ofNat 32 (j + k.length + 1) := by
      apply BitVec.eq_of_toNat_eq
      rw [BitVec.toNat_add, BitVec.toNat_setWidth, BitVec.toNat_add, ofNat32 (by omega), ofNat64 hkl, ofNat32 (by omega)]
      simp only [BitVec.toNat_ofNat]
      omega
    simp only [Option.isSome_some, if_true, e1]
    rw [C.bind_ok (skip_ok hT hn hs (size.toNat + 1) (j + k.length + 1) (by omega) (by omega)), ofNat32_succ, ← hr]
    have hrl : r.length = T.length - (j + k.length + 1) := by rw [hr, List.length_drop]
    have htl := takeWhile_length_le Spec.Json.notQuote r
    have hdrop : T.drop (j + k.length + 1 + (r.takeWhile Spec.Json.notQuote).length + 1) = (r.dropWhile Spec.Json.notQuote).drop 1 := by
      rw [← drop_takeWhile, List.drop_drop]
      conv => rhs; rw [hr, List.drop_drop]
      rw [← hr, Nat.add_assoc (j + k.length + 1)]
    have hlim : j + k.length + 1 + (r.takeWhile Spec.Json.notQuote).length + 1 < 2 ^ 32 := by
      rcases hq with h | h
      · omega
      · obtain ⟨u, t, e, hu⟩ := Spec.Json.split_first r (h r ha)
        rw [e, Spec.Json.takeWhile_append hu]
        rw [e, List.length_append, List.length_cons] at hrl
        omega
    obtain ⟨m', b1, b2, b3⟩ := copy_ok (b := b) (o := o) hn hs hd (size.toNat + 1)
      (j + k.length + 1 + (r.takeWhile Spec.Json.notQuote).length + 1) 0#64 m (by omega) (by omega) (by omega) hlim (by simp) hT hroom
    rw [hdrop] at b1 b3
    simp only [show (0#64).toNat = 0 from rfl, Nat.add_zero, Nat.sub_zero] at b1 b2 b3
    have hlk : ∀ v, Spec.Json.lookup k T = some v ↔ 34#8 ∈ (r.dropWhile Spec.Json.notQuote).drop 1 ∧
        v = ((r.dropWhile Spec.Json.notQuote).drop 1).takeWhile Spec.Json.notQuote := by
      intro v
      unfold Spec.Json.lookup
      rw [ha, Option.bind_some, Spec.Json.quoted]
      cases hdw : r.dropWhile Spec.Json.notQuote with
      | nil => simp
      | cons c t =>
        simp only [List.drop_succ_cons, List.drop_zero]
        by_cases hm : 34#8 ∈ t
        · simp [hm, eq_comm]
        · simp [hm]
    refine ⟨_, m', b1, b2, ?_, ?_⟩
    · rw [decide_eq_true_iff]
      constructor
      · rintro ⟨h, h'⟩
        exact ⟨_, (hlk _).mpr ⟨h, rfl⟩, h'⟩
      · rintro ⟨v, hv, hl⟩
        obtain ⟨h, e⟩ := (hlk v).mp hv
        subst e
        exact ⟨h, hl⟩
    · intro v h hv x hx
      obtain ⟨_, e⟩ := (hlk v).mp hv
      subst e
      exact b3 (decide_eq_true_iff.mp h) x hx

end IMU.Json
