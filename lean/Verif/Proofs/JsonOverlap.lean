import Verif.Proofs.JsonFind
import Verif.Proofs.JsonText
import Verif.Proofs.Overlap

/-! # `Json_findByKey` and `Json_addData` with arguments inside the buffer -/

namespace IMU.Json
open Spec
open Base64 (Reads)
open Utils (moved splice_map_get splice_append_set getD_some)

/-- The memory after the first `w` rounds of the third loop. -/
abbrev copied (m : Mem) (b ov s w : Nat) : Mem :=
  m.upd b (splice (m.bytes b) ov ((List.range w).map (moved (m.bytes b) ov s)))

theorem copied_load {m : Mem} {b ov s w j : Nat} (hj : w ≤ j) (hj' : j ≤ w + 1) (hv : ov + j ≤ (m.bytes b).length)
    (hs : s + w < (m.bytes b).length) :
    load (ptr b (s + w)) (copied m b ov s j) = .ok (moved (m.bytes b) ov s w) (copied m b ov s j) := by
  apply load_ok
  rw [Mem.upd_bytes, if_pos rfl, splice_map_get _ _ _ _ hv]
  by_cases h : ov ≤ s
  · by_cases h2 : s + w < ov + j
    · rw [if_pos (by omega)]
      congr 2; omega
    · rw [if_neg (by omega)]
      unfold moved
      rw [if_pos h]
      exact getD_some hs
  · by_cases h2 : ov ≤ s + w
    · rw [if_pos (by omega)]
      unfold moved
      rw [if_neg h, if_neg h]
      have : (s + w - ov) % (ov - s) = w % (ov - s) := by
        have e : w = s + w - ov + (ov - s) := by omega
        conv_rhs => rw [e]
        rw [Nat.add_mod_right]
      rw [this]
    · rw [if_neg (by omega)]
      unfold moved
      rw [if_neg h, Nat.mod_eq_of_lt (by omega)]
      exact getD_some hs

theorem copied_store {m : Mem} {b ov s w : Nat} (x : Byte) (hv : ov + w + 1 ≤ (m.bytes b).length) :
    store (ptr b (ov + w)) x (copied m b ov s w) =
      .ok () (m.upd b (splice (m.bytes b) ov ((List.range w).map (moved (m.bytes b) ov s) ++ [x]))) := by
  rw [store_ok (by rw [Mem.upd_bytes, if_pos rfl, splice_length _ _ _ (by simp; omega)]; omega), Mem.upd_upd,
    Mem.upd_bytes, if_pos rfl]
  congr 2
  rw [splice_append_set _ _ _ _ (by simp; omega)]
  simp

theorem copied_next (m : Mem) (b ov s w : Nat) :
    m.upd b (splice (m.bytes b) ov ((List.range w).map (moved (m.bytes b) ov s) ++ [moved (m.bytes b) ov s w])) =
      copied m b ov s (w + 1) := by
  simp [copied, List.range_succ]

section
variable {m : Mem} {b o ov i0 : Nat} {size mv : SizeT} (hn : size.toNat < 2 ^ 32 - 1)
  (hroom : o + size.toNat ≤ (m.bytes b).length) (hv : ov + mv.toNat ≤ (m.bytes b).length)
include hn hroom hv

theorem copy_round {fuel w : Nat} (h1 : i0 + w < size.toNat) (h2 : w < mv.toNat) :
    copy (ptr b o) size (ptr b ov) mv (fuel + 1) (BitVec.ofNat 32 (i0 + w)) (BitVec.ofNat 64 w) (copied m b ov (o + i0) w) =
      if moved (m.bytes b) ov (o + i0) w = 34#8 then
        .ok true (m.upd b (splice (m.bytes b) ov ((List.range w).map (moved (m.bytes b) ov (o + i0)) ++ [0#8])))
      else copy (ptr b o) size (ptr b ov) mv fuel (BitVec.ofNat 32 (i0 + (w + 1))) (BitVec.ofNat 64 (w + 1))
        (copied m b ov (o + i0) (w + 1)) := by
  have hmv := mv.isLt
  rw [copy, setWidth64 (by omega), if_pos (by
    rw [BitVec.lt_def, BitVec.lt_def, ofNat64 (by omega), ofNat64 (by omega)]; exact ⟨h1, h2⟩)]
  rw [ptr_addN, ptr_addN, ofNat32 (by omega), ofNat64 (by omega), show o + (i0 + w) = o + i0 + w by omega,
    C.bind_ok (copied_load (Nat.le_refl _) (by omega) (by omega) (by omega)), C.bind_ok (copied_store _ (by omega)),
    copied_next, C.bind_ok (copied_load (by omega) (Nat.le_refl _) (by omega) (by omega))]
  by_cases hq : moved (m.bytes b) ov (o + i0) w = 34#8
  · rw [if_pos (by simp [hq]), if_pos hq]
    rw [C.bind_ok (store_ok (by rw [Mem.upd_bytes, if_pos rfl, splice_length _ _ _ (by simp; omega)]; omega))]
    show Res.ok true _ = _
    congr 1
    rw [Mem.upd_upd, Mem.upd_bytes, if_pos rfl]
    congr 1
    apply List.ext_getElem?
    intro x
    rw [List.getElem?_set, splice_map_get _ _ _ _ (by omega), splice_length _ _ _ (by simp; omega),
      getElem?_splice _ _ _ (by simp; omega)]
    simp only [List.length_append, List.length_map, List.length_range, List.length_singleton]
    by_cases hx : ov + w = x
    · subst hx
      rw [if_pos rfl, if_pos (by omega), if_neg (by omega), if_pos (by omega)]
      rw [List.getElem?_append_right (by simp)]
      simp
    · rw [if_neg hx]
      by_cases h3 : x < ov
      · rw [if_neg (by omega), if_pos h3]
      · rw [if_neg h3]
        by_cases h4 : x < ov + w
        · rw [if_pos (by omega), if_pos (by omega), List.getElem?_append_left (by simp; omega)]
          simp [show x - ov < w by omega]
        · rw [if_neg (by omega), if_neg (by omega)]
  · rw [if_neg (by simpa using hq), if_neg hq, ofNat32_succ]
    congr 1
    simp [BitVec.ofNat_add]

/-- No quote comes along. -/
theorem copy_all {N : Nat} (hN : N = min (size.toNat - i0) mv.toNat)
    (hq : ∀ x < N, moved (m.bytes b) ov (o + i0) x ≠ 34#8) (hi : i0 ≤ size.toNat + 1) (fuel : Nat) :
    ∀ w, w ≤ N → N < fuel + w →
    copy (ptr b o) size (ptr b ov) mv fuel (BitVec.ofNat 32 (i0 + w)) (BitVec.ofNat 64 w) (copied m b ov (o + i0) w) =
      .ok false (copied m b ov (o + i0) N) := by
  induction fuel with
  | zero => intro w h1 h2; omega
  | succ fuel ih =>
    intro w h1 h2
    by_cases hw : w < N
    · rw [copy_round hn hroom hv (by omega) (by omega), if_neg (hq w hw)]
      exact ih (w + 1) (by omega) (by omega)
    · have : w = N := by omega
      subst this
      have hmv := mv.isLt
      rw [copy, setWidth64 (by omega), if_neg (by
        rw [BitVec.lt_def, BitVec.lt_def, ofNat64 (by omega), ofNat64 (by omega)]; omega)]
      rfl

/-- A quote comes along first in round `x`. -/
theorem copy_found {x : Nat} (h1 : i0 + x < size.toNat) (h2 : x < mv.toNat)
    (hx : moved (m.bytes b) ov (o + i0) x = 34#8) (hq : ∀ y < x, moved (m.bytes b) ov (o + i0) y ≠ 34#8) (fuel : Nat) :
    ∀ w, w ≤ x → x < fuel + w →
    copy (ptr b o) size (ptr b ov) mv fuel (BitVec.ofNat 32 (i0 + w)) (BitVec.ofNat 64 w) (copied m b ov (o + i0) w) =
      .ok true (m.upd b (splice (m.bytes b) ov ((List.range x).map (moved (m.bytes b) ov (o + i0)) ++ [0#8]))) := by
  induction fuel with
  | zero => intro w h1 h2; omega
  | succ fuel ih =>
    intro w h3 h4
    rw [copy_round hn hroom hv (by omega) (by omega)]
    by_cases hw : w = x
    · subst hw; rw [if_pos hx]
    · rw [if_neg (hq w (by omega))]
      exact ih (w + 1) (by omega) (by omega)

end

/-- Up to the third loop: the key is found and a quote opens the value at `i0`. -/
theorem findByKey_upto {m : Mem} {b o bk ok : Nat} {value : Ptr} {k pre mid u : List Byte} {size mv : SizeT}
    (hT : Reads m b o (pre ++ k ++ [34#8] ++ mid ++ [34#8] ++ u)) (hk : CStr (m.bytes bk) ok k)
    (hs : size.toNat = (pre ++ k ++ [34#8] ++ mid ++ [34#8] ++ u).length) (hn : size.toNat < 2 ^ 32 - 1)
    (hmid : 34#8 ∉ mid)
    (hfirst : ∀ p s, pre ++ k ++ [34#8] ++ mid ++ [34#8] ++ u = p ++ k ++ s → pre.length ≤ p.length) :
    findByKey (ptr b o) size (ptr bk ok) value mv m =
      copy (ptr b o) size value mv (size.toNat + 1) (BitVec.ofNat 32 (pre.length + k.length + mid.length + 2)) 0#64 m := by
  generalize hTe : pre ++ k ++ [34#8] ++ mid ++ [34#8] ++ u = T at *
  have hTl : T.length = pre.length + k.length + 1 + mid.length + 1 + u.length := by rw [← hTe]; simp; omega
  have hkl : k.length < 2 ^ 64 := by omega
  unfold findByKey
  rw [C.bind_ok (strlen_ok hk)]
  have hmx : (if BitVec.ofNat 64 k.length < size then (size - BitVec.ofNat 64 k.length).setWidth 32 else 0#32).toNat =
      T.length - k.length := by
    have hc : BitVec.ofNat 64 k.length < size ↔ k.length < T.length := by rw [BitVec.lt_def, hs, ofNat64 hkl]
    rw [if_pos (hc.mpr (by omega)), BitVec.toNat_setWidth,
      BitVec.toNat_sub_of_le (by rw [BitVec.le_def, hs, ofNat64 hkl]; omega), hs, ofNat64 hkl]
    omega
  obtain ⟨j, a1, a2⟩ := search_ok hT (reads_cstr hk) hk.1 (by omega) hmx (size.toNat + 1) 0 (by omega) (by omega)
  rw [List.drop_zero] at a1 a2
  simp only []
  rw [C.bind_ok a1]
  have ha : Spec.Json.afterKey k T = some (mid ++ [34#8] ++ u) :=
    (Spec.Json.afterKey_iff k T _).mpr ⟨pre, by rw [← hTe]; simp, hfirst⟩
  obtain ⟨hr, hj⟩ := a2 _ ha
  have hjp : j = pre.length := by
    have := congrArg List.length hr
    simp at this
    omega
  subst hjp
  have e1 : BitVec.ofNat 32 pre.length + (BitVec.ofNat 64 k.length + 1#64).setWidth 32 =
      BitVec.ofNat 32 (pre.length + k.length + 1) := by
    apply BitVec.eq_of_toNat_eq
    rw [BitVec.toNat_add, BitVec.toNat_setWidth, BitVec.toNat_add, ofNat32 (by omega), ofNat64 hkl, ofNat32 (by omega)]
    simp only [BitVec.toNat_ofNat]
    omega
  simp only [ha, Option.isSome_some, if_true, e1]
  have hm : ((mid ++ [34#8] ++ u).takeWhile Spec.Json.notQuote).length = mid.length := by
    rw [show mid ++ [34#8] ++ u = mid ++ 34#8 :: u by simp, Spec.Json.takeWhile_append hmid]
  rw [C.bind_ok (skip_ok hT (by omega) hs (size.toNat + 1) (pre.length + k.length + 1) (by omega) (by omega)), ofNat32_succ,
    ← hr, hm, show pre.length + k.length + 1 + mid.length + 1 = pre.length + k.length + mid.length + 2 by omega]

/-- Nothing is found, and the output is in the object of the buffer. -/
theorem find_none {b o bk ok ov : Nat} {size mv : SizeT} {k : List Byte} {m : Mem}
    (hroom : o + size.toNat ≤ (m.bytes b).length) (hk : CStr (m.bytes bk) ok k) (hn : size.toNat < 2 ^ 32 - 1)
    (hkl : k.length < 2 ^ 64) (hvr : ov + mv.toNat ≤ (m.bytes b).length)
    (h : Spec.Json.lookup k (slice (m.bytes b) o size.toNat) = none) :
    ∃ m', findByKey (ptr b o) size (ptr bk ok) (ptr b ov) mv m = .ok false m' ∧ OnlyChanged m m' b ov mv.toNat := by
  have hl : (slice (m.bytes b) o size.toNat).length = size.toNat := by simp [slice]; omega
  have hget : ∀ x, x < size.toNat → (m.bytes b)[o + x]? = (slice (m.bytes b) o size.toNat)[x]? := by
    intro x hx; rw [getElem?_slice, if_pos hx]
  have hT : Reads m b o (slice (m.bytes b) o size.toNat) := fun i hi => hget i (by omega)
  generalize slice (m.bytes b) o size.toNat = T at *
  have hs : size.toNat = T.length := hl.symm
  unfold findByKey
  rw [C.bind_ok (strlen_ok hk)]
  have hmx : (if BitVec.ofNat 64 k.length < size then (size - BitVec.ofNat 64 k.length).setWidth 32 else 0#32).toNat =
      T.length - k.length := by
    have hc : BitVec.ofNat 64 k.length < size ↔ k.length < T.length := by rw [BitVec.lt_def, hs, ofNat64 hkl]
    by_cases h : k.length < T.length
    · rw [if_pos (hc.mpr h), BitVec.toNat_setWidth, BitVec.toNat_sub_of_le (by rw [BitVec.le_def, hs, ofNat64 hkl]; omega),
        hs, ofNat64 hkl]
      omega
    · rw [if_neg (fun h' => h (hc.mp h'))]
      simp; omega
  obtain ⟨j, a1, a2⟩ := search_ok hT (reads_cstr hk) hk.1 (by omega) hmx (size.toNat + 1) 0 (by omega) (by omega)
  rw [List.drop_zero] at a1 a2
  simp only []
  rw [C.bind_ok a1]
  cases ha : Spec.Json.afterKey k T with
  | none => exact ⟨m, rfl, oc_refl _ _ _ _⟩
  | some r =>
    obtain ⟨hr, hj⟩ := a2 r ha
    have e1 : BitVec.ofNat 32 j + (BitVec.ofNat 64 k.length + 1#64).setWidth 32 = BitVec.ofNat 32 (j + k.length + 1) := by
      apply BitVec.eq_of_toNat_eq
      rw [BitVec.toNat_add, BitVec.toNat_setWidth, BitVec.toNat_add, ofNat32 (by omega), ofNat64 hkl, ofNat32 (by omega)]
      simp only [BitVec.toNat_ofNat]
      omega
    simp only [Option.isSome_some, if_true, e1]
    rw [C.bind_ok (skip_ok hT (by omega) hs (size.toNat + 1) (j + k.length + 1) (by omega) (by omega)), ofNat32_succ, ← hr]
    have hrl : r.length = T.length - (j + k.length + 1) := by rw [hr, List.length_drop]
    have htl := takeWhile_length_le Spec.Json.notQuote r
    have hdrop : T.drop (j + k.length + 1 + (r.takeWhile Spec.Json.notQuote).length + 1) = (r.dropWhile Spec.Json.notQuote).drop 1 := by
      rw [← drop_takeWhile, List.drop_drop]
      conv => rhs; rw [hr, List.drop_drop]
      rw [← hr, Nat.add_assoc (j + k.length + 1)]
    have hno : 34#8 ∉ (r.dropWhile Spec.Json.notQuote).drop 1 := by
      unfold Spec.Json.lookup at h
      rw [ha, Option.bind_some, Spec.Json.quoted] at h
      cases hdw : r.dropWhile Spec.Json.notQuote with
      | nil => simp
      | cons c t =>
        rw [hdw] at h
        simp only [List.drop_succ_cons, List.drop_zero]
        intro hm
        simp [hm] at h
    rw [← hdrop] at hno
    have hi : j + k.length + 1 + (r.takeWhile Spec.Json.notQuote).length + 1 ≤ size.toNat + 1 := by omega
    generalize j + k.length + 1 + (r.takeWhile Spec.Json.notQuote).length + 1 = i0 at *
    have hm0 : copied m b ov (o + i0) 0 = m := by simp [copied, splice_nil]
    have hrun := copy_all (m := m) (b := b) (o := o) (ov := ov) (i0 := i0) (mv := mv) hn hroom hvr
      (N := min (size.toNat - i0) mv.toNat) rfl
      (fun x hx e => by
        have hy : ∃ y, y ≤ x ∧ some (moved (m.bytes b) ov (o + i0) x) = (m.bytes b)[o + (i0 + y)]? := by
          unfold moved
          by_cases hc : ov ≤ o + i0
          · refine ⟨x, Nat.le_refl _, ?_⟩
            rw [if_pos hc, Nat.add_assoc]
            exact (getD_some (by omega)).symm
          · have := Nat.mod_le x (ov - (o + i0))
            refine ⟨_, this, ?_⟩
            rw [if_neg hc, Nat.add_assoc]
            exact (getD_some (by omega)).symm
        obtain ⟨y, hy1, hy2⟩ := hy
        rw [e, hget _ (by omega), ← List.getElem?_drop] at hy2
        exact hno (List.mem_of_getElem? hy2.symm))
      hi (size.toNat + 1) 0 (by omega) (by omega)
    rw [hm0, Nat.add_zero] at hrun
    refine ⟨_, hrun, ?_⟩
    have := onlyChanged_splice m b ov ((List.range (min (size.toNat - i0) mv.toNat)).map (moved (m.bytes b) ov (o + i0)))
      (by simp; omega)
    exact oc_mono this (Nat.le_refl _) (by simp)

/-! ### `Json_addData` -/

/-- The comma. -/
theorem addComma_ok {m : Mem} {b o n : Nat} {t : List Byte} (ht : CStr (m.bytes b) o t) (hn : t ≠ [])
    (hsmall : t.length < 2 ^ 64) (hfit : t.length + (Spec.Json.sep t).length < n) (hroom : o + n ≤ (m.bytes b).length) :
    ∃ m', addComma (ptr b o) (BitVec.ofNat 64 t.length) m = .ok (BitVec.ofNat 64 (t ++ Spec.Json.sep t).length) m' ∧
      CStr (m'.bytes b) o (t ++ Spec.Json.sep t) ∧ OnlyChanged m m' b (o + t.length) (n - t.length) := by
  by_cases hl : t.getLast? = some 34#8
  · have hs : Spec.Json.sep t = [44#8] := by simp [Spec.Json.sep, hl]
    rw [hs] at hfit ⊢
    simp only [List.length_cons, List.length_nil] at hfit
    obtain ⟨m1, a1, a2, a3⟩ := strcpyLit_ok (s := [44#8]) ht (by decide) (by simp; omega)
    refine ⟨m1, ?_, a2, oc_mono a3 (by omega) (by simp; omega)⟩
    rw [addComma_quote ht (by omega) hl, C.bind_ok a1]
    simp [BitVec.ofNat_add]
  · have hs : Spec.Json.sep t = [] := by simp [Spec.Json.sep, hl]
    rw [hs]
    refine ⟨m, ?_, by simpa using ht, oc_refl _ _ _ _⟩
    rw [addComma_none ht hn (by omega) hl]
    simp

theorem member_length (k v : List Byte) : (Spec.Json.member k v).length = k.length + v.length + 5 := by
  simp only [Spec.Json.member, Spec.Json.str, List.length_append, List.length_cons, List.length_nil]; omega

theorem total_toNat {n k v : Nat} (h : n + k + v + 6 < 2 ^ 64) :
    (5#64 + BitVec.ofNat 64 k + BitVec.ofNat 64 v + 1#64 + BitVec.ofNat 64 n).toNat = n + (k + v + 5) + 1 := by
  have e1 : 5#64 + BitVec.ofNat 64 k + BitVec.ofNat 64 v + 1#64 + BitVec.ofNat 64 n =
      BitVec.ofNat 64 (5 + k + v + 1 + n) := by simp only [BitVec.ofNat_add]
  rw [e1, ofNat64 (by omega)]
  omega

/-- `addData` up to `addMember`; key and value anywhere. -/
theorem addData_upto {m : Mem} {b o bk ok bv ov : Nat} {size : SizeT} {t k v : List Byte} (ht : CStr (m.bytes b) o t)
    (hk : CStr (m.bytes bk) ok k) (hv : CStr (m.bytes bv) ov v) (hn : t ≠ [])
    (hsmall : t.length + k.length + v.length + 7 < 2 ^ 64) (hfit : t.length + (Spec.Json.sep t).length < size.toNat)
    (hroom : o + size.toNat ≤ (m.bytes b).length) :
    ∃ m', CStr (m'.bytes b) o (t ++ Spec.Json.sep t) ∧ OnlyChanged m m' b (o + t.length) (size.toNat - t.length) ∧
      addData (ptr b o) size (ptr bk ok) (ptr bv ov) m =
        if (t ++ Spec.Json.sep t ++ Spec.Json.member k v).length + 1 ≤ size.toNat then
          (addMember (ptr b o) (BitVec.ofNat 64 (t ++ Spec.Json.sep t).length) (ptr bk ok) (ptr bv ov) >>=
            fun _ => pure true) m'
        else .ok false m' := by
  obtain ⟨m1, a1, a2, a3⟩ := addComma_ok (n := size.toNat) ht hn (by omega) hfit hroom
  have hsl : (Spec.Json.sep t).length ≤ 1 := by unfold Spec.Json.sep; split <;> simp
  have htl : (t ++ Spec.Json.sep t).length = t.length + (Spec.Json.sep t).length := by simp
  refine ⟨m1, a2, a3, ?_⟩
  unfold addData
  rw [C.bind_ok (strlen_ok ht), C.bind_ok (strlen_ok hk), C.bind_ok (strlen_ok hv), C.bind_ok a1]
  have hck := total_toNat (n := (t ++ Spec.Json.sep t).length) (k := k.length) (v := v.length) (by omega)
  rw [← member_length, ← List.length_append] at hck
  by_cases hf : (t ++ Spec.Json.sep t ++ Spec.Json.member k v).length + 1 ≤ size.toNat
  · rw [if_pos hf]
    rw [if_pos (by rw [BitVec.le_def, hck]; exact hf)]
  · rw [if_neg hf]
    rw [if_neg (by rw [BitVec.le_def, hck]; exact hf)]
    rfl

/-- The string that begins inside another one. -/
theorem cstr_drop {l : List Byte} {o : Nat} {t : List Byte} (h : CStr l o t) {j : Nat} (hj : j ≤ t.length) :
    CStr l (o + j) (t.drop j) := by
  obtain ⟨h0, r, h⟩ := h
  refine ⟨fun h => h0 (List.mem_of_mem_drop h), r, ?_⟩
  rw [← List.drop_drop, h, List.drop_append_of_le_length hj]

/-- Copying the end of a string behind its own NUL. -/
theorem strcpy_own_tail {m : Mem} {b o : Nat} {t : List Byte} (h : CStr (m.bytes b) o t) {j : Nat} (hj : j ≤ t.length) :
    strcpy (ptr b (o + t.length)) (ptr b (o + j)) m = .ub .overlap := by
  unfold strcpy
  rw [C.bind_ok (strlen_ok (cstr_drop h hj)), List.length_drop]
  have hov : overlaps (ptr b (o + t.length)) (ptr b (o + j)) (t.length - j + 1) = true := by
    unfold overlaps ptr; simp; omega
  unfold memcpy
  rw [if_pos hov]
  rfl

theorem addMember_own_key {m : Mem} {b o j : Nat} {t : List Byte} {value : Ptr} (ht : CStr (m.bytes b) o t)
    (hj : j ≤ t.length) (hroom : o + t.length + 2 ≤ (m.bytes b).length) (hsmall : t.length + 1 < 2 ^ 64) :
    addMember (ptr b o) (BitVec.ofNat 64 t.length) (ptr b (o + j)) value m = .ub .overlap := by
  obtain ⟨m1, a1, a2, a3⟩ := strcpyLit_ok (s := [34#8]) ht (by decide) (by simp; omega)
  have i1 : BitVec.ofNat 64 t.length + 1#64 = BitVec.ofNat 64 (t.length + 1) := by simp [BitVec.ofNat_add]
  unfold addMember
  simp only [ptr_addN, i1]
  rw [ofNat64 (by omega), C.bind_ok a1, ofNat64 (by omega)]
  have := strcpy_own_tail a2 (j := j) (by simp; omega)
  rw [List.length_append, List.length_singleton] at this
  rw [C.bind_ub this]

theorem addMember_own_value {m : Mem} {b o bk ok j : Nat} {t k : List Byte} (ht : CStr (m.bytes b) o t)
    (hk : CStr (m.bytes bk) ok k) (hj : j ≤ t.length) (hroom : o + t.length + k.length + 5 ≤ (m.bytes b).length)
    (hka : bk ≠ b ∨ ok + k.length + 1 ≤ o ∨ o + t.length + k.length + 5 ≤ ok) (hsmall : t.length + k.length + 4 < 2 ^ 64) :
    addMember (ptr b o) (BitVec.ofNat 64 t.length) (ptr bk ok) (ptr b (o + j)) m = .ub .overlap := by
  have i1 : BitVec.ofNat 64 t.length + 1#64 = BitVec.ofNat 64 (t.length + 1) := by simp [BitVec.ofNat_add]
  have i2 : BitVec.ofNat 64 (t.length + 1) + BitVec.ofNat 64 k.length = BitVec.ofNat 64 (t.length + 1 + k.length) := by
    simp [BitVec.ofNat_add]
  have i3 : BitVec.ofNat 64 (t.length + 1 + k.length) + 3#64 = BitVec.ofNat 64 (t.length + 1 + k.length + 3) := by
    simp [BitVec.ofNat_add]
  obtain ⟨m1, a1, a2, a3⟩ := strcpyLit_ok (s := [34#8]) ht (by decide) (by simp; omega)
  have hk1 := cstr_frame hk a3 (by simp; omega)
  obtain ⟨m2, b1, b2, b3⟩ := strcpy_ok a2 hk1 (by rw [oc_length a3]; simp; omega) (by simp; omega)
  have hk2 := cstr_frame hk1 b3 (by simp; omega)
  obtain ⟨m3, c1, c2, c3⟩ := strcpyLit_ok (s := [34#8, 58#8, 34#8]) b2 (by decide)
    (by rw [oc_length b3, oc_length a3]; simp; omega)
  have d := strcpy_own_tail c2 (j := j) (by simp; omega)
  unfold addMember
  simp only [ptr_addN, i1]
  rw [ofNat64 (by omega), C.bind_ok a1, ofNat64 (by omega)]
  simp only [List.length_append, List.length_cons, List.length_nil] at b1 c1 d
  rw [show o + (t.length + 1) = o + (t.length + (0 + 1)) by omega, C.bind_ok b1, C.bind_ok (strlen_ok hk2)]
  simp only [i2]
  rw [ofNat64 (by omega), show o + (t.length + 1 + k.length) = o + (t.length + (0 + 1) + k.length) by omega,
    C.bind_ok c1]
  simp only [i3]
  rw [ofNat64 (by omega), show o + (t.length + 1 + k.length + 3) = o + (t.length + (0 + 1) + k.length + (0 + 1 + 1 + 1))
    by omega, C.bind_ub d]

end IMU.Json
