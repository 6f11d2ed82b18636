import Verif.Proofs.Serialize
import Mathlib.Tactic.SplitIfs

namespace IMU.Utils
open Spec

theorem splice_append_set {α} (l : List α) (o : Nat) (s : List α) (a : α)
    (h : o + s.length + 1 ≤ l.length) :
    splice l o (s ++ [a]) = (splice l o s).set (o + s.length) a := by
  apply List.ext_getElem?; intro k
  rw [getElem?_splice _ _ _ (by simp; omega), List.getElem?_set,
    getElem?_splice _ _ _ (by omega), splice_length _ _ _ (by omega)]
  simp only [List.length_append, List.length_singleton]
  by_cases h1 : k < o
  · simp [h1, show ¬ o + s.length = k by omega]
  · simp only [h1, if_false]
    by_cases h2 : o + s.length = k
    · subst h2
      rw [if_pos (by omega), List.getElem?_append_right (by omega)]
      simp; omega
    · simp only [h2, if_false]
      by_cases h3 : k < o + s.length
      · rw [if_pos (by omega), if_pos h3, List.getElem?_append_left (by omega)]
      · rw [if_neg (by omega), if_neg h3]

/-- A loop copying byte `srcOff j` of object `bs` to byte `od + j` of object `bd`. -/
theorem copy_loop (n bd od bs : Nat) (srcOff : Nat → Nat) (m : Mem)
    (hd : od + n ≤ (m.bytes bd).length) (hs : ∀ j < n, srcOff j < (m.bytes bs).length)
    (hno : bd ≠ bs ∨ ∀ j < n, srcOff j < od ∨ od + n ≤ srcOff j)
    (body : Nat → Unit → C Unit)
    (hbody : ∀ j < n, ∀ m', body j () m' =
      (do let v ← load (ptr bs (srcOff j)); store (ptr bd (od+j)) v : C Unit) m') :
    forN n 0 body () m = .ok () (m.upd bd (splice (m.bytes bd) od
      ((List.range n).map fun j => (m.bytes bs).getD (srcOff j) 0))) := by
  have key := forN_inv (fun k (_ : Unit) mk => mk = m.upd bd (splice (m.bytes bd) od
      ((List.range k).map fun j => (m.bytes bs).getD (srcOff j) 0))) n 0 body () m
      (by simp [splice_nil]) ?_
  · obtain ⟨s', m', h1, h2⟩ := key
    rw [h1, h2, Nat.zero_add]
  · intro k s mk _ hk hI
    subst hI
    rw [Nat.zero_add] at hk
    have hlen : (splice (m.bytes bd) od
      ((List.range k).map fun j => (m.bytes bs).getD (srcOff j) 0)).length = (m.bytes bd).length :=
        splice_length _ _ _ (by simp; omega)
    refine ⟨(), _, ?_, rfl⟩
    rw [hbody k hk]
    have hload : load (ptr bs (srcOff k)) (m.upd bd (splice (m.bytes bd) od
      ((List.range k).map fun j => (m.bytes bs).getD (srcOff j) 0))) =
        .ok ((m.bytes bs).getD (srcOff k) 0) (m.upd bd (splice (m.bytes bd) od
      ((List.range k).map fun j => (m.bytes bs).getD (srcOff j) 0))) := by
      apply load_ok
      have hv : (m.bytes bs)[srcOff k]? = some ((m.bytes bs).getD (srcOff k) 0) := by
        have := hs k hk; simp [List.getD, this]
      rw [← hv, Mem.upd_bytes]
      split
      · rename_i hb
        subst hb
        rw [getElem?_splice _ _ _ (by simp; omega)]
        rcases hno with h | h
        · exact absurd rfl h
        · have h3 := h k hk
          split
          · rfl
          · rw [if_neg (by simp; omega)]
      · rfl
    rw [C.bind_run, hload]
    simp only
    rw [store_ok (by rw [Mem.upd_bytes, if_pos rfl, hlen]; omega)]
    simp only [Mem.upd_bytes, if_true, Mem.upd_upd]
    rw [List.range_succ, List.map_append, List.map_singleton,
      splice_append_set _ _ _ _ (by simp; omega)]
    simp

theorem range_map_getD (l : List Byte) (o n : Nat) (h : o + n ≤ l.length) :
    ((List.range n).map fun j => l.getD (o + j) 0) = slice l o n := by
  apply List.ext_getElem?; intro k
  rw [getElem?_slice, List.getElem?_map]
  by_cases hk : k < n
  · simp [hk, show o + k < l.length by omega]
  · simp [hk, List.getElem?_eq_none]

theorem range_map_getD_rev (l : List Byte) (o n : Nat) (h : o + n ≤ l.length) :
    ((List.range n).map fun j => l.getD (o + (n - 1 - j)) 0) = (slice l o n).reverse := by
  apply List.ext_getElem?; intro k
  rw [List.getElem?_map]
  by_cases hk : k < n
  · rw [List.getElem?_reverse (by rw [slice_length _ _ _ h]; exact hk), slice_length _ _ _ h,
      getElem?_slice, if_pos (by omega)]
    simp [hk, show o + (n - 1 - k) < l.length by omega]
  · rw [List.getElem?_eq_none (by simp; omega), List.getElem?_eq_none]
    · simp
    · rw [List.length_reverse, slice_length _ _ _ h]; omega

theorem serializeBlobBE_eq (bd od bs os : Nat) (size : U32) (m : Mem)
    (hd : od + size.toNat ≤ (m.bytes bd).length) (hs : os + size.toNat ≤ (m.bytes bs).length)
    (hno : bd ≠ bs ∨ od + size.toNat ≤ os ∨ os + size.toNat ≤ od) :
    serializeBlobBE (ptr bd od) (ptr bs os) size m =
      .ok () (m.upd bd (splice (m.bytes bd) od (slice (m.bytes bs) os size.toNat))) := by
  unfold serializeBlobBE
  rw [copy_loop size.toNat bd od bs (fun j => os + j) m hd (by omega) (by
    rcases hno with h | h
    · exact .inl h
    · right; intro j hj; omega), range_map_getD _ _ _ hs]
  intro j _ m'
  simp

theorem deserializeBlobBE_eq (bd od bs os : Nat) (size : U32) (m : Mem)
    (hd : od + size.toNat ≤ (m.bytes bd).length) (hs : os + size.toNat ≤ (m.bytes bs).length)
    (hno : bd ≠ bs ∨ od + size.toNat ≤ os ∨ os + size.toNat ≤ od) :
    deserializeBlobBE (ptr bs os) (ptr bd od) size m =
      .ok () (m.upd bd (splice (m.bytes bd) od (slice (m.bytes bs) os size.toNat))) :=
  serializeBlobBE_eq bd od bs os size m hd hs hno

theorem serializeBlobLE_eq (bd od bs os : Nat) (size : U32) (m : Mem) (hsz : size.toNat < 2^31)
    (hd : od + size.toNat ≤ (m.bytes bd).length) (hs : os + size.toNat ≤ (m.bytes bs).length)
    (hno : bd ≠ bs ∨ od + size.toNat ≤ os ∨ os + size.toNat ≤ od) :
    serializeBlobLE (ptr bd od) (ptr bs os) size m =
      .ok () (m.upd bd (splice (m.bytes bd) od (slice (m.bytes bs) os size.toNat).reverse)) := by
  have hti : size.toInt = size.toNat := by
    rw [BitVec.toInt_eq_toNat_cond, if_pos (by omega)]
  unfold serializeBlobLE
  rw [hti, C.bind_run, i32, if_pos (by omega)]
  simp only [C.pure_run]
  rw [show ((size.toNat : Int) - 1 + 1).toNat = size.toNat by omega]
  rw [copy_loop size.toNat bd od bs (fun j => os + (size.toNat - 1 - j)) m hd (by intro j hj; omega) (by
    rcases hno with h | h
    · exact .inl h
    · right; intro j hj; omega), range_map_getD_rev _ _ _ hs]
  intro j hj m'
  have : (ptr bs os).addZ ((size.toNat : Int) - 1 - j) = ptr bs (os + (size.toNat - 1 - j)) := by
    simp only [Ptr.addZ, Ptr.mk.injEq, true_and]; omega
  simp only [this, ptr_addN]

theorem deserializeBlobLE_eq (bd od bs os : Nat) (size : U32) (m : Mem) (hsz : size.toNat < 2^31)
    (hd : od + size.toNat ≤ (m.bytes bd).length) (hs : os + size.toNat ≤ (m.bytes bs).length)
    (hno : bd ≠ bs ∨ od + size.toNat ≤ os ∨ os + size.toNat ≤ od) :
    deserializeBlobLE (ptr bs os) (ptr bd od) size m =
      .ok () (m.upd bd (splice (m.bytes bd) od (slice (m.bytes bs) os size.toNat).reverse)) :=
  serializeBlobLE_eq bd od bs os size m hsz hd hs hno

theorem serializeBlobLE_big (p q : Ptr) (size : U32) (m : Mem) (hsz : 2^31 < size.toNat) :
    serializeBlobLE p q size m = .ok () m := by
  have hlt := size.isLt
  have hti : size.toInt = size.toNat - 2^32 := by
    rw [BitVec.toInt_eq_toNat_cond, if_neg (by omega)]; rfl
  unfold serializeBlobLE
  rw [hti, C.bind_run, i32, if_pos (by omega)]
  simp only [C.pure_run]
  have h0 : ((size.toNat : Int) - 2^32 - 1 + 1).toNat = 0 := by omega
  rw [h0]
  rfl

theorem serializeBlobLE_edge (p q : Ptr) (size : U32) (m : Mem) (hsz : size.toNat = 2^31) :
    serializeBlobLE p q size m = .ub .signedOverflow := by
  have hti : size.toInt = size.toNat - 2^32 := by
    rw [BitVec.toInt_eq_toNat_cond, if_neg (by omega)]; rfl
  unfold serializeBlobLE
  rw [hti, C.bind_run, i32, if_neg (by omega)]
  rfl

/-! ### swap -/

/-- Contents of byte `i` of object `x` after exchanging the ranges (`b1`,`o1`) and (`b2`,`o2`) from
their `k`-th to their `n`-th byte. -/
def swapped (m : Mem) (b1 o1 b2 o2 k n x i : Nat) : Option Byte :=
  if x = b1 ∧ o1 + k ≤ i ∧ i < o1 + n then (m.bytes b2)[i - o1 + o2]?
  else if x = b2 ∧ o2 + k ≤ i ∧ i < o2 + n then (m.bytes b1)[i - o2 + o1]?
  else (m.bytes x)[i]?

theorem swapElements_spec (b1 o1 b2 o2 : Nat) (size : U32) (m : Mem)
    (h1 : o1 + size.toNat ≤ (m.bytes b1).length) (h2 : o2 + size.toNat ≤ (m.bytes b2).length)
    (hno : b1 ≠ b2 ∨ o1 + size.toNat ≤ o2 ∨ o2 + size.toNat ≤ o1 ∨ o1 = o2) :
    ∃ m', swapElements (ptr b1 o1) (ptr b2 o2) size m = .ok () m' ∧ m'.words = m.words ∧
      ∀ x i, (m'.bytes x)[i]? = swapped m b1 o1 b2 o2 0 size.toNat x i := by
  generalize hn : size.toNat = n at *
  have key := forDown_inv (fun k (_ : Unit) mk => k ≤ n ∧ mk.words = m.words ∧
      (∀ x, (mk.bytes x).length = (m.bytes x).length) ∧
      ∀ x i, (mk.bytes x)[i]? = swapped m b1 o1 b2 o2 k n x i) n
    (fun index _ => do
      let temp ← load ((ptr b1 o1).addN index)
      let s ← load ((ptr b2 o2).addN index)
      store ((ptr b1 o1).addN index) s
      store ((ptr b2 o2).addN index) temp) () m ?_ ?_
  · obtain ⟨s', m', h3, h4⟩ := key
    refine ⟨m', ?_, h4.2.1, h4.2.2.2⟩
    unfold swapElements; rw [hn]; exact h3
  · refine ⟨Nat.le_refl _, rfl, fun _ => rfl, ?_⟩
    intro x i
    unfold swapped
    rw [if_neg (by omega), if_neg (by omega)]
  · rintro k ⟨⟩ mk hk ⟨_, hw, hlen, hI⟩
    have e1 : (mk.bytes b1)[o1+k]? = (m.bytes b1)[o1+k]? := by
      rw [hI]; unfold swapped; rw [if_neg (by omega), if_neg (by omega)]
    have e2 : (mk.bytes b2)[o2+k]? = (m.bytes b2)[o2+k]? := by
      rw [hI]; unfold swapped; rw [if_neg (by omega), if_neg (by omega)]
    have l1 : o1 + k < (mk.bytes b1).length := by rw [hlen]; omega
    have l2 : o2 + k < (mk.bytes b2).length := by rw [hlen]; omega
    obtain ⟨v1, hv1⟩ : ∃ v, (m.bytes b1)[o1+k]? = some v :=
      ⟨(m.bytes b1)[o1+k]'(by omega), by simp [show o1 + k < (m.bytes b1).length by omega]⟩
    obtain ⟨v2, hv2⟩ : ∃ v, (m.bytes b2)[o2+k]? = some v :=
      ⟨(m.bytes b2)[o2+k]'(by omega), by simp [show o2 + k < (m.bytes b2).length by omega]⟩
    refine ⟨(), (mk.upd b1 ((mk.bytes b1).set (o1+k) v2)).upd b2
      (((mk.upd b1 ((mk.bytes b1).set (o1+k) v2)).bytes b2).set (o2+k) v1), ?_, ?_⟩
    · simp only [C.bind_run, ptr_addN]
      rw [load_ok (e1.trans hv1)]; simp only
      rw [load_ok (e2.trans hv2)]; simp only
      rw [store_ok l1]; simp only
      rw [store_ok (by rw [Mem.upd_bytes]; split
                       · rename_i h; subst h; simpa using l2
                       · exact l2)]
    · refine ⟨by omega, by simpa using hw, ?_, ?_⟩
      · intro x
        simp only [Mem.upd_bytes]
        split
        · rename_i h; subst h
          rw [List.length_set]; split
          · rename_i h; subst h; simpa using hlen _
          · exact hlen _
        · split
          · rename_i h; subst h; simpa using hlen _
          · exact hlen _
      · intro x i
        have hIx := hI x i
        have hl1 := hlen b1
        have hl2 := hlen b2
        simp only [Mem.upd_bytes]
        by_cases hx2 : x = b2
        · subst hx2
          simp only [if_true, List.getElem?_set]
          by_cases hi2 : o2 + k = i
          · subst hi2
            rw [if_pos rfl, if_pos (by split
                                       · rename_i h; subst h; simpa using l2
                                       · exact l2)]
            unfold swapped
            by_cases hb : x = b1
            · subst hb
              by_cases ho : o1 = o2
              · subst ho
                rw [if_pos (by omega), ← hv1]; congr 1; omega
              · rw [if_neg (by omega), if_pos (by omega), ← hv1]; congr 1; omega
            · rw [if_neg (by omega), if_pos (by omega), ← hv1]; congr 1; omega
          · rw [if_neg hi2]
            by_cases hb : x = b1
            · subst hb
              simp only [if_true, List.getElem?_set]
              by_cases hi1 : o1 + k = i
              · subst hi1
                rw [if_pos rfl, if_pos l1]
                unfold swapped
                rw [if_pos (by omega), ← hv2]; congr 1; omega
              · rw [if_neg hi1, hIx]
                unfold swapped
                split_ifs <;> first | rfl | (exfalso; omega)
            · rw [if_neg hb, hIx]
              unfold swapped
              split_ifs <;> first | rfl | (exfalso; omega)
        · rw [if_neg hx2]
          by_cases hb : x = b1
          · subst hb
            simp only [if_true, List.getElem?_set]
            by_cases hi1 : o1 + k = i
            · subst hi1
              rw [if_pos rfl, if_pos l1]
              unfold swapped
              rw [if_pos (by omega), ← hv2]; congr 1; omega
            · rw [if_neg hi1, hIx]
              unfold swapped
              split_ifs <;> first | rfl | (exfalso; omega)
          · rw [if_neg hb, hIx]
            unfold swapped
            rw [if_neg (by omega), if_neg (by omega), if_neg (by omega), if_neg (by omega)]

end IMU.Utils
