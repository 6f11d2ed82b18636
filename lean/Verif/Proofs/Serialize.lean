import Verif.Proofs.Utils

namespace IMU.Utils
open Spec

theorem splice_cons {α} (l : List α) (o : Nat) (a : α) (s : List α) (h : o + s.length + 1 ≤ l.length) :
    splice l o (a :: s) = splice (l.set o a) (o+1) s := by
  apply List.ext_getElem?; intro k
  rw [getElem?_splice _ _ _ (by simp; omega), getElem?_splice _ _ _ (by simp; omega)]
  simp only [List.length_cons, List.getElem?_set]
  by_cases h1 : k < o
  · simp [h1, show k < o + 1 by omega, show o ≠ k by omega]
  · by_cases h2 : k = o
    · subst h2; simp; omega
    · have h3 : ¬ k < o + 1 := by omega
      have h5 : k - o = (k - (o+1)) + 1 := by omega
      simp only [h1, h3, if_false, show o ≠ k by omega]
      rw [h5, List.getElem?_cons_succ]
      by_cases h6 : k < o + (s.length + 1)
      · rw [if_pos h6, if_pos (by omega)]
      · rw [if_neg h6, if_neg (by omega)]

theorem serialize8_eq (b o : Nat) (v : Byte) (m : Mem) :
    serialize8 (ptr b o) v m =
      if o + 1 ≤ (m.bytes b).length then .ok () (m.upd b (splice (m.bytes b) o [v])) else .ub .oobWrite := by
  have hv : v &&& 0xFF#8 = v := by revert v; decide +kernel
  unfold serialize8
  rw [ptr_addN, hv]
  split
  · rw [store_ok (by omega), splice_cons _ _ _ _ (by simp; omega), splice_nil]; rfl
  · rw [store_oob (by omega)]

theorem and_ff (x : Byte) : x &&& 0xFF#8 = x := by revert x; decide +kernel

/-- Two stores in increasing order. -/
theorem store2_up (b o : Nat) (a0 a1 : Byte) (m : Mem) :
    (do store (ptr b (o+0)) a0; store (ptr b (o+1)) a1 : C Unit) m =
      if o + 2 ≤ (m.bytes b).length then .ok () (m.upd b (splice (m.bytes b) o [a0, a1]))
      else .ub .oobWrite := by
  simp only [C.bind_run, Nat.add_zero]
  by_cases hh : o + 2 ≤ (m.bytes b).length
  on_goal 1 => rw [if_pos hh]
  on_goal 2 => rw [if_neg hh]
  · rw [store_ok (by omega)]
    simp only
    rw [store_ok (by simp; omega)]
    simp only [Mem.upd_bytes, if_true, Mem.upd_upd]
    rw [splice_cons _ _ _ _ (by simp; omega), splice_cons _ _ _ _ (by simp; omega), splice_nil]
  · by_cases h0 : o < (m.bytes b).length
    · rw [store_ok h0]; simp only; rw [store_oob (by simp; omega)]
    · rw [store_oob (by omega)]

theorem store3_up (b o : Nat) (a0 a1 a2 : Byte) (m : Mem) :
    (do store (ptr b (o+0)) a0; store (ptr b (o+1)) a1; store (ptr b (o+2)) a2 : C Unit) m =
      if o + 3 ≤ (m.bytes b).length then .ok () (m.upd b (splice (m.bytes b) o [a0, a1, a2]))
      else .ub .oobWrite := by
  rw [C.bind_run, Nat.add_zero]
  by_cases h0 : o < (m.bytes b).length
  · rw [store_ok h0]
    have := store2_up b (o+1) a1 a2 (m.upd b ((m.bytes b).set o a0))
    simp only [Nat.add_zero, Nat.add_assoc, Nat.reduceAdd] at this
    simp only [this, Mem.upd_bytes, if_true, List.length_set, Mem.upd_upd]
    split
    · rw [splice_cons (m.bytes b) _ _ _ (by simp; omega)]
    · rfl
  · rw [store_oob (by omega), if_neg (by omega)]

theorem store4_up (b o : Nat) (a0 a1 a2 a3 : Byte) (m : Mem) :
    (do store (ptr b (o+0)) a0; store (ptr b (o+1)) a1; store (ptr b (o+2)) a2
        store (ptr b (o+3)) a3 : C Unit) m =
      if o + 4 ≤ (m.bytes b).length then .ok () (m.upd b (splice (m.bytes b) o [a0, a1, a2, a3]))
      else .ub .oobWrite := by
  rw [C.bind_run, Nat.add_zero]
  by_cases h0 : o < (m.bytes b).length
  · rw [store_ok h0]
    have := store3_up b (o+1) a1 a2 a3 (m.upd b ((m.bytes b).set o a0))
    simp only [Nat.add_zero, Nat.add_assoc, Nat.reduceAdd] at this
    simp only [this, Mem.upd_bytes, if_true, List.length_set, Mem.upd_upd]
    split
    · rw [splice_cons (m.bytes b) _ _ _ (by simp; omega)]
    · rfl
  · rw [store_oob (by omega), if_neg (by omega)]

theorem splice_snoc {α} (l : List α) (o : Nat) (s : List α) (a : α) (h : o + s.length + 1 ≤ l.length) :
    splice l o (s ++ [a]) = splice (l.set (o + s.length) a) o s := by
  apply List.ext_getElem?; intro k
  rw [getElem?_splice _ _ _ (by simp; omega), getElem?_splice _ _ _ (by simp; omega)]
  simp only [List.length_append, List.length_singleton, List.getElem?_set]
  by_cases h1 : k < o
  · simp [h1, show ¬ o + s.length = k by omega]
  · simp only [h1, if_false]
    by_cases h2 : k = o + s.length
    · subst h2
      rw [if_pos (by omega), List.getElem?_append_right (by omega)]
      simp; omega
    · by_cases h3 : k < o + s.length
      · rw [if_pos (by omega), if_pos h3, List.getElem?_append_left (by omega)]
      · rw [if_neg (by omega), if_neg h3, if_neg (by omega)]

/-- Stores in decreasing order. -/
theorem store2_down (b o : Nat) (a0 a1 : Byte) (m : Mem) :
    (do store (ptr b (o+1)) a1; store (ptr b (o+0)) a0 : C Unit) m =
      if o + 2 ≤ (m.bytes b).length then .ok () (m.upd b (splice (m.bytes b) o [a0, a1]))
      else .ub .oobWrite := by
  simp only [C.bind_run, Nat.add_zero]
  by_cases hh : o + 2 ≤ (m.bytes b).length
  on_goal 1 => rw [if_pos hh]
  on_goal 2 => rw [if_neg hh]
  · rw [store_ok (by omega)]
    simp only
    rw [store_ok (by simp; omega)]
    simp only [Mem.upd_bytes, if_true, Mem.upd_upd]
    rw [show [a0, a1] = [a0] ++ [a1] from rfl, splice_snoc _ _ _ _ (by simp; omega),
      splice_cons _ _ _ _ (by simp; omega), splice_nil]; rfl
  · rw [store_oob (by omega)]

theorem store3_down (b o : Nat) (a0 a1 a2 : Byte) (m : Mem) :
    (do store (ptr b (o+2)) a2; store (ptr b (o+1)) a1; store (ptr b (o+0)) a0 : C Unit) m =
      if o + 3 ≤ (m.bytes b).length then .ok () (m.upd b (splice (m.bytes b) o [a0, a1, a2]))
      else .ub .oobWrite := by
  rw [C.bind_run]
  by_cases hh : o + 3 ≤ (m.bytes b).length
  on_goal 1 => rw [if_pos hh]
  on_goal 2 => rw [if_neg hh]
  · rw [store_ok (by omega)]
    have := store2_down b o a0 a1 (m.upd b ((m.bytes b).set (o+2) a2))
    simp only [this, Mem.upd_bytes, if_true, List.length_set, Mem.upd_upd]
    rw [if_pos (by omega), show [a0, a1, a2] = [a0, a1] ++ [a2] from rfl,
      splice_snoc _ _ _ _ (by simp; omega)]; rfl
  · rw [store_oob (by omega)]

theorem store4_down (b o : Nat) (a0 a1 a2 a3 : Byte) (m : Mem) :
    (do store (ptr b (o+3)) a3; store (ptr b (o+2)) a2; store (ptr b (o+1)) a1
        store (ptr b (o+0)) a0 : C Unit) m =
      if o + 4 ≤ (m.bytes b).length then .ok () (m.upd b (splice (m.bytes b) o [a0, a1, a2, a3]))
      else .ub .oobWrite := by
  rw [C.bind_run]
  by_cases hh : o + 4 ≤ (m.bytes b).length
  on_goal 1 => rw [if_pos hh]
  on_goal 2 => rw [if_neg hh]
  · rw [store_ok (by omega)]
    have := store3_down b o a0 a1 a2 (m.upd b ((m.bytes b).set (o+3) a3))
    simp only [this, Mem.upd_bytes, if_true, List.length_set, Mem.upd_upd]
    rw [if_pos (by omega), show [a0, a1, a2, a3] = [a0, a1, a2] ++ [a3] from rfl,
      splice_snoc _ _ _ _ (by simp; omega)]; rfl
  · rw [store_oob (by omega)]

/-- The `i`-th base-256 digit. -/
def dig (v : Nat) (i : Nat) : Byte := BitVec.ofNat 8 (v / 256 ^ i)

theorem dig_eq {w : Nat} (v : BitVec w) (i : Nat) :
    (v >>> (8 * i)).setWidth 8 = dig v.toNat i := by
  apply BitVec.eq_of_toNat_eq
  simp only [dig, BitVec.toNat_setWidth, BitVec.toNat_ushiftRight, BitVec.toNat_ofNat,
    Nat.shiftRight_eq_div_pow, Nat.pow_mul]
theorem dig_zero {w : Nat} (v : BitVec w) : v.setWidth 8 = dig v.toNat 0 := by
  have := dig_eq v 0; simpa using this
theorem dig_toNat (v i : Nat) : (dig v i).toNat = v / 256 ^ i % 256 := by
  simp [dig]

theorem serialize16BE_eq (b o : Nat) (v : U16) (m : Mem) :
    serialize16BE (ptr b o) v m =
      if o + 2 ≤ (m.bytes b).length then
        .ok () (m.upd b (splice (m.bytes b) o [dig v.toNat 1, dig v.toNat 0]))
      else .ub .oobWrite := by
  unfold serialize16BE
  simp only [ptr_addN, and_ff, dig_zero v, ← dig_eq v 1]
  exact store2_up _ _ _ _ _
theorem serialize24BE_eq (b o : Nat) (v : U32) (m : Mem) :
    serialize24BE (ptr b o) v m =
      if o + 3 ≤ (m.bytes b).length then
        .ok () (m.upd b (splice (m.bytes b) o [dig v.toNat 2, dig v.toNat 1, dig v.toNat 0]))
      else .ub .oobWrite := by
  unfold serialize24BE
  simp only [ptr_addN, and_ff, dig_zero v, ← dig_eq v 1, ← dig_eq v 2]
  exact store3_up _ _ _ _ _ _
theorem serialize32BE_eq (b o : Nat) (v : U32) (m : Mem) :
    serialize32BE (ptr b o) v m =
      if o + 4 ≤ (m.bytes b).length then
        .ok () (m.upd b (splice (m.bytes b) o
          [dig v.toNat 3, dig v.toNat 2, dig v.toNat 1, dig v.toNat 0]))
      else .ub .oobWrite := by
  unfold serialize32BE
  simp only [ptr_addN, and_ff, dig_zero v, ← dig_eq v 1, ← dig_eq v 2, ← dig_eq v 3]
  exact store4_up _ _ _ _ _ _ _
theorem serialize16LE_eq (b o : Nat) (v : U16) (m : Mem) :
    serialize16LE (ptr b o) v m =
      if o + 2 ≤ (m.bytes b).length then
        .ok () (m.upd b (splice (m.bytes b) o [dig v.toNat 0, dig v.toNat 1]))
      else .ub .oobWrite := by
  unfold serialize16LE
  simp only [ptr_addN, and_ff, dig_zero v, ← dig_eq v 1]
  exact store2_down _ _ _ _ _
theorem serialize24LE_eq (b o : Nat) (v : U32) (m : Mem) :
    serialize24LE (ptr b o) v m =
      if o + 3 ≤ (m.bytes b).length then
        .ok () (m.upd b (splice (m.bytes b) o [dig v.toNat 0, dig v.toNat 1, dig v.toNat 2]))
      else .ub .oobWrite := by
  unfold serialize24LE
  simp only [ptr_addN, and_ff, dig_zero v, ← dig_eq v 1, ← dig_eq v 2]
  exact store3_down _ _ _ _ _ _
theorem serialize32LE_eq (b o : Nat) (v : U32) (m : Mem) :
    serialize32LE (ptr b o) v m =
      if o + 4 ≤ (m.bytes b).length then
        .ok () (m.upd b (splice (m.bytes b) o
          [dig v.toNat 0, dig v.toNat 1, dig v.toNat 2, dig v.toNat 3]))
      else .ub .oobWrite := by
  unfold serialize32LE
  simp only [ptr_addN, and_ff, dig_zero v, ← dig_eq v 1, ← dig_eq v 2, ← dig_eq v 3]
  exact store4_down _ _ _ _ _ _ _

/-! ### values -/

theorem or_shift {w : Nat} (a : BitVec w) (k : Nat) (c : BitVec w) (h : c.toNat < 2 ^ k)
    (ha : a.toNat * 2 ^ k < 2 ^ w) :
    ((a <<< k) ||| c).toNat = a.toNat * 2 ^ k + c.toNat := by
  rw [BitVec.toNat_or, BitVec.toNat_shiftLeft, Nat.shiftLeft_eq, Nat.mod_eq_of_lt ha,
    Nat.mul_comm, ← Nat.two_pow_add_eq_or_of_lt h]

theorem join16 (x y : Byte) : ((x.setWidth 16 <<< 8) ||| y.setWidth 16 : U16).toNat =
    x.toNat * 256 + y.toNat := by
  have hx := x.isLt; have hy := y.isLt
  have := or_shift (x.setWidth 16) 8 (y.setWidth 16)
    (by simp only [BitVec.toNat_setWidth]; omega) (by simp only [BitVec.toNat_setWidth]; omega)
  rw [this]; simp only [BitVec.toNat_setWidth]; omega

theorem toNat_sw (x : Byte) : (x.setWidth 32).toNat = x.toNat := by
  have hx := x.isLt
  simp only [BitVec.toNat_setWidth]; omega

theorem toNat_shl (x : Byte) (k : Nat) (hk : k ≤ 24) :
    (x.setWidth 32 <<< k).toNat = x.toNat * 2 ^ k := by
  have hx := x.isLt
  have h2 : 2 ^ k ≤ 2 ^ 24 := Nat.pow_le_pow_right (by norm_num) hk
  rw [BitVec.toNat_shiftLeft, Nat.shiftLeft_eq, toNat_sw, Nat.mod_eq_of_lt]
  nlinarith

theorem or_add (a b k : Nat) (hb : b < 2 ^ k) : a * 2 ^ k ||| b = a * 2 ^ k + b := by
  rw [Nat.mul_comm]; exact (Nat.two_pow_add_eq_or_of_lt hb a).symm

theorem join24 (x y z : Byte) :
    (((x.setWidth 32 <<< 16) ||| (y.setWidth 32 <<< 8)) ||| z.setWidth 32 : U32).toNat =
    (x.toNat * 256 + y.toNat) * 256 + z.toNat := by
  have hx := x.isLt; have hy := y.isLt; have hz := z.isLt
  rw [BitVec.toNat_or, BitVec.toNat_or, toNat_shl _ _ (by omega), toNat_shl _ _ (by omega), toNat_sw,
    or_add _ _ 16 (by omega),
    show x.toNat * 2 ^ 16 + y.toNat * 2 ^ 8 = (x.toNat * 256 + y.toNat) * 2 ^ 8 by ring,
    or_add _ _ 8 (by omega)]
  norm_num

theorem join32 (x y z t : Byte) :
    ((((x.setWidth 32 <<< 24) ||| (y.setWidth 32 <<< 16)) ||| (z.setWidth 32 <<< 8)) |||
      t.setWidth 32 : U32).toNat =
    ((x.toNat * 256 + y.toNat) * 256 + z.toNat) * 256 + t.toNat := by
  have hx := x.isLt; have hy := y.isLt; have hz := z.isLt; have ht := t.isLt
  rw [BitVec.toNat_or, BitVec.toNat_or, BitVec.toNat_or, toNat_shl _ _ (by omega),
    toNat_shl _ _ (by omega), toNat_shl _ _ (by omega), toNat_sw,
    or_add _ _ 24 (by omega),
    show x.toNat * 2 ^ 24 + y.toNat * 2 ^ 16 = (x.toNat * 256 + y.toNat) * 2 ^ 16 by ring,
    or_add _ _ 16 (by omega),
    show (x.toNat * 256 + y.toNat) * 2 ^ 16 + z.toNat * 2 ^ 8 =
      ((x.toNat * 256 + y.toNat) * 256 + z.toNat) * 2 ^ 8 by ring,
    or_add _ _ 8 (by omega)]
  norm_num

theorem list1 (l : List Byte) (h : l.length = 1) : ∃ a, l = [a] := by
  match l, h with
  | [a], _ => exact ⟨a, rfl⟩
theorem list2 (l : List Byte) (h : l.length = 2) : ∃ a b, l = [a, b] := by
  match l, h with
  | [a, b], _ => exact ⟨a, b, rfl⟩
theorem list3 (l : List Byte) (h : l.length = 3) : ∃ a b c, l = [a, b, c] := by
  match l, h with
  | [a, b, c], _ => exact ⟨a, b, c, rfl⟩
theorem list4 (l : List Byte) (h : l.length = 4) : ∃ a b c d, l = [a, b, c, d] := by
  match l, h with
  | [a, b, c, d], _ => exact ⟨a, b, c, d, rfl⟩

theorem load_slice {m : Mem} {b o n : Nat} {s : List Byte} (hs : slice (m.bytes b) o n = s)
    (i : Nat) (v : Byte) (hv : s[i]? = some v) : load ((ptr b o).addN i) m = .ok v m := by
  rw [ptr_addN]; apply load_ok
  have := getElem?_slice (m.bytes b) o n i
  rw [hs, hv] at this
  split at this
  · exact this.symm
  · simp at this

theorem deserialize8_eq (b o : Nat) (m : Mem) :
    (o + 1 ≤ (m.bytes b).length → ∃ v, deserialize8 (ptr b o) m = .ok v m ∧
      [v] = slice (m.bytes b) o 1) ∧
    ((m.bytes b).length < o + 1 → deserialize8 (ptr b o) m = .ub .oobRead) := by
  constructor
  · intro h
    obtain ⟨x, hs⟩ := list1 _ (slice_length (m.bytes b) o 1 h)
    exact ⟨x, load_slice hs 0 x rfl, hs.symm⟩
  · intro h
    exact load_oob (by simp; omega)

theorem deserialize16BE_eq (b o : Nat) (m : Mem) :
    (o + 2 ≤ (m.bytes b).length → ∃ v, deserialize16BE (ptr b o) m = .ok v m ∧
      v.toNat = valueBE (slice (m.bytes b) o 2)) ∧
    ((m.bytes b).length < o + 2 → deserialize16BE (ptr b o) m = .ub .oobRead) := by
  constructor
  · intro h
    obtain ⟨x, y, hs⟩ := list2 _ (slice_length (m.bytes b) o 2 h)
    refine ⟨(x.setWidth 16 <<< 8) ||| y.setWidth 16, ?_, ?_⟩
    · simp [deserialize16BE, -ptr_addN, load_slice hs 0 x rfl, load_slice hs 1 y rfl]
    · rw [join16, hs]; simp [valueBE]
  · intro h
    unfold deserialize16BE
    simp only [ptr_addN, C.bind_run]
    by_cases h0 : o + 0 < (m.bytes b).length
    · rw [load_lt h0]; simp only; rw [load_oob (by omega)]
    · rw [load_oob (by omega)]

theorem deserialize16LE_eq (b o : Nat) (m : Mem) :
    (o + 2 ≤ (m.bytes b).length → ∃ v, deserialize16LE (ptr b o) m = .ok v m ∧
      v.toNat = valueLE (slice (m.bytes b) o 2)) ∧
    ((m.bytes b).length < o + 2 → deserialize16LE (ptr b o) m = .ub .oobRead) := by
  constructor
  · intro h
    obtain ⟨x, y, hs⟩ := list2 _ (slice_length (m.bytes b) o 2 h)
    refine ⟨(y.setWidth 16 <<< 8) ||| x.setWidth 16, ?_, ?_⟩
    · simp [deserialize16LE, -ptr_addN, load_slice hs 0 x rfl, load_slice hs 1 y rfl]
    · rw [join16, hs]; simp [valueLE]; omega
  · intro h
    unfold deserialize16LE
    simp only [ptr_addN, C.bind_run]
    rw [load_oob (by omega)]

theorem deserialize24BE_eq (b o : Nat) (m : Mem) :
    (o + 3 ≤ (m.bytes b).length → ∃ v, deserialize24BE (ptr b o) m = .ok v m ∧
      v.toNat = valueBE (slice (m.bytes b) o 3)) ∧
    ((m.bytes b).length < o + 3 → deserialize24BE (ptr b o) m = .ub .oobRead) := by
  constructor
  · intro h
    obtain ⟨x, y, z, hs⟩ := list3 _ (slice_length (m.bytes b) o 3 h)
    refine ⟨((x.setWidth 32 <<< 16) ||| (y.setWidth 32 <<< 8)) ||| z.setWidth 32, ?_, ?_⟩
    rotate_left
    · rw [hs]; show _ = valueBE [x, y, z]
      simp only [valueBE, List.foldl]; rw [Nat.zero_mul, Nat.zero_add]
      exact join24 x y z
    · simp [deserialize24BE, -ptr_addN, load_slice hs 0 x rfl, load_slice hs 1 y rfl,
        load_slice hs 2 z rfl]
  · intro h
    unfold deserialize24BE
    simp only [ptr_addN, C.bind_run]
    by_cases h0 : o + 0 < (m.bytes b).length
    · rw [load_lt h0]; simp only
      by_cases h1 : o + 1 < (m.bytes b).length
      · rw [load_lt h1]; simp only
        rw [load_oob (by omega)]
      · rw [load_oob (by omega)]
    · rw [load_oob (by omega)]

theorem deserialize24LE_eq (b o : Nat) (m : Mem) :
    (o + 3 ≤ (m.bytes b).length → ∃ v, deserialize24LE (ptr b o) m = .ok v m ∧
      v.toNat = valueLE (slice (m.bytes b) o 3)) ∧
    ((m.bytes b).length < o + 3 → deserialize24LE (ptr b o) m = .ub .oobRead) := by
  constructor
  · intro h
    obtain ⟨x, y, z, hs⟩ := list3 _ (slice_length (m.bytes b) o 3 h)
    refine ⟨((z.setWidth 32 <<< 16) ||| (y.setWidth 32 <<< 8)) ||| x.setWidth 32, ?_, ?_⟩
    rotate_left
    · rw [hs]; show _ = valueLE [x, y, z]
      rw [show valueLE [x, y, z] = (z.toNat * 256 + y.toNat) * 256 + x.toNat by
        simp [valueLE]; ring]
      exact join24 z y x
    · simp [deserialize24LE, -ptr_addN, load_slice hs 0 x rfl, load_slice hs 1 y rfl,
        load_slice hs 2 z rfl]
  · intro h
    unfold deserialize24LE
    simp only [ptr_addN, C.bind_run]
    rw [load_oob (by omega)]

theorem deserialize32BE_eq (b o : Nat) (m : Mem) :
    (o + 4 ≤ (m.bytes b).length → ∃ v, deserialize32BE (ptr b o) m = .ok v m ∧
      v.toNat = valueBE (slice (m.bytes b) o 4)) ∧
    ((m.bytes b).length < o + 4 → deserialize32BE (ptr b o) m = .ub .oobRead) := by
  constructor
  · intro h
    obtain ⟨x, y, z, t, hs⟩ := list4 _ (slice_length (m.bytes b) o 4 h)
    refine ⟨(((x.setWidth 32 <<< 24) ||| (y.setWidth 32 <<< 16)) ||| (z.setWidth 32 <<< 8)) |||
      t.setWidth 32, ?_, ?_⟩
    rotate_left
    · rw [hs]; show _ = valueBE [x, y, z, t]
      simp only [valueBE, List.foldl]; rw [Nat.zero_mul, Nat.zero_add]
      exact join32 x y z t
    · simp [deserialize32BE, -ptr_addN, load_slice hs 0 x rfl, load_slice hs 1 y rfl,
        load_slice hs 2 z rfl, load_slice hs 3 t rfl]
  · intro h
    unfold deserialize32BE
    simp only [ptr_addN, C.bind_run]
    by_cases h0 : o + 0 < (m.bytes b).length
    · rw [load_lt h0]; simp only
      by_cases h1 : o + 1 < (m.bytes b).length
      · rw [load_lt h1]; simp only
        by_cases h2 : o + 2 < (m.bytes b).length
        · rw [load_lt h2]; simp only
          rw [load_oob (by omega)]
        · rw [load_oob (by omega)]
      · rw [load_oob (by omega)]
    · rw [load_oob (by omega)]

theorem deserialize32LE_eq (b o : Nat) (m : Mem) :
    (o + 4 ≤ (m.bytes b).length → ∃ v, deserialize32LE (ptr b o) m = .ok v m ∧
      v.toNat = valueLE (slice (m.bytes b) o 4)) ∧
    ((m.bytes b).length < o + 4 → deserialize32LE (ptr b o) m = .ub .oobRead) := by
  constructor
  · intro h
    obtain ⟨x, y, z, t, hs⟩ := list4 _ (slice_length (m.bytes b) o 4 h)
    refine ⟨(((t.setWidth 32 <<< 24) ||| (z.setWidth 32 <<< 16)) ||| (y.setWidth 32 <<< 8)) |||
      x.setWidth 32, ?_, ?_⟩
    rotate_left
    · rw [hs]; show _ = valueLE [x, y, z, t]
      rw [show valueLE [x, y, z, t] = ((t.toNat * 256 + z.toNat) * 256 + y.toNat) * 256 + x.toNat by
        simp [valueLE]; ring]
      exact join32 t z y x
    · simp [deserialize32LE, -ptr_addN, load_slice hs 0 x rfl, load_slice hs 1 y rfl,
        load_slice hs 2 z rfl, load_slice hs 3 t rfl]
  · intro h
    unfold deserialize32LE
    simp only [ptr_addN, C.bind_run]
    rw [load_oob (by omega)]

/-! ### values of the digit strings -/

theorem valueBE_dig2 (v : Nat) : valueBE [dig v 1, dig v 0] = v % 256 ^ 2 := by
  simp only [valueBE, List.foldl, dig_toNat]; omega
theorem valueBE_dig3 (v : Nat) : valueBE [dig v 2, dig v 1, dig v 0] = v % 256 ^ 3 := by
  simp only [valueBE, List.foldl, dig_toNat]; omega
theorem valueBE_dig4 (v : Nat) : valueBE [dig v 3, dig v 2, dig v 1, dig v 0] = v % 256 ^ 4 := by
  simp only [valueBE, List.foldl, dig_toNat]; omega
theorem valueLE_dig2 (v : Nat) : valueLE [dig v 0, dig v 1] = v % 256 ^ 2 := by
  simp only [valueLE, dig_toNat]; omega
theorem valueLE_dig3 (v : Nat) : valueLE [dig v 0, dig v 1, dig v 2] = v % 256 ^ 3 := by
  simp only [valueLE, dig_toNat]; omega
theorem valueLE_dig4 (v : Nat) : valueLE [dig v 0, dig v 1, dig v 2, dig v 3] = v % 256 ^ 4 := by
  simp only [valueLE, dig_toNat]; omega

theorem valueBE_append (s : List Byte) (c : Byte) : valueBE (s ++ [c]) = valueBE s * 256 + c.toNat := by
  simp [valueBE, List.foldl_append]

/-- A byte string is determined by its length and little-endian value. -/
theorem valueLE_inj : ∀ (s t : List Byte), s.length = t.length → valueLE s = valueLE t → s = t
  | [], [], _, _ => rfl
  | [], _ :: _, h, _ => by simp at h
  | _ :: _, [], h, _ => by simp at h
  | x :: s, y :: t, hl, hv => by
    simp only [valueLE] at hv
    have hx := x.isLt; have hy := y.isLt
    have h1 : x.toNat = y.toNat := by omega
    have h2 : valueLE s = valueLE t := by omega
    rw [BitVec.eq_of_toNat_eq h1, valueLE_inj s t (by simpa using hl) h2]

theorem valueBE_eq_LE (s : List Byte) : valueBE s = valueLE s.reverse := by
  have : ∀ s : List Byte, valueBE s.reverse = valueLE s := by
    intro s
    induction s with
    | nil => rfl
    | cons c s ih => rw [List.reverse_cons, valueBE_append, ih]; simp [valueLE]; ring
  have h := this s.reverse
  rwa [List.reverse_reverse] at h

theorem valueBE_inj (s t : List Byte) (hl : s.length = t.length) (h : valueBE s = valueBE t) :
    s = t := by
  rw [valueBE_eq_LE, valueBE_eq_LE] at h
  have := valueLE_inj _ _ (by simpa using hl) h
  exact List.reverse_inj.1 this

theorem splice_slice {α} (l : List α) (i n : Nat) (h : i + n ≤ l.length) :
    splice l i (slice l i n) = l := by
  apply List.ext_getElem?; intro k
  rw [getElem?_splice _ _ _ (by rw [slice_length _ _ _ h]; exact h), slice_length _ _ _ h,
    getElem?_slice]
  split
  · rfl
  · split
    · rw [if_pos (by omega)]; congr 1; omega
    · rfl

end IMU.Utils
