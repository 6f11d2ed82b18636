import Verif.Model.Comparators
import Verif.Spec.Numbers
import Verif.Proofs.SortCongr

namespace IMU.Sort
open Spec

theorem valueLE_lt (s : List Byte) : valueLE s < 256 ^ s.length := by
  induction s with
  | nil => simp [valueLE]
  | cons c s ih =>
    rw [valueLE, List.length_cons, Nat.pow_succ]
    have := c.isLt
    omega

theorem word_toNat {w : Nat} : ∀ (s : List Byte), 8 * s.length ≤ w → (word w s).toNat = valueLE s := by
  intro s
  induction s with
  | nil => intro _; simp [word, valueLE]
  | cons c s ih =>
    intro h
    rw [List.length_cons] at h
    have hl := valueLE_lt s
    have hc := c.isLt
    have e : (256 : Nat) ^ s.length = 2 ^ (8 * s.length) := by rw [Nat.pow_mul]
    have hp : 2 ^ (8 * s.length) * 2 ^ 8 ≤ 2 ^ w := by
      rw [← Nat.pow_add]; exact Nat.pow_le_pow_right (by omega) (by omega)
    rw [e] at hl
    have h1 : 1 ≤ 2 ^ (8 * s.length) := Nat.one_le_two_pow
    rw [word, valueLE, BitVec.toNat_or, BitVec.toNat_setWidth, BitVec.toNat_shiftLeft, ih (by omega),
      Nat.mod_eq_of_lt (by omega), Nat.shiftLeft_eq, Nat.mod_eq_of_lt (by omega), Nat.or_comm, Nat.mul_comm (valueLE s),
      show (2 : Nat) ^ 8 * valueLE s = 2 ^ 8 * valueLE s from rfl, ← Nat.two_pow_add_eq_or_of_lt hc]
    omega

theorem compareInt32_eq (a b : List Byte) (ha : a.length = 4) (hb : b.length = 4) :
    compareInt32 a b = decide (int32Value b < int32Value a) := by
  have h1 := word_toNat (w := 32) a (by omega)
  have h2 := word_toNat (w := 32) b (by omega)
  unfold compareInt32 int32Value
  rw [BitVec.slt, BitVec.toInt_eq_toNat_cond, BitVec.toInt_eq_toNat_cond, h1, h2]
  congr 1
  have : (2 * valueLE a < 2 ^ 32) = (valueLE a < 2 ^ 31) := by apply propext; omega
  have : (2 * valueLE b < 2 ^ 32) = (valueLE b < 2 ^ 31) := by apply propext; omega
  simp only [*]
  rfl

theorem compareUint64_eq (a b : List Byte) (ha : a.length = 8) (hb : b.length = 8) :
    compareUint64 a b = decide (uint64Value b < uint64Value a) := by
  have h1 := word_toNat (w := 64) a (by omega)
  have h2 := word_toNat (w := 64) b (by omega)
  unfold compareUint64 uint64Value
  rw [BitVec.ult, h1, h2]
  simp

theorem isNaN64_iff (a : List Byte) (ha : a.length = 8) : isNaN64 (word 64 a) = true ↔ f64NaN a := by
  have h1 := word_toNat (w := 64) a (by omega)
  unfold isNaN64 f64NaN f64Exponent f64Fraction
  rw [Bool.and_eq_true, beq_iff_eq, bne_iff_ne, ne_eq, ← BitVec.toNat_inj, ← BitVec.toNat_inj, BitVec.extractLsb'_toNat,
    BitVec.extractLsb'_toNat, h1, BitVec.toNat_allOnes, Nat.shiftRight_eq_div_pow, Nat.shiftRight_eq_div_pow]
  simp

/-- The absolute value of a double from its lower 63 bits. -/
def scaled (k : Nat) : Nat := if k / 2 ^ 52 = 0 then k % 2 ^ 52 else (2 ^ 52 + k % 2 ^ 52) * 2 ^ (k / 2 ^ 52 - 1)

theorem scaled_lt {k k' : Nat} (h : k < k') : scaled k < scaled k' := by
  have d := Nat.div_add_mod k (2 ^ 52)
  have d' := Nat.div_add_mod k' (2 ^ 52)
  have hm := Nat.mod_lt k (show 0 < 2 ^ 52 by decide)
  have hm' := Nat.mod_lt k' (show 0 < 2 ^ 52 by decide)
  have hle : k / 2 ^ 52 ≤ k' / 2 ^ 52 := Nat.div_le_div_right (by omega)
  unfold scaled
  generalize k / 2 ^ 52 = e at *
  generalize k' / 2 ^ 52 = e' at *
  generalize k % 2 ^ 52 = f at *
  generalize k' % 2 ^ 52 = f' at *
  rcases Nat.eq_or_lt_of_le hle with rfl | hlt
  · have hf : f < f' := by omega
    split
    · exact hf
    · exact Nat.mul_lt_mul_of_pos_right (by omega) (Nat.two_pow_pos _)
  · rw [if_neg (show ¬ e' = 0 by omega)]
    have h1 : 2 ^ 52 * 2 ^ (e' - 1) ≤ (2 ^ 52 + f') * 2 ^ (e' - 1) := Nat.mul_le_mul_right _ (by omega)
    refine Nat.lt_of_lt_of_le ?_ h1
    split
    · exact Nat.lt_of_lt_of_le hm (Nat.le_mul_of_pos_right _ (Nat.two_pow_pos _))
    · have h2 : (2 ^ 52 + f) * 2 ^ (e - 1) < 2 ^ 53 * 2 ^ (e - 1) :=
        Nat.mul_lt_mul_of_pos_right (by omega) (Nat.two_pow_pos _)
      refine Nat.lt_of_lt_of_le h2 ?_
      rw [← Nat.pow_add, ← Nat.pow_add]
      exact Nat.pow_le_pow_right (by omega) (by omega)

theorem scaled_lt_iff {k k' : Nat} : scaled k < scaled k' ↔ k < k' := by
  constructor
  · intro h
    rcases Nat.lt_trichotomy k k' with h1 | h1 | h1
    · exact h1
    · rw [h1] at h; omega
    · have := scaled_lt h1; omega
  · exact scaled_lt

theorem scaled_zero : scaled 0 = 0 := by decide

theorem orderKey64_eq (a : List Byte) (ha : a.length = 8) :
    orderKey64 (word 64 a) = if f64Sign a = 0 then ((valueLE a % 2 ^ 63 : Nat) : Int) else -((valueLE a % 2 ^ 63 : Nat) : Int) := by
  have h1 := word_toNat (w := 64) a (by omega)
  have hl := valueLE_lt a
  rw [ha] at hl
  unfold orderKey64 f64Sign
  rw [BitVec.extractLsb'_toNat, h1, Nat.shiftRight_zero, BitVec.msb_eq_decide, h1]
  by_cases h : 2 ^ 63 ≤ valueLE a
  · rw [if_pos (by simpa using h), if_neg (by omega)]
  · rw [if_neg (by simpa using h), if_pos (by omega)]

theorem f64Value_eq (a : List Byte) (ha : a.length = 8) :
    f64Value a = if f64Sign a = 0 then ((scaled (valueLE a % 2 ^ 63) : Nat) : Int) else -((scaled (valueLE a % 2 ^ 63) : Nat) : Int) := by
  have hl := valueLE_lt a
  rw [ha] at hl
  have hs : f64Sign a = 0 ∨ f64Sign a = 1 := by unfold f64Sign; omega
  have e1 : valueLE a % 2 ^ 63 / 2 ^ 52 = f64Exponent a := by unfold f64Exponent; omega
  have e2 : valueLE a % 2 ^ 63 % 2 ^ 52 = f64Fraction a := by unfold f64Fraction; omega
  unfold f64Value scaled
  rw [e1, e2]
  rcases hs with h | h <;> rw [h]
  · simp only [pow_zero, one_mul, if_true]
    split <;> push_cast <;> rfl
  · simp only [pow_one, Nat.one_ne_zero, if_false]
    split <;> push_cast <;> ring

theorem compareFloat64_eq (a b : List Byte) (ha : a.length = 8) (hb : b.length = 8) (na : ¬ f64NaN a) (nb : ¬ f64NaN b) :
    compareFloat64 a b = decide (f64Value b < f64Value a) := by
  have h1 : isNaN64 (word 64 a) = false := by
    rw [← Bool.not_eq_true, isNaN64_iff a ha]; exact na
  have h2 : isNaN64 (word 64 b) = false := by
    rw [← Bool.not_eq_true, isNaN64_iff b hb]; exact nb
  unfold compareFloat64
  rw [h1, h2]
  simp only [Bool.not_false, Bool.true_and]
  congr 1
  rw [orderKey64_eq a ha, orderKey64_eq b hb, f64Value_eq a ha, f64Value_eq b hb]
  generalize valueLE a % 2 ^ 63 = k
  generalize valueLE b % 2 ^ 63 = k'
  have i1 := scaled_lt_iff (k := k) (k' := k')
  have i2 := scaled_lt_iff (k := k') (k' := k)
  have i3 := scaled_lt_iff (k := 0) (k' := k)
  have i4 := scaled_lt_iff (k := 0) (k' := k')
  rw [scaled_zero] at i3 i4
  apply propext
  split <;> split <;> omega

theorem compareFloat64_nan (a b : List Byte) (ha : a.length = 8) (hb : b.length = 8) (h : f64NaN a ∨ f64NaN b) :
    compareFloat64 a b = false := by
  unfold compareFloat64
  rcases h with h | h
  · rw [(isNaN64_iff a ha).mpr h]; rfl
  · rw [(isNaN64_iff b hb).mpr h]; simp

theorem strictWeakOn_value {L : List (List Byte)} {gt : Cmp} {value : List Byte → Int}
    (h : ∀ a ∈ L, ∀ b ∈ L, gt a b = decide (value b < value a)) : StrictWeakOn L gt := by
  constructor
  · intro a ha b hb hab
    rw [h a ha b hb, decide_eq_true_eq] at hab
    rw [h b hb a ha, decide_eq_false_iff_not]
    omega
  · intro a ha b hb c hc hab hbc
    rw [h a ha b hb, decide_eq_false_iff_not] at hab
    rw [h b hb c hc, decide_eq_false_iff_not] at hbc
    rw [h a ha c hc, decide_eq_false_iff_not]
    omega

theorem sortedNumbers_of {L L' : List (List Byte)} {gt : Cmp} {value : List Byte → Int}
    (h : ∀ a ∈ L, ∀ b ∈ L, gt a b = decide (value b < value a)) (hp : L.Perm L') (hs : Sorted gt L') :
    SortedNumbers value L L' := by
  refine ⟨hp, ?_⟩
  rw [List.pairwise_map]
  refine List.Pairwise.imp_of_mem ?_ hs
  intro a b ha hb hab
  rw [h a (hp.mem_iff.mpr ha) b (hp.mem_iff.mpr hb), decide_eq_false_iff_not] at hab
  omega

theorem sortedNumbers_unique {value : List Byte → Int} {L l l' : List (List Byte)}
    (hi : ∀ a ∈ L, ∀ b ∈ L, value a = value b → a = b)
    (h : SortedNumbers value L l) (h' : SortedNumbers value L l') : l = l' := by
  have h1 := List.pairwise_map.mp h.ascending
  have h2 := List.pairwise_map.mp h'.ascending
  refine List.Perm.eq_of_pairwise ?_ h1 h2 (h.perm.symm.trans h'.perm)
  intro a b ha hb hab hba
  exact hi a (h.perm.mem_iff.mpr ha) b (h'.perm.mem_iff.mpr hb) (by omega)

/-! ### Bubble sort without work -/

theorem bpass_id {gt : Cmp} (c : Nat) : ∀ (x : List Byte) (B : List (List Byte)),
    List.IsChain (fun a b => gt a b = false) (x :: B) → bpass gt c x B = (x :: B, false) := by
  induction c with
  | zero => intro x B _; rfl
  | succ c ih =>
    intro x B h
    cases B with
    | nil => rfl
    | cons y B =>
      rw [List.isChain_cons_cons] at h
      rw [bpass, if_neg (by rw [h.1]; simp), ih y B h.2]

end IMU.Sort
