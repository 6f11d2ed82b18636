import Verif.Proofs.CrcCore
import Verif.Spec.CrcPoly
import Mathlib.Algebra.Polynomial.Monic
import Mathlib.Tactic.Ring
import Mathlib.Tactic.LinearCombination

/-! # The register is a remainder -/

namespace IMU.Crc
open Spec.Crc Polynomial

theorem gf_xor (a b : Bool) : gf (a ^^ b) = gf a + gf b := by cases a <;> cases b <;> decide

theorem gf_self (a : Bool) : gf a + gf a = 0 := by cases a <;> decide

theorem polyOf_coeff {w : Nat} (r : BitVec w) (j : Nat) : (polyOf r).coeff j = gf (r.getLsbD j) := by
  unfold polyOf
  rw [finset_sum_coeff]
  simp only [coeff_C_mul, coeff_X_pow, mul_ite, mul_one, mul_zero]
  rw [Finset.sum_ite_eq]
  split
  · rfl
  · rename_i h
    rw [BitVec.getLsbD_of_ge r j (by simpa using h)]; rfl

theorem polyOf_degree {w : Nat} (r : BitVec w) : (polyOf r).degree < w := by
  rw [degree_lt_iff_coeff_zero]
  intro j hj
  rw [polyOf_coeff, BitVec.getLsbD_of_ge r j (by exact_mod_cast hj)]; rfl

theorem polyOf_xor {w : Nat} (r s : BitVec w) : polyOf (r ^^^ s) = polyOf r + polyOf s := by
  ext j
  rw [coeff_add, polyOf_coeff, polyOf_coeff, polyOf_coeff, BitVec.getLsbD_xor, gf_xor]

theorem polyOf_zero (w : Nat) : polyOf (0#w) = 0 := by
  ext j
  rw [polyOf_coeff]; simp [gf]

theorem polyOf_shl {w : Nat} (hw : 0 < w) (r : BitVec w) :
    polyOf (r <<< 1) = polyOf r * X + Polynomial.C (gf r.msb) * X ^ w := by
  ext j
  rw [coeff_add, polyOf_coeff, coeff_C_mul, coeff_X_pow]
  cases j with
  | zero =>
    rw [coeff_mul_X_zero, if_neg (by omega)]
    simp [gf]
  | succ j =>
    rw [coeff_mul_X, polyOf_coeff, BitVec.getLsbD_shiftLeft]
    by_cases h : j + 1 = w
    · have : r.msb = r.getLsbD j := by rw [BitVec.msb_eq_getLsbD_last]; congr 1; omega
      rw [if_pos h, this, mul_one, gf_self, h]
      simp [gf]
    · rw [if_neg h]
      by_cases h1 : j + 1 < w
      · simp [h1]
      · rw [BitVec.getLsbD_of_ge r j (by omega)]
        simp [h1, gf]

theorem divisor_monic {w : Nat} (P : BitVec w) : (divisor P).Monic := monic_X_pow_add (polyOf_degree P)

theorem divisor_degree {w : Nat} (P : BitVec w) : (divisor P).degree = w := by
  unfold divisor
  rw [degree_add_eq_left_of_degree_lt] <;> rw [degree_X_pow]
  exact polyOf_degree P

theorem gf2_add_self (a : (ZMod 2)[X]) : a + a = 0 := by
  have : (2 : (ZMod 2)[X]) = 0 := by
    have h : (2 : ZMod 2) = 0 := by decide
    rw [← Polynomial.C_ofNat, h, Polynomial.C_0]
  linear_combination a * this

theorem polyOf_feed {w : Nat} (hw : 0 < w) (P r : BitVec w) (b : Bool) :
    polyOf (feed P r b) = polyOf r * X + Polynomial.C (gf b) * X ^ w + divisor P * Polynomial.C (gf (r.msb ^^ b)) := by
  unfold feed
  rw [polyOf_xor, polyOf_shl hw]
  have e : polyOf (if r.msb != b then P else 0#w) = polyOf P * Polynomial.C (gf (r.msb ^^ b)) := by
    cases r.msb <;> cases b <;> simp [gf, polyOf_zero]
  rw [e, gf_xor, divisor, Polynomial.C_add]
  linear_combination -(gf2_add_self (Polynomial.C (gf b) * X ^ w))

/-- The register differs from the dividend by a multiple of the divisor. -/
theorem crcBits_poly {w : Nat} (hw : 0 < w) (P : BitVec w) : ∀ (l : List Bool) (r : BitVec w),
    ∃ q, polyOf (crcBits P r l) + divisor P * q = polyOf r * X ^ l.length + polyBits l * X ^ w := by
  intro l
  induction l with
  | nil => intro r; exact ⟨0, by simp [crcBits, polyBits]⟩
  | cons b l ih =>
    intro r
    obtain ⟨q, hq⟩ := ih (feed P r b)
    refine ⟨q + Polynomial.C (gf (r.msb ^^ b)) * X ^ l.length, ?_⟩
    show polyOf (crcBits P (feed P r b) l) + _ = _
    rw [polyOf_feed hw] at hq
    rw [polyBits, List.length_cons, pow_succ]
    linear_combination hq + gf2_add_self (divisor P * Polynomial.C (gf (r.msb ^^ b)) * X ^ l.length)

theorem crcBits_rem {w : Nat} (hw : 0 < w) (P r : BitVec w) (l : List Bool) :
    polyOf (crcBits P r l) = (polyOf r * X ^ l.length + polyBits l * X ^ w) %ₘ divisor P := by
  obtain ⟨q, hq⟩ := crcBits_poly hw P l r
  refine ((div_modByMonic_unique q _ (divisor_monic P) ⟨hq, ?_⟩).2).symm
  rw [divisor_degree]
  exact polyOf_degree _

theorem polyOf_inj {w : Nat} {r s : BitVec w} (h : polyOf r = polyOf s) : r = s := by
  apply BitVec.eq_of_getLsbD_eq
  intro i hi
  have := congrArg (fun p => p.coeff i) h
  simp only [polyOf_coeff] at this
  cases hr : r.getLsbD i <;> cases hs : s.getLsbD i <;> rw [hr, hs] at this <;> first | rfl | (revert this; decide)

end IMU.Crc
