import Verif.Proofs.CrcErrors
import Verif.Spec.CrcCatalogue
import Mathlib.NumberTheory.LucasLehmer
import Mathlib.Tactic.NormNum.Prime

/-! # The orders of the polynomials -/

namespace IMU.Crc
open Spec.Crc

theorem prime_m31 : Nat.Prime 2147483647 := by
  have : (mersenne 31).Prime := lucas_lehmer_sufficiency _ (by norm_num) (by norm_num)
  exact this

/-- The prime factors of the orders. -/
def primeFactors (T : Nat) : List Nat :=
  if T = 17 then [17] else if T = 93 then [3, 31] else if T = 127 then [127] else if T = 151 then [151] else
  if T = 254 then [2, 127] else if T = 255 then [3, 5, 17] else if T = 32766 then [2, 3, 43, 127] else
  if T = 32767 then [7, 31, 151] else if T = 65535 then [3, 5, 17, 257] else if T = 65537 then [65537] else
  if T = 2147483647 then [2147483647] else if T = 4294967295 then [3, 5, 17, 257, 65537] else []

/-- All prime factors that occur. -/
def primes : List Nat := [2, 3, 5, 7, 17, 31, 43, 127, 151, 257, 65537, 2147483647]

theorem primes_prime : ∀ q ∈ primes, q.Prime := by
  simp only [primes, List.forall_mem_cons, List.not_mem_nil, false_imp_iff, implies_true, and_true]
  refine ⟨?_, ?_, ?_, ?_, ?_, ?_, ?_, ?_, ?_, ?_, ?_, prime_m31⟩ <;> norm_num

/-- `orderCheck`, and the factors are prime. -/
def fullCheck {w : Nat} (P : BitVec w) (T : Nat) : Bool :=
  decide (0 < T) && (primeFactors T).all (primes.contains ·) && orderCheck P w T (primeFactors T)

theorem order_of_fullCheck {w : Nat} (hw : 0 < w) {P : BitVec w} {T : Nat} (h : fullCheck P T = true) : IsOrder P T := by
  simp only [fullCheck, Bool.and_eq_true, decide_eq_true_eq, List.all_eq_true] at h
  obtain ⟨⟨h1, h2⟩, h3⟩ := h
  exact order_of_check hw h1 (fun q hq => primes_prime q (by simpa using h2 q hq)) h3

theorem orders8_ok : ∀ x ∈ orders8, fullCheck x.1 x.2 = true := by decide +kernel
theorem orders16_ok : ∀ x ∈ orders16, fullCheck x.1 x.2 = true := by decide +kernel
theorem orders32_ok : ∀ x ∈ orders32, fullCheck x.1 x.2 = true := by decide +kernel

end IMU.Crc
