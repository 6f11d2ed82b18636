import Verif.Proofs.CrcReachSmall

/-! # Three and four terms where the order is a Fermat prime -/

namespace IMU.Crc
open Spec.Crc Polynomial

section
variable {w : Nat} {P : BitVec w}

theorem char_two (hw : 0 < w) : CharP (AdjoinRoot (divisor P)) 2 := by
  have : Nontrivial (AdjoinRoot (divisor P)) :=
    AdjoinRoot.nontrivial _ (by rw [divisor_degree]; exact_mod_cast (by omega : w ≠ 0))
  exact charP_of_injective_algebraMap (algebraMap (ZMod 2) (AdjoinRoot (divisor P))).injective 2

/-- Where the divisor has an odd number of terms, `x + 1` is invertible. -/
theorem unit_succ (h : weight P % 2 = 0) : IsUnit (AdjoinRoot.root (divisor P) + 1) := by
  obtain ⟨q, hq⟩ := X_sub_C_dvd_sub_C_eval (a := (1 : ZMod 2)) (p := divisor P)
  have he : (divisor P).eval 1 = 1 := by
    rw [eval_divisor]
    have : weight P + 1 = 2 * (weight P / 2) + 1 := by omega
    rw [this]
    push_cast
    rw [show (2 : ZMod 2) = 0 from rfl]; simp
  rw [he] at hq
  have := congrArg (AdjoinRoot.mk (divisor P)) hq
  rw [map_sub, map_mul, AdjoinRoot.mk_self, map_sub, AdjoinRoot.mk_X, map_one, map_one] at this
  refine IsUnit.of_mul_eq_one (AdjoinRoot.mk (divisor P) q) ?_
  have h1 := add_self P 1
  linear_combination (AdjoinRoot.mk (divisor P) q - 1) * h1 - this

/-- With a prime order all `x ^ a + 1` are. -/
theorem unit_pow {T : Nat} (hT : IsOrder P T) (hp : T.Prime) (h : weight P % 2 = 0) {a : Nat} (h0 : 0 < a) (h1 : a < T) :
    IsUnit (AdjoinRoot.root (divisor P) ^ a + 1) := by
  have hc : Nat.Coprime a T := (Nat.Coprime.symm ((Nat.Prime.coprime_iff_not_dvd hp).mpr (Nat.not_dvd_of_pos_of_lt h0 h1)))
  obtain ⟨m, hm⟩ := Nat.exists_mul_mod_eq_one_of_coprime hc hp.one_lt
  have ht := (dvd_iff_pow P T).mp hT.2.1
  have he : AdjoinRoot.root (divisor P) ^ (a * m) = AdjoinRoot.root (divisor P) := by
    rw [← Nat.div_add_mod (a * m) T, hm.2, pow_add, pow_mul, ht, one_pow, one_mul, pow_one]
  have hd : AdjoinRoot.root (divisor P) ^ a - 1 ∣ AdjoinRoot.root (divisor P) - 1 := by
    have := sub_dvd_pow_sub_pow (AdjoinRoot.root (divisor P) ^ a) 1 m
    rwa [← pow_mul, he, one_pow] at this
  have e : ∀ z : AdjoinRoot (divisor P), z - 1 = z + 1 := fun z => by linear_combination -add_self P 1
  rw [e, e] at hd
  exact isUnit_of_dvd_unit hd (unit_succ h)

theorem four_terms (hw : 0 < w) {T m : Nat} (hT : IsOrder P T) (hm : T = 2 ^ m + 1) (h3T : T ≠ 3) (hp : T.Prime)
    (h : weight P % 2 = 0) : Det P 4 T := by
  haveI := char_two (P := P) hw
  haveI : Fact (Nat.Prime 2) := ⟨Nat.prime_two⟩
  have ht := (dvd_iff_pow P T).mp hT.2.1
  have inv : ∀ a, AdjoinRoot.root (divisor P) ^ a * (AdjoinRoot.root (divisor P) ^ a) ^ 2 ^ m = 1 := by
    intro a
    rw [← pow_succ', ← pow_mul, ← hm, mul_comm, pow_mul, ht, one_pow]
  have frob : ∀ y z : AdjoinRoot (divisor P), (y + z) ^ 2 ^ m = y ^ 2 ^ m + z ^ 2 ^ m := fun y z => add_pow_char_pow y z 2 m
  have two : ∀ z : AdjoinRoot (divisor P), z + z = 0 := add_self P
  have nt : Nontrivial (AdjoinRoot (divisor P)) :=
    AdjoinRoot.nontrivial _ (by rw [divisor_degree]; exact_mod_cast (by omega : w ≠ 0))
  intro E h1 h2 h3
  have hpw : E.Pairwise (· < ·) := (List.pairwise_lt_range' (s := 1) (n := T - 1)).sublist h1
  have hb : ∀ e ∈ E, 0 < e ∧ e < T := fun e he => by
    have := List.mem_range'_1.mp (h1.subset he); omega
  match E, h2 with
  | [], h2 => exact det_two hw hT [] h1 (by simp) h3
  | [a], h2 => exact det_two hw hT [a] h1 (by simp) h3
  | [a, b], _ =>
    simp only [psum, List.map_cons, List.map_nil, List.sum_cons, List.sum_nil, add_zero] at h3
    have ia := inv a
    have ib := inv b
    have ha := hb a (by simp)
    set u := AdjoinRoot.root (divisor P) ^ a with hu
    set v := AdjoinRoot.root (divisor P) ^ b with hv
    have h4 : 1 + (u ^ 2 ^ m + v ^ 2 ^ m) = 0 := by
      have := congrArg (· ^ 2 ^ m) h3
      simp only [frob] at this
      rw [one_pow, zero_pow (by positivity)] at this
      exact this
    generalize u ^ 2 ^ m = u' at *
    generalize v ^ 2 ^ m = v' at *
    have hvv : v = 1 + u := by linear_combination h3 - two (1 + u)
    have hvv' : v' = 1 + u' := by linear_combination h4 - two (1 + u')
    have h5 : u * u + u + 1 = 0 := by
      rw [hvv, hvv'] at ib
      -- (1+u)(1+u') = 1 and u u' = 1
      have : u + u' + 1 = 0 := by linear_combination ib - ia
      linear_combination u * this - ia
    have h6 : u ^ 3 = 1 := by linear_combination (u - 1) * h5
    rw [hu, ← pow_mul, ← dvd_iff_pow, order_dvd hT] at h6
    rcases (Nat.Prime.dvd_mul hp).mp h6 with h7 | h7
    · exact Nat.not_dvd_of_pos_of_lt ha.1 ha.2 h7
    · exact h3T ((Nat.prime_dvd_prime_iff_eq hp Nat.prime_three).mp h7)
  | [a, b, c], _ =>
    simp only [psum, List.map_cons, List.map_nil, List.sum_cons, List.sum_nil, add_zero] at h3
    have ia := inv a
    have ib := inv b
    have ic := inv c
    have ha := hb a (by simp)
    have hbb := hb b (by simp)
    have hab : a < b := by simp at hpw; omega
    have u1 := unit_pow hT hp h ha.1 ha.2
    have u2 := unit_pow hT hp h hbb.1 hbb.2
    have u3 := unit_pow hT hp h (a := b - a) (by omega) (by omega)
    have ua : IsUnit (AdjoinRoot.root (divisor P) ^ a) := IsUnit.of_mul_eq_one _ ia
    have e3 : AdjoinRoot.root (divisor P) ^ a * (AdjoinRoot.root (divisor P) ^ (b - a) + 1) =
        AdjoinRoot.root (divisor P) ^ a + AdjoinRoot.root (divisor P) ^ b := by
      rw [mul_add, ← pow_add, show a + (b - a) = b by omega]; ring
    have u4 := ua.mul u3
    rw [e3] at u4
    set u := AdjoinRoot.root (divisor P) ^ a with hu
    set v := AdjoinRoot.root (divisor P) ^ b with hv
    set t := AdjoinRoot.root (divisor P) ^ c with htt
    have h4 : 1 + (u ^ 2 ^ m + (v ^ 2 ^ m + t ^ 2 ^ m)) = 0 := by
      have := congrArg (· ^ 2 ^ m) h3
      simp only [frob] at this
      rw [one_pow, zero_pow (by positivity)] at this
      exact this
    generalize u ^ 2 ^ m = u' at *
    generalize v ^ 2 ^ m = v' at *
    generalize t ^ 2 ^ m = t' at *
    have h5 : t = 1 + u + v := by linear_combination h3 - two (1 + u + v)
    have h6 : t' = 1 + u' + v' := by linear_combination h4 - two (1 + u' + v')
    rw [h5, h6] at ic
    have h7 : (u + 1) * (v + 1) * (u + v) = 0 := by
      have e1 : (1 + u + v) * (u * v + v + u) = u * v := by
        linear_combination u * v * ic - (1 + u + v) * v * ia - (1 + u + v) * u * ib
      linear_combination e1
    exact ((u1.mul u2).mul u4).ne_zero h7
  | a :: b :: c :: d :: E, h2 => simp at h2; omega

end

theorem reach_A833 : ∀ k, 2 ≤ k → k ≤ 4 → IsReach (0xA833982B#32) k 65537 := by
  intro k h1 h2
  have hT : IsOrder (0xA833982B#32) 65537 := order_of_fullCheck (by decide) (orders32_ok (0xA833982B#32, 65537) (by decide))
  have hd : Det (0xA833982B#32) 4 65537 := four_terms (m := 16) (by decide) hT rfl (by decide) (primes_prime 65537 (by decide)) (by decide +kernel)
  exact reach_of (by decide) (by decide) (hd.mono h2 (Nat.le_refl _)) (sub_T (by decide)) (by simpa using h1) (miss_two hT)

end IMU.Crc
