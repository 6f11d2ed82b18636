import Verif.Spec.CrcErrors
import Verif.Proofs.CrcPoly
import Verif.Proofs.CrcResidue
import Mathlib.RingTheory.AdjoinRoot
import Mathlib.GroupTheory.OrderOfElement
import Mathlib.RingTheory.Coprime.Basic
import Mathlib.Algebra.Field.ZMod

/-! # Undetected errors -/

namespace IMU.Crc
open Spec.Crc Polynomial

theorem gf_cast (b : Bool) : gf b = (b.toNat : ZMod 2) := by cases b <;> rfl

theorem isCoprime_X {w : Nat} (hw : 0 < w) {P : BitVec w} (hP : P.getLsbD 0 = true) : IsCoprime (divisor P) X := by
  have h0 : (divisor P).coeff 0 = 1 := by
    rw [divisor, coeff_add, polyOf_coeff, hP, coeff_X_pow, if_neg (by omega)]; rfl
  have h1 := divX_mul_X_add (divisor P)
  rw [h0, Polynomial.C_1] at h1
  exact ⟨1, -(divisor P).divX, by linear_combination -h1⟩

/-- An error pattern goes unnoticed exactly if its polynomial is a multiple of the divisor. -/
theorem crcBits_eq_zero {w : Nat} (hw : 0 < w) {P : BitVec w} (hP : P.getLsbD 0 = true) (l : List Bool) :
    crcBits P 0#w l = 0#w ↔ divisor P ∣ polyBits l := by
  have h := crcBits_rem hw P 0#w l
  rw [polyOf_zero, zero_mul, zero_add] at h
  have hc : IsCoprime (divisor P) (X ^ w) := (isCoprime_X hw hP).pow_right
  constructor
  · intro hz
    rw [hz, polyOf_zero] at h
    exact hc.dvd_of_dvd_mul_right ((modByMonic_eq_zero_iff_dvd (divisor_monic P)).mp h.symm)
  · intro hd
    have : (polyBits l * X ^ w) %ₘ divisor P = 0 := (modByMonic_eq_zero_iff_dvd (divisor_monic P)).mpr (hd.mul_right _)
    rw [this, ← polyOf_zero w] at h
    exact polyOf_inj h

/-! ### The number of errors -/

theorem eval_polyBits (l : List Bool) : (polyBits l).eval 1 = (l.count true : ZMod 2) := by
  induction l with
  | nil => simp [polyBits]
  | cons b l ih =>
    rw [polyBits, eval_add, ih, eval_mul, eval_pow, eval_X, one_pow, mul_one, eval_C, gf_cast]
    cases b <;> simp [add_comm]

theorem eval_divisor {w : Nat} (P : BitVec w) : (divisor P).eval 1 = (weight P + 1 : Nat) := by
  rw [divisor, eval_add, eval_pow, eval_X, one_pow, polyOf, eval_finset_sum, weight]
  push_cast
  rw [add_comm]
  congr 1
  apply Finset.sum_congr rfl
  intro i _
  rw [eval_mul, eval_C, eval_pow, eval_X, one_pow, mul_one, gf_cast]

theorem count_even {w : Nat} {P : BitVec w} (h : weight P % 2 = 1) {l : List Bool} (hd : divisor P ∣ polyBits l) :
    l.count true % 2 = 0 := by
  obtain ⟨q, hq⟩ := hd
  have := congrArg (fun p => p.eval 1) hq
  simp only [eval_mul, eval_polyBits, eval_divisor] at this
  have h2 : ((weight P + 1 : Nat) : ZMod 2) = 0 := (ZMod.natCast_eq_zero_iff _ 2).mpr (by omega)
  rw [h2, zero_mul] at this
  have := (ZMod.natCast_eq_zero_iff _ 2).mp this
  omega

/-- The bits of a register, most significant first. -/
def regBits {w : Nat} (r : BitVec w) : List Bool := (List.range w).map (fun i => r.getLsbD (w - 1 - i))

theorem polyBits_append (a b : List Bool) : polyBits (a ++ b) = polyBits a * X ^ b.length + polyBits b := by
  induction a with
  | nil => simp [polyBits]
  | cons x a ih => rw [List.cons_append, polyBits, ih, polyBits, List.length_append, pow_add]; ring

theorem polyBits_coeff (l : List Bool) (i : Nat) : (polyBits l.reverse).coeff i = gf ((l[i]?).getD false) := by
  induction l generalizing i with
  | nil => simp [polyBits, gf]
  | cons b l ih =>
    rw [List.reverse_cons, polyBits_append, coeff_add]
    cases i with
    | zero => simp [polyBits]
    | succ i => simp [polyBits, ih, coeff_C]

theorem polyBits_regBits {w : Nat} (r : BitVec w) : polyBits (regBits r) = polyOf r := by
  ext i
  have h := polyBits_coeff (regBits r).reverse i
  rw [List.reverse_reverse] at h
  rw [h, polyOf_coeff]
  congr 1
  have hl : (regBits r).length = w := by simp [regBits]
  by_cases hi : i < w
  · rw [List.getElem?_reverse (by omega), hl]
    unfold regBits
    rw [List.getElem?_map, List.getElem?_range (by omega)]
    simp only [Option.map_some, Option.getD_some]
    congr 1; omega
  · have hn : (regBits r).reverse[i]? = none := List.getElem?_eq_none (by rw [List.length_reverse]; omega)
    rw [hn, BitVec.getLsbD_of_ge r i (by omega)]; rfl

theorem count_regBits {w : Nat} (r : BitVec w) : (regBits r).count true = weight r := by
  have h : ∀ n, n ≤ w → ((List.range n).map (fun i => r.getLsbD (w - 1 - i))).count true =
      ∑ i ∈ Finset.range n, (r.getLsbD (w - 1 - i)).toNat := by
    intro n
    induction n with
    | zero => intro _; rfl
    | succ n ih =>
      intro hn
      rw [List.range_succ, List.map_append, List.count_append, ih (by omega), Finset.sum_range_succ]
      congr 1
      rw [List.map_singleton]
      generalize r.getLsbD (w - 1 - n) = b
      cases b <;> rfl
  rw [regBits, h w (Nat.le_refl _), weight]
  exact Finset.sum_range_reflect (fun i => (r.getLsbD i).toNat) w

theorem bits_surj (refin : Bool) (n : Nat) : ∀ l : List Bool, l.length = 8 * n → ∃ t : List Byte, t.length = n ∧ bits refin t = l := by
  induction n with
  | zero => intro l h; exact ⟨[], rfl, (List.length_eq_zero_iff.mp (by omega : l.length = 0)).symm⟩
  | succ n ih =>
    intro l h
    obtain ⟨t, ht, hb⟩ := ih (l.drop 8) (by rw [List.length_drop]; omega)
    have key : ∀ b0 b1 b2 b3 b4 b5 b6 b7 : Bool, ∀ r : Bool, ∃ d : Byte, bitsOf r d = [b0, b1, b2, b3, b4, b5, b6, b7] := by
      intro b0 b1 b2 b3 b4 b5 b6 b7 r
      cases r
      · exact ⟨BitVec.ofBoolListBE [b0, b1, b2, b3, b4, b5, b6, b7], by
          revert b0 b1 b2 b3 b4 b5 b6 b7; decide⟩
      · exact ⟨BitVec.ofBoolListBE [b7, b6, b5, b4, b3, b2, b1, b0], by
          revert b0 b1 b2 b3 b4 b5 b6 b7; decide⟩
    match l, h, hb with
    | b0 :: b1 :: b2 :: b3 :: b4 :: b5 :: b6 :: b7 :: l, h, hb =>
      obtain ⟨d, hd⟩ := key b0 b1 b2 b3 b4 b5 b6 b7 refin
      exact ⟨d :: t, by simp [ht], by rw [bits_cons, hd, hb]; rfl⟩

theorem count_bits (refin : Bool) (z : List Byte) : (bits refin z).count true = (bits false z).count true := by
  induction z with
  | nil => rfl
  | cons d z ih =>
    rw [bits_cons, bits_cons, List.count_append, List.count_append, ih]
    cases refin <;> simp [bitsOf]

theorem count_diff (refin : Bool) {x y : List Byte} (h : x.length = y.length) :
    (List.zipWith xor (bits refin x) (bits refin y)).count true = hamming x y := by
  rw [hamming, ← bits_xor _ _ _ h, ← bits_xor _ _ _ h, count_bits]

/-! ### Two errors -/

theorem polyBits_zeros (n : Nat) : polyBits (List.replicate n false) = 0 := by
  induction n with
  | zero => rfl
  | succ n ih => rw [List.replicate_succ, polyBits, ih]; simp [gf]

theorem two_pattern {i j : Nat} (hij : i < j) {x y : List Bool} (h : DifferAt i j x y) : ∃ k,
    List.zipWith xor x y = List.replicate i false ++ (true :: List.replicate (j - i - 1) false) ++ (true :: List.replicate k false) := by
  obtain ⟨hl, h⟩ := h
  have hj : j < x.length := by
    by_contra hc
    refine (h j).mpr (Or.inr rfl) ?_
    rw [List.getElem?_eq_none (by omega), List.getElem?_eq_none (by omega)]
  refine ⟨x.length - j - 1, ?_⟩
  have hz : ∀ k, k < x.length → (List.zipWith xor x y)[k]? = some (decide (k = i ∨ k = j)) := by
    intro k hk
    have hk2 : k < y.length := by omega
    rw [List.getElem?_zipWith, List.getElem?_eq_getElem hk, List.getElem?_eq_getElem hk2]
    have := h k
    rw [List.getElem?_eq_getElem hk, List.getElem?_eq_getElem hk2] at this
    by_cases hc : k = i ∨ k = j
    · have := this.mpr hc
      simp only [hc, decide_true]
      revert this
      cases x[k] <;> cases y[k] <;> simp
    · have := (not_congr this).mpr hc
      simp only [hc, decide_false]
      revert this
      cases x[k] <;> cases y[k] <;> simp
  apply List.ext_getElem?
  intro k
  by_cases hk : k < x.length
  · rw [hz k hk]
    symm
    by_cases h1 : k < i
    · rw [List.getElem?_append_left (by simp; omega), List.getElem?_append_left (by simpa using h1), List.getElem?_replicate, if_pos h1]
      have : ¬ (k = i ∨ k = j) := by omega
      simp [this]
    · by_cases h2 : k < j
      · rw [List.getElem?_append_left (by simp; omega), List.getElem?_append_right (by simp; omega), List.length_replicate]
        by_cases h3 : k = i
        · subst h3; simp
        · obtain ⟨n, hn⟩ : ∃ n, k - i = n + 1 := ⟨k - i - 1, by omega⟩
          rw [hn, List.getElem?_cons_succ, List.getElem?_replicate, if_pos (by omega)]
          have : ¬ (k = i ∨ k = j) := by omega
          simp [this]
      · rw [List.getElem?_append_right (by simp; omega)]
        have hlen : (List.replicate i false ++ true :: List.replicate (j - i - 1) false).length = j := by simp; omega
        rw [hlen]
        by_cases h3 : k = j
        · subst h3; simp
        · obtain ⟨n, hn⟩ : ∃ n, k - j = n + 1 := ⟨k - j - 1, by omega⟩
          rw [hn, List.getElem?_cons_succ, List.getElem?_replicate, if_pos (by omega)]
          have : ¬ (k = i ∨ k = j) := by omega
          simp [this]
  · rw [List.getElem?_eq_none (by rw [List.length_zipWith]; omega), List.getElem?_eq_none (by simp; omega)]

theorem two_dvd {w : Nat} (hw : 0 < w) {P : BitVec w} (hP : P.getLsbD 0 = true) (i d k : Nat) :
    divisor P ∣ polyBits (List.replicate i false ++ (true :: List.replicate d false) ++ (true :: List.replicate k false)) ↔
      divisor P ∣ X ^ (d + 1) - 1 := by
  have e : polyBits (List.replicate i false ++ (true :: List.replicate d false) ++ (true :: List.replicate k false)) =
      (X ^ (d + 1) - 1) * X ^ k := by
    have h1 : polyBits (true :: List.replicate d false) = X ^ d := by
      rw [polyBits, polyBits_zeros, List.length_replicate]; simp [gf]
    have h2 : polyBits (true :: List.replicate k false) = X ^ k := by
      rw [polyBits, polyBits_zeros, List.length_replicate]; simp [gf]
    rw [polyBits_append, polyBits_append, polyBits_zeros, h1, h2]
    simp only [List.length_cons, List.length_replicate]
    linear_combination gf2_add_self (X ^ k)
  have hc : IsCoprime (divisor P) (X ^ k) := (isCoprime_X hw hP).pow_right
  rw [e]
  exact ⟨hc.dvd_of_dvd_mul_right, fun h => h.mul_right _⟩

theorem dvd_iff_pow {w : Nat} (P : BitVec w) (n : Nat) :
    divisor P ∣ X ^ n - 1 ↔ AdjoinRoot.root (divisor P) ^ n = 1 := by
  rw [← AdjoinRoot.mk_eq_zero, map_sub, map_pow, AdjoinRoot.mk_X, map_one, sub_eq_zero]

theorem order_unique {w : Nat} {P : BitVec w} {T : Nat} (h : IsOrder P T) : orderOf (AdjoinRoot.root (divisor P)) = T := by
  obtain ⟨h0, h1, h2⟩ := h
  rw [orderOf_eq_iff h0]
  refine ⟨(dvd_iff_pow P T).mp h1, fun m hm hp hc => h2 m hp hm ((dvd_iff_pow P m).mpr hc)⟩

theorem order_dvd {w : Nat} {P : BitVec w} {T : Nat} (h : IsOrder P T) (n : Nat) : divisor P ∣ X ^ n - 1 ↔ T ∣ n := by
  rw [dvd_iff_pow, ← orderOf_dvd_iff_pow_eq_one, order_unique h]

/-! ### Few errors -/

theorem bits_inj {x y : List Byte} (h : bits false x = bits false y) : x = y := by
  have hl : x.length = y.length := by
    have := congrArg List.length h
    rw [bits_length, bits_length] at this
    omega
  apply Utils.valueBE_inj x y hl
  rw [← numMSB_bits, ← numMSB_bits, h]

theorem polyBits_count0 : ∀ l : List Bool, l.count true = 0 → polyBits l = 0 := by
  intro l
  induction l with
  | nil => intro _; rfl
  | cons b l ih =>
    intro h
    cases b
    · rw [polyBits, ih (by simpa using h)]; simp [gf]
    · simp at h

theorem polyBits_count1 : ∀ l : List Bool, l.count true = 1 → ∃ k, k < l.length ∧ polyBits l = X ^ k := by
  intro l
  induction l with
  | nil => intro h; simp at h
  | cons b l ih =>
    intro h
    cases b
    · obtain ⟨k, hk, e⟩ := ih (by simpa using h)
      exact ⟨k, by simp; omega, by rw [polyBits, e]; simp [gf]⟩
    · exact ⟨l.length, by simp, by rw [polyBits, polyBits_count0 l (by simpa using h)]; simp [gf]⟩

theorem polyBits_count2 : ∀ l : List Bool, l.count true = 2 → ∃ j k, k < j ∧ j < l.length ∧ polyBits l = X ^ j + X ^ k := by
  intro l
  induction l with
  | nil => intro h; simp at h
  | cons b l ih =>
    intro h
    cases b
    · obtain ⟨j, k, hk, hj, e⟩ := ih (by simpa using h)
      exact ⟨j, k, hk, by simp; omega, by rw [polyBits, e]; simp [gf]⟩
    · obtain ⟨k, hk, e⟩ := polyBits_count1 l (by simpa using h)
      exact ⟨l.length, k, hk, by simp, by rw [polyBits, e]; simp [gf]⟩

theorem not_dvd_X_pow {w : Nat} (hw : 0 < w) {P : BitVec w} (hP : P.getLsbD 0 = true) (k : Nat) : ¬ divisor P ∣ X ^ k := by
  intro h
  have hc : IsCoprime (divisor P) (X ^ k) := (isCoprime_X hw hP).pow_right
  have hu := hc.isUnit_of_dvd' dvd_rfl h
  have := degree_eq_zero_of_isUnit hu
  rw [divisor_degree] at this
  have : w = 0 := by exact_mod_cast this
  omega

theorem dvd_two {w : Nat} (hw : 0 < w) {P : BitVec w} (hP : P.getLsbD 0 = true) {j k : Nat} (hjk : k < j) :
    divisor P ∣ X ^ j + X ^ k ↔ divisor P ∣ X ^ (j - k) - 1 := by
  have e : (X ^ j + X ^ k : (ZMod 2)[X]) = (X ^ (j - k) - 1) * X ^ k := by
    rw [sub_mul, ← pow_add, Nat.sub_add_cancel (Nat.le_of_lt hjk), one_mul]
    linear_combination gf2_add_self (X ^ k)
  have hc : IsCoprime (divisor P) (X ^ k) := (isCoprime_X hw hP).pow_right
  rw [e]
  exact ⟨hc.dvd_of_dvd_mul_right, fun h => h.mul_right _⟩

/-! ### Computing the order -/

/-- The product of two registers modulo the divisor. -/
def mulmod {w : Nat} (P a b : BitVec w) : BitVec w :=
  (regBits b).foldl (fun acc bit => step P acc ^^^ (if bit then a else 0#w)) 0#w

/-- `x ^ n`, for the binary digits of `n`. -/
def xpow {w : Nat} (P : BitVec w) (l : List Bool) : BitVec w :=
  l.foldl (fun s bit => if bit then step P (mulmod P s s) else mulmod P s s) 1#w

theorem mk_step {w : Nat} (hw : 0 < w) (P r : BitVec w) :
    AdjoinRoot.mk (divisor P) (polyOf (step P r)) = AdjoinRoot.mk (divisor P) (polyOf r) * AdjoinRoot.root (divisor P) := by
  unfold step
  rw [polyOf_feed hw, map_add, map_add, map_mul, map_mul, map_mul, AdjoinRoot.mk_X, AdjoinRoot.mk_self, zero_mul, add_zero]
  simp [gf]

theorem mk_fold {w : Nat} (hw : 0 < w) (P a : BitVec w) : ∀ (l : List Bool) (acc : BitVec w),
    AdjoinRoot.mk (divisor P) (polyOf (l.foldl (fun acc bit => step P acc ^^^ (if bit then a else 0#w)) acc)) =
      AdjoinRoot.mk (divisor P) (polyOf acc) * AdjoinRoot.root (divisor P) ^ l.length +
      AdjoinRoot.mk (divisor P) (polyOf a) * AdjoinRoot.mk (divisor P) (polyBits l) := by
  intro l
  induction l with
  | nil => intro acc; simp [polyBits]
  | cons b l ih =>
    intro acc
    rw [List.foldl_cons, ih, polyOf_xor, map_add, mk_step hw, polyBits, map_add, map_mul, map_pow, AdjoinRoot.mk_X,
      List.length_cons]
    cases b
    · simp [gf, polyOf_zero]; ring
    · simp [gf]; ring

theorem mk_mulmod {w : Nat} (hw : 0 < w) (P a b : BitVec w) : AdjoinRoot.mk (divisor P) (polyOf (mulmod P a b)) =
    AdjoinRoot.mk (divisor P) (polyOf a) * AdjoinRoot.mk (divisor P) (polyOf b) := by
  unfold mulmod
  rw [mk_fold hw, polyBits_regBits, polyOf_zero]
  simp

theorem polyOf_one {w : Nat} (hw : 0 < w) : polyOf 1#w = 1 := by
  ext i
  rw [polyOf_coeff, coeff_one]
  cases i with
  | zero => simp [hw, gf]
  | succ i => simp [gf]

theorem mk_xpow_from {w : Nat} (hw : 0 < w) (P : BitVec w) : ∀ (l : List Bool) (s : BitVec w) (n : Nat),
    AdjoinRoot.mk (divisor P) (polyOf s) = AdjoinRoot.root (divisor P) ^ n →
    AdjoinRoot.mk (divisor P) (polyOf (l.foldl (fun s bit => if bit then step P (mulmod P s s) else mulmod P s s) s)) =
      AdjoinRoot.root (divisor P) ^ (l.foldl (fun a b => 2 * a + b.toNat) n) := by
  intro l
  induction l with
  | nil => intro s n h; exact h
  | cons b l ih =>
    intro s n h
    rw [List.foldl_cons, List.foldl_cons]
    apply ih
    cases b
    · simp only [Bool.false_eq_true, if_false]
      rw [mk_mulmod hw, h, ← pow_add]
      congr 1; simp; omega
    · simp only [if_true]
      rw [mk_step hw, mk_mulmod hw, h, ← pow_add, ← pow_succ]
      congr 1; simp; omega

theorem mk_xpow {w : Nat} (hw : 0 < w) (P : BitVec w) (l : List Bool) :
    AdjoinRoot.mk (divisor P) (polyOf (xpow P l)) = AdjoinRoot.root (divisor P) ^ numMSB l := by
  unfold xpow numMSB
  apply mk_xpow_from hw
  rw [polyOf_one hw]; simp

theorem mk_inj {w : Nat} {P r s : BitVec w} (h : AdjoinRoot.mk (divisor P) (polyOf r) = AdjoinRoot.mk (divisor P) (polyOf s)) : r = s := by
  have h1 : divisor P ∣ polyOf (r ^^^ s) := by
    rw [polyOf_xor, ← AdjoinRoot.mk_eq_zero, map_add, h, ← map_add, gf2_add_self, map_zero]
  have h2 : polyOf (r ^^^ s) = 0 := by
    by_contra hne
    have := degree_le_of_dvd h1 hne
    rw [divisor_degree] at this
    exact absurd (polyOf_degree (r ^^^ s)) (not_lt.mpr this)
  rw [← polyOf_zero w] at h2
  exact BitVec.xor_eq_zero_iff.mp (polyOf_inj h2)

theorem xpow_eq_one {w : Nat} (hw : 0 < w) (P : BitVec w) (l : List Bool) :
    AdjoinRoot.root (divisor P) ^ numMSB l = 1 ↔ xpow P l = 1#w := by
  rw [← mk_xpow hw]
  constructor
  · intro h
    apply mk_inj (P := P)
    rw [h, polyOf_one hw, map_one]
  · intro h
    rw [h, polyOf_one hw, map_one]

/-- The binary digits of a number below `2 ^ k`. -/
def digits (k n : Nat) : List Bool := (List.range k).map (fun i => n.testBit (k - 1 - i))

/-- The check for an order `T` with the prime factors `ps`. -/
def orderCheck {w : Nat} (P : BitVec w) (k T : Nat) (ps : List Nat) : Bool :=
  numMSB (digits k T) == T && ps.prod == T && xpow P (digits k T) == 1#w &&
    ps.all (fun q => numMSB (digits k (T / q)) == T / q && xpow P (digits k (T / q)) != 1#w)

theorem order_of_check {w : Nat} (hw : 0 < w) {P : BitVec w} {k T : Nat} {ps : List Nat} (hT : 0 < T)
    (hp : ∀ q ∈ ps, q.Prime) (h : orderCheck P k T ps = true) : IsOrder P T := by
  simp only [orderCheck, Bool.and_eq_true, beq_iff_eq, List.all_eq_true, bne_iff_ne, ne_eq] at h
  obtain ⟨⟨⟨h1, h2⟩, h3⟩, h4⟩ := h
  have ho : orderOf (AdjoinRoot.root (divisor P)) = T := by
    apply orderOf_eq_of_pow_and_pow_div_prime hT
    · rw [← h1, xpow_eq_one hw, h3]
    · intro q hq hd
      rw [← h2] at hd
      obtain ⟨a, ha, hqa⟩ := (Prime.dvd_prod_iff hq.prime).mp hd
      have : q = a := (Nat.prime_dvd_prime_iff_eq hq (hp a ha)).mp hqa
      subst this
      obtain ⟨h5, h6⟩ := h4 q ha
      rw [← h5, Ne, xpow_eq_one hw]
      exact h6
  rw [orderOf_eq_iff hT] at ho
  exact ⟨hT, (dvd_iff_pow P T).mpr ho.1, fun n h0 hn hd => ho.2 n hn h0 ((dvd_iff_pow P n).mp hd)⟩

end IMU.Crc
