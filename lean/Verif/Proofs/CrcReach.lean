import Verif.Spec.CrcReach
import Verif.Proofs.CrcErrors

/-! # Codewords of small weight as sums of powers of the root -/

namespace IMU.Crc
open Spec.Crc Polynomial

section
variable {w : Nat} (P : BitVec w)

/-- The value of bits, the least significant first. -/
noncomputable def evB : List Bool → AdjoinRoot (divisor P)
  | [] => 0
  | b :: c => (if b then 1 else 0) + AdjoinRoot.root (divisor P) * evB c

theorem evB_poly (c : List Bool) : evB P c = AdjoinRoot.mk (divisor P) (polyBits c.reverse) := by
  induction c with
  | nil => simp [evB, polyBits]
  | cons b c ih =>
    rw [evB, ih, List.reverse_cons, polyBits_append, map_add, map_mul]
    cases b <;> simp [polyBits, gf, add_comm, mul_comm]

theorem root_unit (hw : 0 < w) {P : BitVec w} (hP : P.getLsbD 0 = true) : IsUnit (AdjoinRoot.root (divisor P)) := by
  obtain ⟨a, b, h⟩ := isCoprime_X hw hP
  have := congrArg (AdjoinRoot.mk (divisor P)) h
  rw [map_add, map_mul, map_mul, AdjoinRoot.mk_self, mul_zero, zero_add, AdjoinRoot.mk_X, map_one] at this
  exact IsUnit.of_mul_eq_one _ (by rw [mul_comm]; exact this)

theorem add_self (a : AdjoinRoot (divisor P)) : a + a = 0 := by
  obtain ⟨p, rfl⟩ := AdjoinRoot.mk_surjective a
  rw [← map_add, gf2_add_self, map_zero]

/-- The sum of powers of the root. -/
noncomputable def psum (E : List Nat) : AdjoinRoot (divisor P) := (E.map (AdjoinRoot.root (divisor P) ^ ·)).sum

theorem exps (c : List Bool) : ∀ k, ∃ E, List.Sublist E (List.range' k c.length) ∧ E.length = c.count true ∧
    AdjoinRoot.root (divisor P) ^ k * evB P c = psum P E := by
  induction c with
  | nil => intro k; exact ⟨[], by simp, by simp, by simp [evB, psum]⟩
  | cons b c ih =>
    intro k
    obtain ⟨E, h1, h2, h3⟩ := ih (k + 1)
    rw [List.length_cons, List.range'_succ]
    cases b
    · refine ⟨E, h1.cons k, by simpa using h2, ?_⟩
      rw [← h3, evB, pow_succ]; simp [mul_assoc]
    · refine ⟨k :: E, h1.cons_cons k, by simp [h2], ?_⟩
      rw [psum, List.map_cons, List.sum_cons, ← psum, ← h3, evB, pow_succ]
      simp; ring

theorem exps_conv (m : Nat) : ∀ (k : Nat) (E : List Nat), List.Sublist E (List.range' k m) →
    ∃ c : List Bool, c.length = m ∧ c.count true = E.length ∧ AdjoinRoot.root (divisor P) ^ k * evB P c = psum P E := by
  induction m with
  | zero =>
    intro k E h
    simp at h
    subst h
    exact ⟨[], rfl, rfl, by simp [evB, psum]⟩
  | succ m ih =>
    intro k E h
    rw [List.range'_succ] at h
    cases h with
    | cons _ h =>
      obtain ⟨c, h1, h2, h3⟩ := ih (k + 1) E h
      exact ⟨false :: c, by simp [h1], by simpa using h2, by rw [← h3, evB, pow_succ]; simp [mul_assoc]⟩
    | @cons_cons E _ _ h =>
      obtain ⟨c, h1, h2, h3⟩ := ih (k + 1) E h
      refine ⟨true :: c, by simp [h1], by simp [h2], ?_⟩
      rw [psum, List.map_cons, List.sum_cons, ← psum, ← h3, evB, pow_succ]
      simp; ring

theorem codeword_exps (hw : 0 < w) {P : BitVec w} (hP : P.getLsbD 0 = true) (n : Nat) (c : List Bool) :
    c.length ≤ n → 0 < c.count true → evB P c = 0 → ∃ E, List.Sublist E (List.range' 1 (n - 1)) ∧
      E.length + 1 = c.count true ∧ 1 + psum P E = 0 := by
  induction c with
  | nil => intro _ h; simp at h
  | cons b c ih =>
    intro hl hc he
    rw [evB] at he
    cases b
    · simp only [Bool.false_eq_true, if_false, zero_add] at he
      obtain ⟨E, h1, h2, h3⟩ := ih (by simp at hl; omega) (by simpa using hc)
        ((root_unit hw hP).mul_right_eq_zero.mp he)
      exact ⟨E, h1, by simpa using h2, h3⟩
    · obtain ⟨E, h1, h2, h3⟩ := exps P c 1
      refine ⟨E, h1.trans (List.range'_sublist_right.mpr (by simp at hl; omega)), by simp [h2], ?_⟩
      rw [← h3, pow_one]
      simpa using he

/-- No sum of at most `k` different powers below `n`, the lowest being 1, vanishes. -/
def Det (k n : Nat) : Prop := ∀ E, List.Sublist E (List.range' 1 (n - 1)) → E.length + 1 ≤ k → 1 + psum P E ≠ 0

theorem Det.mono {P : BitVec w} {k k' n n' : Nat} (h : Det P k n) (hk : k' ≤ k) (hn : n' ≤ n) : Det P k' n' :=
  fun E h1 h2 => h E (h1.trans (List.range'_sublist_right.mpr (by omega))) (by omega)

theorem crcBits_eq_iff (hw : 0 < w) {P : BitVec w} (hP : P.getLsbD 0 = true) (r : BitVec w) {x y : List Bool}
    (h : x.length = y.length) : crcBits P r x = crcBits P r y ↔ evB P (List.zipWith xor x y).reverse = 0 := by
  rw [evB_poly, List.reverse_reverse, AdjoinRoot.mk_eq_zero, ← crcBits_eq_zero hw hP, ← BitVec.xor_eq_zero_iff,
    crcBits_xor P x y r r h, BitVec.xor_self]

theorem reach_of (hw : 0 < w) {P : BitVec w} (hP : P.getLsbD 0 = true) {k n : Nat} (hd : Det P k n) {E : List Nat}
    (hE : List.Sublist E (List.range' 1 n)) (hk : E.length + 1 ≤ k) (h0 : 1 + psum P E = 0) : IsReach P k n := by
  constructor
  · intro r x y hl hn h1 h2 hc
    rw [crcBits_eq_iff hw hP r hl] at hc
    obtain ⟨E, e1, e2, e3⟩ := codeword_exps hw hP n _ (by simp; omega) (by rw [List.count_reverse]; exact h1) hc
    rw [List.count_reverse] at e2
    exact hd E e1 (by rw [e2]; exact h2) e3
  · intro len hlen
    obtain ⟨c, c1, c2, c3⟩ := exps_conv P (len - 1) 1 E (hE.trans (List.range'_sublist_right.mpr (by omega)))
    have hz : List.zipWith xor (true :: c).reverse (List.replicate len false) = (true :: c).reverse := by
      apply List.ext_getElem
      · simp; omega
      · intro i h1 h2; simp
    refine ⟨(true :: c).reverse, List.replicate len false, by simp; omega, by simp, ?_, ?_, ?_⟩
    · rw [diff, hz, List.count_reverse]; simp
    · rw [diff, hz, List.count_reverse]; simp; omega
    · intro r
      rw [crcBits_eq_iff hw hP r (by simp; omega), hz, List.reverse_reverse, evB]
      rw [pow_one] at c3
      rw [c3]; simpa using h0

/-! ### Parity and order -/

theorem det_odd {P : BitVec w} (h : weight P % 2 = 1) {k n : Nat} (hk : k % 2 = 1) (hd : Det P (k - 1) n) : Det P k n := by
  intro E h1 h2 h3
  by_cases hl : E.length + 1 = k
  · obtain ⟨c, c1, c2, c3⟩ := exps_conv P (n - 1) 1 E h1
    have : divisor P ∣ polyBits (true :: c).reverse := by
      rw [← AdjoinRoot.mk_eq_zero, ← evB_poly, evB]
      rw [pow_one] at c3
      rw [c3]; simpa using h3
    have := count_even h this
    rw [List.count_reverse] at this
    simp at this
    omega
  · exact hd E h1 (by omega) h3

theorem det_two {P : BitVec w} (hw : 0 < w) {T : Nat} (hT : IsOrder P T) : Det P 2 T := by
  intro E h1 h2 h3
  match E, h2 with
  | [], _ =>
    simp only [psum, List.map_nil, List.sum_nil, add_zero] at h3
    have : Nontrivial (AdjoinRoot (divisor P)) :=
      AdjoinRoot.nontrivial _ (by rw [divisor_degree]; exact_mod_cast (by omega : w ≠ 0))
    exact one_ne_zero h3
  | [a], _ =>
    have ha : a ∈ List.range' 1 (T - 1) := h1.subset (by simp)
    rw [List.mem_range'_1] at ha
    simp only [psum, List.map_cons, List.map_nil, List.sum_cons, List.sum_nil, add_zero] at h3
    refine hT.2.2 a (by omega) (by omega) ((dvd_iff_pow P a).mpr ?_)
    have := add_self P (AdjoinRoot.root (divisor P) ^ a)
    linear_combination this - h3

theorem miss_two {P : BitVec w} {T : Nat} (hT : IsOrder P T) : 1 + psum P [T] = 0 := by
  have := (dvd_iff_pow P T).mp hT.2.1
  simp only [psum, List.map_cons, List.map_nil, List.sum_cons, List.sum_nil, add_zero, this]
  exact add_self P 1

theorem sub_T {T : Nat} (h : 0 < T) : List.Sublist [T] (List.range' 1 T) := by
  rw [List.singleton_sublist, List.mem_range'_1]; omega

/-! ### Bits determine the value -/

theorem polyBits_degree (l : List Bool) : (polyBits l).degree < l.length := by
  rw [degree_lt_iff_coeff_zero]
  intro m hm
  have := polyBits_coeff l.reverse m
  rw [List.reverse_reverse] at this
  rw [this, List.getElem?_eq_none (by simpa using hm)]
  rfl

theorem evB_zero {P : BitVec w} {c : List Bool} (h : c.length ≤ w) (he : evB P c = 0) : ∀ b ∈ c, b = false := by
  rw [evB_poly, AdjoinRoot.mk_eq_zero] at he
  have hz : polyBits c.reverse = 0 := by
    apply eq_zero_of_dvd_of_degree_lt he
    rw [divisor_degree]
    refine lt_of_lt_of_le (polyBits_degree _) ?_
    rw [List.length_reverse]
    exact_mod_cast h
  intro b hb
  obtain ⟨i, hi, rfl⟩ := List.mem_iff_getElem.mp hb
  have := polyBits_coeff c i
  rw [hz, coeff_zero, List.getElem?_eq_getElem hi, Option.getD_some] at this
  revert this
  cases c[i] <;> simp [gf]

theorem evB_xor (P : BitVec w) : ∀ (c d : List Bool), c.length = d.length →
    evB P (List.zipWith xor c d) = evB P c + evB P d := by
  intro c
  induction c with
  | nil => intro d h; cases d <;> simp_all [evB]
  | cons b c ih =>
    intro d h
    cases d with
    | nil => simp at h
    | cons b' d =>
      rw [List.zipWith_cons_cons, evB, ih d (by simpa using h), evB, evB]
      have := add_self P 1
      cases b <;> cases b' <;> simp <;> first | ring1 | linear_combination -this

theorem evB_inj {P : BitVec w} {c d : List Bool} (hc : c.length = w) (hd : d.length = w) (h : evB P c = evB P d) :
    c = d := by
  have hx := evB_xor P c d (by omega)
  rw [h, add_self] at hx
  have := evB_zero (by simp; omega) hx
  apply List.ext_getElem (by omega)
  intro i h1 h2
  have hb := this (xor c[i] d[i]) (List.mem_iff_getElem.mpr ⟨i, by simp; omega, by simp⟩)
  revert hb
  cases c[i] <;> cases d[i] <;> simp

/-- A codeword shorter than the divisor is none. -/
theorem det_short {P : BitVec w} (hw : 0 < w) (k : Nat) : Det P k w := by
  intro E h1 _ h3
  obtain ⟨c, c1, c2, c3⟩ := exps_conv P (w - 1) 1 E h1
  rw [pow_one] at c3
  have := evB_zero (P := P) (c := true :: c) (by simp; omega) (by rw [evB, c3]; simpa using h3) true (by simp)
  simp at this

theorem evB_append (P : BitVec w) (c d : List Bool) :
    evB P (c ++ d) = evB P c + AdjoinRoot.root (divisor P) ^ c.length * evB P d := by
  induction c with
  | nil => simp [evB]
  | cons b c ih => rw [List.cons_append, evB, ih, evB, List.length_cons, pow_succ]; ring

/-! ### Multiplication by the root -/

/-- The bits of the polynomial without its leading term, the least significant first. -/
def pb (P : BitVec w) : List Bool := (List.range w).map P.getLsbD

theorem pb_length : (pb P).length = w := by simp [pb]

theorem evB_pb : evB P (pb P) = AdjoinRoot.root (divisor P) ^ w := by
  have h1 : (pb P).reverse = regBits P := by
    unfold pb regBits
    apply List.ext_getElem
    · simp
    · intro i h1 h2; simp
  have h2 : AdjoinRoot.mk (divisor P) (divisor P) = 0 := AdjoinRoot.mk_self
  rw [evB_poly, h1, polyBits_regBits]
  rw [show divisor P = X ^ w + polyOf P from rfl, map_add, map_pow, ← show divisor P = X ^ w + polyOf P from rfl,
    AdjoinRoot.mk_X] at h2
  have := add_self P (AdjoinRoot.root (divisor P) ^ w)
  linear_combination h2 - this

/-- The bits of `x` times the value, the polynomial being given by its bits. -/
def stepB (p c : List Bool) : List Bool :=
  if c.getLastD false then List.zipWith xor (false :: c.dropLast) p else false :: c.dropLast

theorem stepB_length {p c : List Bool} (hw : 0 < w) (hp : p.length = w) (hc : c.length = w) : (stepB p c).length = w := by
  unfold stepB
  split <;> simp <;> omega

theorem evB_stepB (hw : 0 < w) {c : List Bool} (hc : c.length = w) :
    evB P (stepB (pb P) c) = AdjoinRoot.root (divisor P) * evB P c := by
  rcases List.eq_nil_or_concat c with rfl | ⟨d, b, rfl⟩
  · simp at hc; omega
  · have hd : d.length + 1 = w := by simpa using hc
    have hl : (d.concat b).getLastD false = b := by simp [List.getLastD_eq_getLast?]
    unfold stepB
    rw [hl, List.concat_eq_append, List.dropLast_concat, evB_append]
    simp only [evB, mul_zero, add_zero]
    cases b
    · simp [evB]
    · simp only [if_true]
      rw [evB_xor P _ _ (by rw [pb_length]; simp; omega), evB_pb, evB]
      have : AdjoinRoot.root (divisor P) ^ w = AdjoinRoot.root (divisor P) ^ d.length * AdjoinRoot.root (divisor P) := by
        rw [← pow_succ, hd]
      rw [this]
      simp; ring

end
end IMU.Crc
