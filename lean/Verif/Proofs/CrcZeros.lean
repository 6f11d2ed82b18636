import Verif.Proofs.CrcOrders
import Verif.Proofs.CrcVariants
import Verif.Spec.CrcZeros
import Mathlib.Dynamics.PeriodicPts.Defs

/-! # Zero bytes at the ends -/

namespace IMU.Crc
open Spec.Crc Polynomial

theorem rounds_iterate {α : Type} (f : α → α) (n : Nat) : ∀ x, rounds f n x = f^[n] x := by
  induction n with
  | zero => intro x; rfl
  | succ n ih => intro x; rw [rounds, ih]; rfl

theorem mk_rounds {w : Nat} (hw : 0 < w) (P : BitVec w) (n : Nat) : ∀ v : BitVec w,
    AdjoinRoot.mk (divisor P) (polyOf (rounds (step P) n v)) =
      AdjoinRoot.root (divisor P) ^ n * AdjoinRoot.mk (divisor P) (polyOf v) := by
  induction n with
  | zero => intro v; simp [rounds]
  | succ n ih => intro v; rw [rounds, ih, mk_step hw, pow_succ]; ring

theorem rounds_eq_mulmod {w : Nat} (hw : 0 < w) (P v : BitVec w) (l : List Bool) :
    rounds (step P) (numMSB l) v = mulmod P (xpow P l) v := by
  apply mk_inj (P := P)
  rw [mk_rounds hw, mk_mulmod hw, mk_xpow hw]

/-- The check that `k` zero bytes, and no smaller positive number of them, take the register `v` to itself. -/
def zeroCheck {w : Nat} (P v : BitVec w) (k : Nat) : Bool :=
  decide (0 < k) && (primeFactors k).all (primes.contains ·) && (primeFactors k).prod == k &&
  numMSB (digits 40 (8 * k)) == 8 * k && mulmod P (xpow P (digits 40 (8 * k))) v == v &&
    (primeFactors k).all (fun q => numMSB (digits 40 (8 * (k / q))) == 8 * (k / q) &&
      mulmod P (xpow P (digits 40 (8 * (k / q)))) v != v)

theorem rounds_mul {α : Type} (f : α → α) (a n : Nat) (x : α) : rounds f (a * n) x = (rounds f a)^[n] x := by
  rw [rounds_iterate, Function.iterate_mul]
  congr 1
  funext y
  rw [rounds_iterate]

theorem zero_period {w : Nat} (hw : 0 < w) {P v : BitVec w} {k : Nat} (h : zeroCheck P v k = true) (n : Nat) :
    rounds (step P) (8 * n) v = v ↔ k ∣ n := by
  simp only [zeroCheck, Bool.and_eq_true, beq_iff_eq, List.all_eq_true, bne_iff_ne, ne_eq, decide_eq_true_eq] at h
  obtain ⟨⟨⟨⟨⟨h0, hp⟩, h1⟩, h2⟩, h3⟩, h4⟩ := h
  have hpr : ∀ q ∈ primeFactors k, q.Prime := fun q hq => primes_prime q (by simpa using hp q hq)
  have hk : Function.IsPeriodicPt (rounds (step P) 8) k v := by
    show (rounds (step P) 8)^[k] v = v
    rw [← rounds_mul, ← h2, rounds_eq_mulmod hw, h3]
  have hd := hk.minimalPeriod_dvd
  have he : Function.minimalPeriod (rounds (step P) 8) v = k := by
    by_contra hne
    obtain ⟨c, hc⟩ := hd
    have hc1 : c ≠ 1 := by intro h; subst h; rw [Nat.mul_one] at hc; exact hne hc.symm
    obtain ⟨q, hq, hqc⟩ := Nat.exists_prime_and_dvd hc1
    have hqk : q ∣ k := by rw [hc]; exact hqc.mul_left _
    have hqk' : q ∣ (primeFactors k).prod := by rw [h1]; exact hqk
    obtain ⟨a, ha, hqa⟩ := (Prime.dvd_prod_iff hq.prime).mp hqk'
    have : q = a := (Nat.prime_dvd_prime_iff_eq hq (hpr a ha)).mp hqa
    subst this
    obtain ⟨h5, h6⟩ := h4 q ha
    apply h6
    rw [← rounds_eq_mulmod hw, h5, rounds_mul]
    show Function.IsPeriodicPt (rounds (step P) 8) (k / q) v
    rw [Function.isPeriodicPt_iff_minimalPeriod_dvd]
    obtain ⟨c', rfl⟩ := hqc
    refine ⟨c', ?_⟩
    have hq0 := hq.pos
    conv_lhs => rw [hc]
    rw [show Function.minimalPeriod (rounds (step P) 8) v * (q * c') = q * (Function.minimalPeriod (rounds (step P) 8) v * c') by ring,
      Nat.mul_div_cancel_left _ hq0]
  rw [rounds_mul, ← he, ← Function.isPeriodicPt_iff_minimalPeriod_dvd]
  rfl

theorem crc_eq_reg {w : Nat} (p : Params w) (x y : List Byte) :
    crc p x = crc p y ↔ crcBits p.poly p.init (bits p.refin x) = crcBits p.poly p.init (bits p.refin y) := by
  unfold crc
  dsimp only
  have hx : ∀ a b c : BitVec w, a ^^^ c = b ^^^ c ↔ a = b := by
    intro a b c
    refine ⟨fun h => ?_, fun h => by rw [h]⟩
    have := congrArg (· ^^^ c) h
    simpa [BitVec.xor_assoc] using this
  rw [hx]
  cases p.refout
  · exact Iff.rfl
  · simp only [if_true]
    refine ⟨fun h => ?_, fun h => by rw [h]⟩
    rw [← reverse_reverse (crcBits _ _ _), h, reverse_reverse]

theorem crcBits_inj {w : Nat} {P : BitVec w} (hP : P.getLsbD 0 = true) (l : List Bool) {r s : BitVec w} :
    crcBits P r l = crcBits P s l ↔ r = s := by
  refine ⟨fun h => ?_, fun h => by rw [h]⟩
  have h1 := crcBits_xor P l l r s rfl
  have h2 : List.zipWith xor l l = List.replicate l.length false := by
    apply List.ext_getElem
    · simp
    · intro i h1 h2; simp
  rw [h, BitVec.xor_self, h2, crcBits_zeros] at h1
  exact BitVec.xor_eq_zero_iff.mp (rounds_eq_zero hP _ h1.symm)

theorem leading_iff {w : Nat} (p : Params w) (hp : p.poly.getLsbD 0 = true) (n : Nat) (msg : List Byte) :
    crc p (zeros n ++ msg) = crc p msg ↔ rounds (step p.poly) (8 * n) p.init = p.init := by
  rw [crc_eq_reg, bits_append, crcBits_append, crcBits_inj hp, zeros, bits_zeros, crcBits_zeros]

theorem trailing_iff {w : Nat} (p : Params w) (hp : p.poly.getLsbD 0 = true) (h8 : 8 ∣ w) (n : Nat) {frame : List Byte}
    (h : crc p frame = residue p) :
    crc p (frame ++ zeros n) = residue p ↔
      rounds (step p.poly) (8 * n) (if p.refout then p.xorout.reverse else p.xorout) =
        if p.refout then p.xorout.reverse else p.xorout := by
  obtain ⟨v, rfl⟩ := h8
  rw [← h, crc_eq_reg, bits_append, crcBits_append, zeros, bits_zeros, crcBits_zeros]
  have hr : crcBits p.poly p.init (bits p.refin frame) =
      rounds (step p.poly) (8 * v) (if p.refout then p.xorout.reverse else p.xorout) := by
    have e := h
    unfold residue crc at e
    dsimp only at e
    rw [Nat.mul_div_cancel_left _ (by decide), bits_zeros, crcBits_zeros] at e
    have hx : ∀ a b c : BitVec (8 * v), a ^^^ c = b ^^^ c → a = b := by
      intro a b c h
      have := congrArg (· ^^^ c) h
      simpa [BitVec.xor_assoc] using this
    have e := hx _ _ _ e
    generalize (if p.refout then p.xorout.reverse else p.xorout) = z at e ⊢
    cases hro : p.refout <;> rw [hro] at e
    · exact e
    · simp only [if_true] at e
      rw [← reverse_reverse (crcBits _ _ _), e, reverse_reverse]
  rw [hr, ← rounds_add, Nat.add_comm, rounds_add, rounds_inj hp]

/-- The checks for a table of periods. -/
def periodsOk {w : Nat} (e : Entry w) (x : Nat × Nat) : Bool :=
  zeroCheck e.params.poly e.params.init x.1 &&
    zeroCheck e.params.poly (if e.params.refout then e.params.xorout.reverse else e.params.xorout) x.2

theorem periods8 : ∀ e ∈ catalogue8, ∀ x ∈ zeroPeriods, x.1 = e.name → periodsOk e x.2 = true := by decide +kernel
theorem periods16 : ∀ e ∈ catalogue16, ∀ x ∈ zeroPeriods, x.1 = e.name → periodsOk e x.2 = true := by decide +kernel
theorem periods32 : ∀ e ∈ catalogue32, ∀ x ∈ zeroPeriods, x.1 = e.name → periodsOk e x.2 = true := by decide +kernel

theorem periods_ok {w : Nat} {e : Entry w} {f : CrcFn w} (hf : Shipped w e f) {k k' : Nat}
    (hk : (e.name, k, k') ∈ zeroPeriods) :
    zeroCheck e.params.poly e.params.init k = true ∧
      zeroCheck e.params.poly (if e.params.refout then e.params.xorout.reverse else e.params.xorout) k' = true := by
  have h : periodsOk e (k, k') = true := by
    cases hf with
    | crc8 _ he _ => exact periods8 _ he _ hk rfl
    | crc16 _ he _ => exact periods16 _ he _ hk rfl
    | crc32 _ he _ => exact periods32 _ he _ hk rfl
  simpa [periodsOk] using h

theorem dead_iff {w : Nat} (p : Params w) (hp : p.poly.getLsbD 0 = true) (h8 : 8 ∣ w) (n : Nat) :
    crc p (zeros (w / 8 + n)) = residue p ↔
      rounds (step p.poly) (8 * n) p.init = if p.refout then p.xorout.reverse else p.xorout := by
  obtain ⟨v, rfl⟩ := h8
  unfold residue crc zeros
  dsimp only
  rw [Nat.mul_div_cancel_left _ (by decide), bits_zeros, bits_zeros, crcBits_zeros, crcBits_zeros, Nat.add_comm v n, Nat.mul_add,
    rounds_add]
  have hx : ∀ a b c : BitVec (8 * v), a ^^^ c = b ^^^ c ↔ a = b := by
    intro a b c
    refine ⟨fun h => ?_, fun h => by rw [h]⟩
    have := congrArg (· ^^^ c) h
    simpa [BitVec.xor_assoc] using this
  rw [hx]
  generalize (if p.refout then p.xorout.reverse else p.xorout) = z
  cases p.refout
  · exact rounds_inj hp _
  · simp only [if_true]
    refine ⟨fun h => (rounds_inj hp (8 * v)).mp ?_, fun h => by rw [h]⟩
    rw [← reverse_reverse (rounds (step p.poly) (8 * v) _), h, reverse_reverse]

theorem both_or_none {w : Nat} {e : Entry w} {f : CrcFn w} (hf : Shipped w e f) :
    e.params.init = 0#w ∨ e.params.xorout = 0#w ∨
      e.params.init = BitVec.allOnes w ∧ e.params.xorout = BitVec.allOnes w := by
  have h8 : ∀ e ∈ catalogue8, e.params.init = 0#8 ∨ e.params.xorout = 0#8 ∨
      e.params.init = BitVec.allOnes 8 ∧ e.params.xorout = BitVec.allOnes 8 := by decide +kernel
  have h16 : ∀ e ∈ catalogue16, e.params.init = 0#16 ∨ e.params.xorout = 0#16 ∨
      e.params.init = BitVec.allOnes 16 ∧ e.params.xorout = BitVec.allOnes 16 := by decide +kernel
  have h32 : ∀ e ∈ catalogue32, e.params.init = 0#32 ∨ e.params.xorout = 0#32 ∨
      e.params.init = BitVec.allOnes 32 ∧ e.params.xorout = BitVec.allOnes 32 := by decide +kernel
  cases hf with
  | crc8 _ he _ => exact h8 _ he
  | crc16 _ he _ => exact h16 _ he
  | crc32 _ he _ => exact h32 _ he

end IMU.Crc
