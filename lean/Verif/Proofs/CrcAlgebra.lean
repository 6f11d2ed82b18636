import Verif.Proofs.CrcBase

/-! # Linearity, injectivity, reflection -/

namespace IMU.Crc
open Spec.Crc

/-! ### Zero input -/

theorem step_zero {w : Nat} (P : BitVec w) : step P 0#w = 0#w := by
  unfold step feed; simp

theorem rounds_zero {w : Nat} (P : BitVec w) (n : Nat) : rounds (step P) n 0#w = 0#w := by
  induction n with
  | zero => rfl
  | succ n ih => rw [rounds, step_zero, ih]

theorem crcBits_zeros {w : Nat} (P : BitVec w) (n : Nat) : ∀ r, crcBits P r (List.replicate n false) = rounds (step P) n r := by
  induction n with
  | zero => intro r; rfl
  | succ n ih => intro r; rw [List.replicate_succ]; exact ih (feed P r false)

theorem rounds_add {α : Type} (f : α → α) (n k : Nat) : ∀ x, rounds f (n + k) x = rounds f k (rounds f n x) := by
  induction n with
  | zero => intro x; rw [Nat.zero_add]; rfl
  | succ n ih => intro x; rw [Nat.succ_add, rounds, ih]; rfl

/-! ### No information is lost -/

theorem step_eq_zero {w : Nat} {P : BitVec w} (hP : P.getLsbD 0 = true) {r : BitVec w} (h : step P r = 0#w) : r = 0#w := by
  have hw : 0 < w := by
    rcases Nat.eq_zero_or_pos w with h0 | h0
    · subst h0; simp at hP
    · exact h0
  rw [step_msb] at h
  cases hm : r.msb with
  | false =>
    rw [if_pos hm] at h
    apply BitVec.eq_of_getLsbD_eq
    intro i hi
    by_cases hl : i = w - 1
    · subst hl; rw [← BitVec.msb_eq_getLsbD_last, hm]; simp
    · have := congrArg (fun x => x.getLsbD (i + 1)) h
      simp only [BitVec.getLsbD_shiftLeft, BitVec.getLsbD_zero] at this
      have h1 : i + 1 < w := by omega
      simpa [h1] using this
  | true =>
    rw [if_neg (by simp [hm])] at h
    have := congrArg (fun x => x.getLsbD 0) h
    simp [hP] at this

theorem rounds_eq_zero {w : Nat} {P : BitVec w} (hP : P.getLsbD 0 = true) (n : Nat) :
    ∀ {r : BitVec w}, rounds (step P) n r = 0#w → r = 0#w := by
  induction n with
  | zero => intro r h; exact h
  | succ n ih => intro r h; exact step_eq_zero hP (ih h)

theorem top_eq_zero {w : Nat} {l : List Bool} (hl : l.length ≤ w) (h : top w l = 0#w) : ∀ b ∈ l, b = false := by
  intro b hb
  obtain ⟨i, hi, rfl⟩ := List.getElem_of_mem hb
  have := congrArg (fun x => x.getLsbD (w - 1 - i)) h
  simp only [top_bit, BitVec.getLsbD_zero] at this
  have h1 : w - 1 - i < w := by omega
  have h2 : w - 1 - (w - 1 - i) = i := by omega
  rw [h2, List.getElem?_eq_getElem hi] at this
  simpa [h1] using this

/-- An error pattern that is confined to `w` bits changes the checksum. -/
theorem burst {w : Nat} {P : BitVec w} (hP : P.getLsbD 0 = true) (k n : Nat) {e : List Bool} (he : e.length ≤ w)
    (hne : true ∈ e) : crcBits P 0#w (List.replicate k false ++ e ++ List.replicate n false) ≠ 0#w := by
  rw [crcBits_append, crcBits_append, crcBits_zeros, crcBits_zeros, rounds_zero, crcBits_top P e _ he, BitVec.zero_xor]
  intro h
  have := top_eq_zero he (rounds_eq_zero hP _ (rounds_eq_zero hP _ h)) true hne
  exact absurd this (by decide)

/-! ### Messages -/

theorem bitsOf_length (refin : Bool) (d : Byte) : (bitsOf refin d).length = 8 := by
  cases refin <;> rfl

theorem bits_length (refin : Bool) : ∀ msg : List Byte, (bits refin msg).length = 8 * msg.length := by
  intro msg
  induction msg with
  | nil => rfl
  | cons d msg ih => rw [bits_cons, List.length_append, ih, bitsOf_length, List.length_cons]; omega

theorem bitsOf_xor (refin : Bool) (a b : Byte) : bitsOf refin (a ^^^ b) = List.zipWith xor (bitsOf refin a) (bitsOf refin b) := by
  cases refin <;> simp [bitsOf, bitsMSB]

theorem zipWith_append' {α β γ : Type} (f : α → β → γ) : ∀ (a c : List α) (b d : List β), a.length = b.length →
    List.zipWith f (a ++ c) (b ++ d) = List.zipWith f a b ++ List.zipWith f c d := by
  intro a
  induction a with
  | nil => intro c b d h; cases b <;> simp_all
  | cons x a ih => intro c b d h; cases b with
    | nil => simp at h
    | cons y b => simp only [List.length_cons, Nat.add_right_cancel_iff] at h; simp [ih c b d h]

theorem bits_xor (refin : Bool) : ∀ a b : List Byte, a.length = b.length →
    bits refin (List.zipWith (· ^^^ ·) a b) = List.zipWith xor (bits refin a) (bits refin b) := by
  intro a
  induction a with
  | nil => intro b _; simp [bits]
  | cons x a ih =>
    intro b h
    cases b with
    | nil => simp at h
    | cons y b =>
      simp only [List.length_cons, Nat.add_right_cancel_iff] at h
      rw [List.zipWith_cons_cons, bits_cons, bits_cons, bits_cons, zipWith_append' _ _ _ _ _ (by rw [bitsOf_length, bitsOf_length]),
        ih b h, bitsOf_xor]

theorem reverse_xor {w : Nat} (a b : BitVec w) : (a ^^^ b).reverse = a.reverse ^^^ b.reverse := by
  apply BitVec.eq_of_getLsbD_eq
  intro i hi
  simp only [BitVec.getLsbD_reverse, BitVec.getLsbD_xor, BitVec.getMsbD_xor]

theorem reverse_zero (w : Nat) : (0#w).reverse = 0#w := by
  apply BitVec.eq_of_getLsbD_eq
  intro i hi
  rw [BitVec.getLsbD_reverse]; simp

theorem reverse_reverse {w : Nat} (a : BitVec w) : a.reverse.reverse = a := BitVec.reverse_reverse_eq

/-- The difference of two checksums. -/
theorem crc_xor {w : Nat} (p : Params w) (i j : BitVec w) (a b : List Byte) (h : a.length = b.length) :
    crc { p with init := i } a ^^^ crc { p with init := j } b =
      crc { p with init := i ^^^ j, xorout := 0#w } (List.zipWith (· ^^^ ·) a b) := by
  unfold crc
  dsimp only
  have hl : (bits p.refin a).length = (bits p.refin b).length := by rw [bits_length, bits_length, h]
  rw [bits_xor _ _ _ h, ← crcBits_xor _ _ _ _ _ hl]
  have e : ∀ x y z : BitVec w, (x ^^^ z) ^^^ (y ^^^ z) = (x ^^^ y) ^^^ 0#w := by
    intro x y z
    rw [BitVec.xor_zero, BitVec.xor_assoc, BitVec.xor_comm y z, xxc]
  rw [e]
  cases p.refout
  · rfl
  · rw [if_pos rfl, if_pos rfl, if_pos rfl, reverse_xor]

theorem crc_eq_iff {w : Nat} (p : Params w) (a b : List Byte) (h : a.length = b.length) :
    crc p a = crc p b ↔ crcBits p.poly 0#w (List.zipWith xor (bits p.refin a) (bits p.refin b)) = 0#w := by
  have hx := crc_xor p p.init p.init a b h
  have e : crc p a = crc p b ↔ crc p a ^^^ crc p b = 0#w := BitVec.xor_eq_zero_iff.symm
  rw [e]
  show crc { p with init := p.init } a ^^^ crc { p with init := p.init } b = 0#w ↔ _
  rw [hx, BitVec.xor_self]
  unfold crc
  dsimp only
  rw [bits_xor _ _ _ h, BitVec.xor_zero]
  cases p.refout
  · exact Iff.rfl
  · rw [if_pos rfl]
    constructor
    · intro hz
      rw [← reverse_reverse (crcBits _ _ _), hz, reverse_zero]
    · intro hz
      rw [hz, reverse_zero]

/-! ### The mirrored algorithm -/

theorem reverse_shl {w : Nat} (r : BitVec w) (n : Nat) : (r <<< n).reverse = r.reverse >>> n := by
  apply BitVec.eq_of_getLsbD_eq
  intro i hi
  rw [BitVec.getLsbD_reverse, BitVec.getLsbD_ushiftRight, BitVec.getLsbD_reverse, BitVec.getMsbD_eq_getLsbD,
    BitVec.getMsbD_eq_getLsbD, BitVec.getLsbD_shiftLeft]
  by_cases h : n + i < w
  · have h1 : ¬ w - 1 - i < n := by omega
    have h2 : w - 1 - i < w := by omega
    have h3 : w - 1 - i - n = w - 1 - (n + i) := by omega
    simp [hi, h, h1, h2, h3]
  · have h1 : w - 1 - i < n := by omega
    simp [h, h1]

theorem step_reverse {w : Nat} (P r : BitVec w) : (step P r).reverse = stepLSB P.reverse r.reverse := by
  unfold step feed stepLSB
  rw [reverse_xor, reverse_shl, BitVec.getLsbD_reverse]
  have : r.getMsbD 0 = r.msb := rfl
  rw [this]
  cases r.msb
  · simp [reverse_zero]
  · simp

theorem rounds_reverse {w : Nat} (P : BitVec w) (n : Nat) : ∀ r : BitVec w,
    (rounds (step P) n r).reverse = rounds (stepLSB P.reverse) n r.reverse := by
  induction n with
  | zero => intro r; rfl
  | succ n ih => intro r; rw [rounds, ih, step_reverse]; rfl

theorem bitsMSB_rev_get (d : Byte) (i : Nat) : ((bitsMSB d).reverse[i]?).getD false = (decide (i < 8) && d.getLsbD i) := by
  match i with
  | 0 | 1 | 2 | 3 | 4 | 5 | 6 | 7 => rfl
  | i + 8 => simp [bitsMSB, show ¬ i + 8 < 8 by omega]

theorem top_rev {w : Nat} (hw : 8 ≤ w) (d : Byte) : (top w (bitsMSB d).reverse).reverse = d.setWidth w := by
  apply BitVec.eq_of_getLsbD_eq
  intro i hi
  rw [BitVec.getLsbD_reverse, BitVec.getMsbD_eq_getLsbD, top_bit, BitVec.getLsbD_setWidth]
  have h1 : w - 1 - i < w := by omega
  have h2 : w - 1 - (w - 1 - i) = i := by omega
  rw [h2, bitsMSB_rev_get]
  by_cases h8 : i < 8
  · simp [hi, h1, h8]
  · simp [hi, h8, BitVec.getLsbD_of_ge d i (by omega)]

/-- The register of the mirrored algorithm is the mirror image of the register. -/
theorem crcBits_reverse {w : Nat} (hw : 8 ≤ w) (P : BitVec w) : ∀ (msg : List Byte) (r : BitVec w),
    (crcBits P r (bits true msg)).reverse = crcLSB P.reverse r.reverse msg := by
  intro msg
  induction msg with
  | nil => intro r; rfl
  | cons d msg ih =>
    intro r
    rw [bits_cons, crcBits_append, ih]
    unfold crcLSB
    rw [List.foldl_cons]
    congr 1
    have hl : (bitsOf true d).length = 8 := bitsOf_length true d
    rw [crcBits_top P (bitsOf true d) r (by omega), hl, rounds_reverse, reverse_xor]
    congr 2
    exact top_rev hw d

end IMU.Crc
