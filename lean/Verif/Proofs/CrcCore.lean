import Verif.Spec.Crc

/-! # The register, without memory -/

namespace IMU.Crc
open Spec.Crc

/-- One division step without input. -/
def step {w : Nat} (P r : BitVec w) : BitVec w := feed P r false

theorem xlc {w : Nat} (a b c : BitVec w) : a ^^^ (b ^^^ c) = b ^^^ (a ^^^ c) := by
  rw [← BitVec.xor_assoc, BitVec.xor_comm a b, BitVec.xor_assoc]

theorem xxc {w : Nat} (a b : BitVec w) : a ^^^ (a ^^^ b) = b := by
  rw [← BitVec.xor_assoc, BitVec.xor_self, BitVec.zero_xor]

theorem step_xor {w : Nat} (P r s : BitVec w) : step P (r ^^^ s) = step P r ^^^ step P s := by
  unfold step feed
  rw [BitVec.shiftLeft_xor_distrib, BitVec.msb_xor]
  cases r.msb <;> cases s.msb <;> simp [BitVec.xor_assoc, BitVec.xor_comm, xlc, xxc]

theorem feed_xor {w : Nat} (P r s : BitVec w) (a b : Bool) : feed P (r ^^^ s) (a ^^ b) = feed P r a ^^^ feed P s b := by
  unfold feed
  rw [BitVec.shiftLeft_xor_distrib, BitVec.msb_xor]
  cases r.msb <;> cases s.msb <;> cases a <;> cases b <;> simp [BitVec.xor_assoc, BitVec.xor_comm, xlc, xxc]

theorem rounds_succ' {α : Type} (f : α → α) (n : Nat) : ∀ x, rounds f (n + 1) x = f (rounds f n x) := by
  induction n with
  | zero => intro x; rfl
  | succ n ih => intro x; rw [rounds, ih]; rfl

theorem rounds_xor {w : Nat} (P : BitVec w) (n : Nat) : ∀ r s : BitVec w,
    rounds (step P) n (r ^^^ s) = rounds (step P) n r ^^^ rounds (step P) n s := by
  induction n with
  | zero => intro r s; rfl
  | succ n ih => intro r s; rw [rounds, step_xor, ih]; rfl

/-- The bits `l`, placed at the top of the register. -/
def top (w : Nat) : List Bool → BitVec w
  | [] => 0#w
  | b :: l => (if b then BitVec.twoPow w (w - 1) else 0#w) ^^^ (top w l >>> 1)

theorem top_bit (w : Nat) : ∀ (l : List Bool) (i : Nat), (top w l).getLsbD i =
    (decide (i < w) && (l[w - 1 - i]?).getD false) := by
  intro l
  induction l with
  | nil => intro i; simp [top]
  | cons b l ih =>
    intro i
    rw [top, BitVec.getLsbD_xor, BitVec.getLsbD_ushiftRight, ih]
    have h1 : (if b then BitVec.twoPow w (w - 1) else 0#w).getLsbD i = (decide (i < w) && decide (i = w - 1) && b) := by
      cases b
      · simp
      · rw [if_pos rfl, BitVec.getLsbD_twoPow]
        by_cases h : i = w - 1
        · subst h; by_cases hw : w - 1 < w <;> simp [hw]
        · have : ¬ w - 1 = i := fun e => h e.symm
          simp [h, this]
    rw [h1]
    by_cases hi : i < w
    · by_cases he : i = w - 1
      · subst he
        have : ¬ 1 + (w - 1) < w := by omega
        simp [hi, this]
      · have e : w - 1 - i = (w - 1 - (1 + i)) + 1 := by omega
        have : 1 + i < w := by omega
        rw [e, List.getElem?_cons_succ]
        simp [hi, he, this]
    · have : ¬ 1 + i < w := by omega
      simp [hi, this]

theorem top_msb {w : Nat} (hw : 0 < w) (b : Bool) (l : List Bool) : (top w (b :: l)).msb = b := by
  rw [BitVec.msb_eq_getLsbD_last, top_bit]
  simp; omega

theorem top_shift {w : Nat} (b : Bool) (l : List Bool) (hl : l.length < w) : top w (b :: l) <<< 1 = top w l := by
  apply BitVec.eq_of_getLsbD_eq
  intro i hi
  rw [BitVec.getLsbD_shiftLeft, top_bit, top_bit]
  by_cases h0 : i = 0
  · subst h0
    have : l[w - 1]? = none := List.getElem?_eq_none (by omega)
    simp [this]
  · have e : w - 1 - (i - 1) = (w - 1 - i) + 1 := by omega
    have h1 : i - 1 < w := by omega
    have h2 : ¬ i < 1 := by omega
    rw [e, List.getElem?_cons_succ]
    simp [hi, h1, h2]

/-- Feeding at most `w` bits is the same as placing them at the top of the register first. -/
theorem crcBits_top {w : Nat} (P : BitVec w) : ∀ (l : List Bool) (r : BitVec w), l.length ≤ w →
    crcBits P r l = rounds (step P) l.length (r ^^^ top w l) := by
  intro l
  induction l with
  | nil => intro r _; simp [crcBits, top, rounds]
  | cons b l ih =>
    intro r hl
    simp only [List.length_cons] at hl
    show crcBits P (feed P r b) l = rounds (step P) l.length (step P (r ^^^ top w (b :: l)))
    rw [ih _ (by omega)]
    congr 1
    unfold step feed
    rw [BitVec.shiftLeft_xor_distrib, top_shift b l (by omega), BitVec.msb_xor, top_msb (by omega)]
    have : ((r.msb ^^ b) != false) = (r.msb != b) := by cases r.msb <;> cases b <;> rfl
    rw [this, BitVec.xor_assoc, BitVec.xor_assoc, BitVec.xor_comm (top w l)]

/-- Steps on a register whose top bits are zero only shift. -/
theorem rounds_shift {w : Nat} (P : BitVec w) (n : Nat) : ∀ r : BitVec w, (∀ i, i < n → r.getLsbD (w - 1 - i) = false) →
    rounds (step P) n r = r <<< n := by
  induction n with
  | zero => intro r _; simp [rounds]
  | succ n ih =>
    intro r h
    by_cases hw : w = 0
    · subst hw; exact BitVec.eq_of_toNat_eq (by simp [BitVec.of_length_zero])
    have hm : r.msb = false := by
      rw [BitVec.msb_eq_getLsbD_last]; exact h 0 (by omega)
    have hs : step P r = r <<< 1 := by unfold step feed; simp [hm]
    rw [rounds, hs, ih, Nat.add_comm n 1, BitVec.shiftLeft_add]
    · intro i hi
      rw [BitVec.getLsbD_shiftLeft]
      by_cases hc : w - 1 - i < 1
      · simp [hc]
      · have := h (i + 1) (by omega)
        rw [show w - 1 - (i + 1) = w - 1 - i - 1 by omega] at this
        simp [this]

/-- The byte `d` at the top of the register. -/
def topByte (w : Nat) (d : Byte) : BitVec w := d.setWidth w <<< (w - 8)

/-- Entry `d` of the table. -/
def entry {w : Nat} (P : BitVec w) (d : Byte) : BitVec w := rounds (step P) 8 (topByte w d)

theorem topByte_bit {w : Nat} (hw : 8 ≤ w) (d : Byte) (i : Nat) :
    (topByte w d).getLsbD i = (decide (i < w) && decide (w - 8 ≤ i) && d.getLsbD (i - (w - 8))) := by
  unfold topByte
  rw [BitVec.getLsbD_shiftLeft, BitVec.getLsbD_setWidth]
  by_cases h1 : i < w
  · by_cases h2 : w - 8 ≤ i
    · have h3 : ¬ i < w - 8 := by omega
      have h4 : i - (w - 8) < w := by omega
      simp [h1, h2, h3, h4]
    · have h3 : i < w - 8 := by omega
      simp [h2, h3]
  · simp [h1]

theorem bitsMSB_get (d : Byte) (i : Nat) : ((bitsMSB d)[i]?).getD false = (decide (i < 8) && d.getLsbD (7 - i)) := by
  match i with
  | 0 | 1 | 2 | 3 | 4 | 5 | 6 | 7 => rfl
  | i + 8 => simp [bitsMSB, show ¬ i + 8 < 8 by omega]

theorem top_bitsMSB {w : Nat} (hw : 8 ≤ w) (d : Byte) : top w (bitsMSB d) = topByte w d := by
  apply BitVec.eq_of_getLsbD_eq
  intro i hi
  rw [top_bit, topByte_bit hw, bitsMSB_get]
  by_cases h : w - 8 ≤ i
  · have h1 : w - 1 - i < 8 := by omega
    have h2 : 7 - (w - 1 - i) = i - (w - 8) := by omega
    simp [hi, h, h1, h2]
  · have h1 : ¬ w - 1 - i < 8 := by omega
    simp [h, h1]

theorem topByte_xor {w : Nat} (hw : 8 ≤ w) (a b : Byte) : topByte w (a ^^^ b) = topByte w a ^^^ topByte w b := by
  unfold topByte
  rw [BitVec.setWidth_xor, BitVec.shiftLeft_xor_distrib]

/-- The high byte of the register. -/
def high {w : Nat} (r : BitVec w) : Byte := (r >>> (w - 8)).setWidth 8

/-- One byte enters the register by one table lookup. -/
theorem crcBits_byte {w : Nat} (hw : 8 ≤ w) (P r : BitVec w) (d : Byte) :
    crcBits P r (bitsMSB d) = r <<< 8 ^^^ entry P (high r ^^^ d) := by
  have hl : (bitsMSB d).length = 8 := rfl
  rw [crcBits_top P (bitsMSB d) r (by omega), hl, top_bitsMSB hw, entry, topByte_xor hw, rounds_xor, rounds_xor,
    ← BitVec.xor_assoc]
  have hb : ∀ i, (r ^^^ topByte w (high r)).getLsbD i = (decide (i < w - 8) && r.getLsbD i) := by
    intro i
    rw [BitVec.getLsbD_xor, topByte_bit hw]
    unfold high
    rw [BitVec.getLsbD_setWidth, BitVec.getLsbD_ushiftRight]
    by_cases h : i < w
    · by_cases h1 : w - 8 ≤ i
      · have h2 : i - (w - 8) < 8 := by omega
        have h3 : w - 8 + (i - (w - 8)) = i := by omega
        have h4 : ¬ i < w - 8 := by omega
        simp [h, h1, h2, h3, h4]
      · have h4 : i < w - 8 := by omega
        simp [h1, h4]
    · have h4 : ¬ i < w - 8 := by omega
      simp [h, h4, BitVec.getLsbD_of_ge r i (by omega)]
  have hs : rounds (step P) 8 (r ^^^ topByte w (high r)) = r <<< 8 := by
    rw [rounds_shift]
    · apply BitVec.eq_of_getLsbD_eq
      intro i hi
      rw [BitVec.getLsbD_shiftLeft, BitVec.getLsbD_shiftLeft, hb]
      by_cases h : i < 8
      · simp [h]
      · have : i - 8 < w - 8 := by omega
        simp [this]
    · intro i hi
      rw [hb]
      have : ¬ w - 1 - i < w - 8 := by omega
      simp [this]
  rw [rounds_xor] at hs
  have hs2 : rounds (step P) 8 r = r <<< 8 ^^^ rounds (step P) 8 (topByte w (high r)) := by
    rw [← hs, BitVec.xor_assoc, BitVec.xor_self, BitVec.xor_zero]
  rw [hs2]

theorem crcBits_append {w : Nat} (P r : BitVec w) (a b : List Bool) : crcBits P r (a ++ b) = crcBits P (crcBits P r a) b := by
  simp [crcBits]

theorem crcBits_xor {w : Nat} (P : BitVec w) : ∀ (a b : List Bool) (r s : BitVec w), a.length = b.length →
    crcBits P r a ^^^ crcBits P s b = crcBits P (r ^^^ s) (List.zipWith xor a b) := by
  intro a
  induction a with
  | nil => intro b r s h; cases b <;> simp_all [crcBits]
  | cons x a ih =>
    intro b r s h
    cases b with
    | nil => simp at h
    | cons y b =>
      simp only [List.length_cons, Nat.add_right_cancel_iff] at h
      show crcBits P (feed P r x) a ^^^ crcBits P (feed P s y) b = _
      rw [ih _ _ _ h, ← feed_xor]; rfl

end IMU.Crc
