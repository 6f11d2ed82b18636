import Verif.Proofs.CrcAlgebra
import Verif.Proofs.Frame

/-! # A message followed by its checksum -/

namespace IMU.Crc
open Spec Spec.Crc

/-- The number with the binary digits `l`, most significant first. -/
def numMSB (l : List Bool) : Nat := l.foldl (fun a b => 2 * a + b.toNat) 0

theorem numMSB_snoc (l : List Bool) (b : Bool) : numMSB (l ++ [b]) = 2 * numMSB l + b.toNat := by
  simp [numMSB]

theorem numMSB_testBit : ∀ (r : List Bool) (i : Nat), (numMSB r.reverse).testBit i = (r[i]?).getD false := by
  intro r
  induction r with
  | nil => intro i; simp [numMSB]
  | cons b r ih =>
    intro i
    rw [List.reverse_cons, numMSB_snoc]
    cases i with
    | zero => cases b <;> simp [Nat.testBit_zero]
    | succ i =>
      rw [Nat.testBit_succ, List.getElem?_cons_succ, ← ih i]
      congr 1
      cases b <;> simp <;> omega

theorem top_toNat {w : Nat} {l : List Bool} (h : l.length = w) : (top w l).toNat = numMSB l := by
  apply Nat.eq_of_testBit_eq
  intro i
  rw [BitVec.testBit_toNat, top_bit]
  have := numMSB_testBit l.reverse i
  rw [List.reverse_reverse] at this
  rw [this]
  by_cases hi : i < w
  · rw [List.getElem?_reverse (by omega), h]; simp [hi]
  · have hn : l.reverse[i]? = none := List.getElem?_eq_none (by rw [List.length_reverse]; omega)
    rw [hn]; simp [hi]

theorem numMSB_from (l : List Bool) : ∀ a, l.foldl (fun a b => 2 * a + b.toNat) a = a * 2 ^ l.length + numMSB l := by
  induction l with
  | nil => intro a; simp [numMSB]
  | cons b l ih =>
    intro a
    rw [numMSB, List.foldl_cons, List.foldl_cons, ih, ih, List.length_cons, Nat.pow_succ]
    simp only [Nat.mul_zero, Nat.zero_add]
    have : (2 * a + b.toNat) * 2 ^ l.length = a * (2 ^ l.length * 2) + b.toNat * 2 ^ l.length := by
      rw [Nat.add_mul, Nat.mul_comm 2 a, Nat.mul_assoc, Nat.mul_comm 2]
    omega

theorem numMSB_append (a b : List Bool) : numMSB (a ++ b) = numMSB a * 2 ^ b.length + numMSB b := by
  rw [numMSB, List.foldl_append, numMSB_from]; rfl

theorem numMSB_byte : ∀ d : Byte, numMSB (bitsMSB d) = d.toNat := by decide +kernel

theorem numMSB_bits : ∀ t : List Byte, numMSB (bits false t) = valueBE t := by
  intro t
  suffices h : ∀ s : List Byte, numMSB (bits false s.reverse) = valueBE s.reverse by
    have := h t.reverse
    rwa [List.reverse_reverse] at this
  intro s
  induction s with
  | nil => rfl
  | cons d s ih =>
    rw [List.reverse_cons, Utils.valueBE_append, bits_append, numMSB_append, ih]
    have e : bits false [d] = bitsMSB d := by simp [bits]
    rw [e, numMSB_byte]
    have hb : (bitsMSB d).length = 8 := rfl
    rw [hb, show (2 : Nat) ^ 8 = 256 from rfl]

theorem bits_reverse : ∀ t : List Byte, (bits true t).reverse = bits false t.reverse := by
  intro t
  induction t with
  | nil => rfl
  | cons d t ih =>
    rw [List.reverse_cons, bits_append, bits_cons, List.reverse_append, ih]
    have e : bits false [d] = bitsMSB d := by simp [bits]
    rw [e]
    simp [bitsOf]

theorem top_reverse {w : Nat} {l : List Bool} (h : l.length = w) : (top w l).reverse = top w l.reverse := by
  apply BitVec.eq_of_getLsbD_eq
  intro i hi
  rw [BitVec.getLsbD_reverse, BitVec.getMsbD_eq_getLsbD, top_bit, top_bit, List.getElem?_reverse (by omega), h]
  have h1 : w - 1 - i < w := by omega
  simp [hi, h1]

/-- The checksum bytes, placed in the register and read out the way checksums are. -/
theorem tail_value {w : Nat} (refin : Bool) {t : List Byte} (ht : 8 * t.length = w) :
    (if refin then (top w (bits refin t)).reverse else top w (bits refin t)).toNat =
      if refin then valueLE t else valueBE t := by
  have hl : (bits refin t).length = w := by rw [bits_length, ht]
  cases refin
  · simp only [Bool.false_eq_true, if_false]
    rw [top_toNat hl, numMSB_bits]
  · simp only [if_true]
    rw [top_reverse hl, top_toNat (by rw [List.length_reverse, hl]), bits_reverse, numMSB_bits, Utils.valueBE_eq_LE,
      List.reverse_reverse]

theorem rounds_inj {w : Nat} {P : BitVec w} (hP : P.getLsbD 0 = true) (n : Nat) {r s : BitVec w} :
    rounds (step P) n r = rounds (step P) n s ↔ r = s := by
  refine ⟨fun h => ?_, fun h => by rw [h]⟩
  have : rounds (step P) n (r ^^^ s) = 0#w := by rw [rounds_xor, h, BitVec.xor_self]
  exact BitVec.xor_eq_zero_iff.mp (rounds_eq_zero hP n this)

theorem bits_zeros (refin : Bool) (n : Nat) : bits refin (List.replicate n 0#8) = List.replicate (8 * n) false := by
  induction n with
  | zero => rfl
  | succ n ih =>
    rw [List.replicate_succ, bits_cons, ih, show 8 * (n + 1) = 8 + 8 * n by omega, ← List.replicate_append_replicate]
    cases refin <;> rfl

theorem residue_iff {w : Nat} (p : Params w) (hP : p.poly.getLsbD 0 = true) (hs : p.refin = p.refout) (msg t : List Byte)
    (ht : 8 * t.length = w) :
    crc p (msg ++ t) = crc { p with init := if p.refout then p.xorout.reverse else p.xorout } (List.replicate (w / 8) 0#8) ↔
      (if p.refin then valueLE t else valueBE t) = (crc p msg).toNat := by
  have hl : (bits p.refin t).length = w := by rw [bits_length, ht]
  rw [← tail_value p.refin ht]
  unfold crc
  dsimp only
  rw [bits_append, crcBits_append, crcBits_top _ _ _ (by omega), hl, bits_zeros, crcBits_zeros, show 8 * (w / 8) = w by omega,
    ← hs, ← BitVec.toNat_inj]
  generalize crcBits p.poly p.init (bits p.refin msg) = r
  generalize top w (bits p.refin t) = v
  have hx : ∀ a b c : BitVec w, a ^^^ c = b ^^^ c ↔ a = b := by
    intro a b c
    constructor
    · intro h
      have := congrArg (· ^^^ c) h
      simpa [BitVec.xor_assoc] using this
    · intro h; rw [h]
  have hy : ∀ a b c : BitVec w, a ^^^ b = c ↔ b = a ^^^ c := by
    intro a b c
    constructor
    · intro h; rw [← h, xxc]
    · intro h; rw [h, xxc]
  rw [BitVec.toNat_inj, hx, BitVec.toNat_inj]
  cases p.refin
  · simp only [Bool.false_eq_true, if_false]
    rw [rounds_inj hP, hy]
  · simp only [if_true]
    have hinj : ∀ a b : BitVec w, a.reverse = b.reverse ↔ a = b := by
      intro a b
      refine ⟨fun h => ?_, fun h => by rw [h]⟩
      rw [← reverse_reverse a, h, reverse_reverse]
    rw [hinj, rounds_inj hP, hy, ← hinj, reverse_xor, reverse_reverse]

end IMU.Crc
