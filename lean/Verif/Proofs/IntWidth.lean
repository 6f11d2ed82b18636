import Verif.Model.IntWidth
import Verif.Proofs.Cipher

namespace IMU
open Spec Utils

theorem zero_eq_setWidth {n w : Nat} (v : BitVec n) (h : n ≤ w) : 0#w = v.setWidth w ↔ v = 0#n := by
  have hv := v.isLt
  have hp := Nat.pow_le_pow_right (show 0 < 2 by omega) h
  constructor
  · intro e
    have := congrArg BitVec.toNat e
    rw [BitVec.toNat_setWidth, Nat.mod_eq_of_lt (by omega)] at this
    apply BitVec.eq_of_toNat_eq
    rw [← this]
    simp
  · intro e; subst e; simp

theorem narrow_xor {n w : Nat} (a b : BitVec n) (h : n ≤ w) : (a.setWidth w ^^^ b.setWidth w).setWidth n = a ^^^ b := by
  ext i hi
  simp [show i < w by omega, hi]

theorem narrow_or {n w : Nat} (a b : BitVec n) (h : n ≤ w) : (a.setWidth w ||| b.setWidth w).setWidth n = a ||| b := by
  ext i hi
  simp [show i < w by omega, hi]

theorem narrow_and {n w : Nat} (a b : BitVec n) (h : n ≤ w) : (a.setWidth w &&& b.setWidth w).setWidth n = a &&& b := by
  ext i hi
  simp [show i < w by omega, hi]

theorem narrow_shl {n w : Nat} (a : BitVec n) (k : Nat) (h : n ≤ w) : (a.setWidth w <<< k).setWidth n = a <<< k := by
  ext i hi
  simp only [BitVec.getElem_setWidth, BitVec.getLsbD_shiftLeft, BitVec.getElem_shiftLeft, BitVec.getLsbD_setWidth]
  by_cases hk : i < k
  · simp [hk]
  · simp [hk, show i < w by omega, show i - k < w by omega, BitVec.getLsbD_eq_getElem (show i - k < n by omega)]

theorem narrow_shl_xor {n w : Nat} (a b : BitVec n) (k : Nat) (h : n ≤ w) :
    (a.setWidth w <<< k ^^^ b.setWidth w).setWidth n = a <<< k ^^^ b := by
  have : (a.setWidth w <<< k ^^^ b.setWidth w).setWidth n = (a.setWidth w <<< k).setWidth n ^^^ (b.setWidth w).setWidth n := by
    rw [BitVec.setWidth_xor]
  rw [this, narrow_shl a k h]
  congr 1
  ext i hi
  simp [show i < w by omega, hi]

theorem narrow_shr {n w : Nat} (a : BitVec n) (k : Nat) (h : n ≤ w) : (a.setWidth w >>> k) = (a >>> k).setWidth w := by
  apply BitVec.eq_of_toNat_eq
  have ha := a.isLt
  have hp := Nat.pow_le_pow_right (show 0 < 2 by omega) h
  have : a.toNat >>> k ≤ a.toNat := by rw [Nat.shiftRight_eq_div_pow]; exact Nat.div_le_self _ _
  simp only [BitVec.toNat_setWidth, BitVec.toNat_ushiftRight]
  rw [Nat.mod_eq_of_lt (by omega), Nat.mod_eq_of_lt (by omega)]

namespace Bits

theorem toNat_sub_small {w : Nat} (h : 8 ≤ w) (n : Byte) (bit : Nat) (hb : bit < n.toNat) :
    (BitVec.ofNat w 0x1F &&& ((n.setWidth w - BitVec.ofNat w 1) - BitVec.ofNat w bit)).setWidth 32 =
      BitVec.ofNat 32 ((n.toNat - 1 - bit) % 32) := by
  have hn := n.isLt
  have hp := Nat.pow_le_pow_right (show 0 < 2 by omega) h
  have e : (n.setWidth w - BitVec.ofNat w 1) - BitVec.ofNat w bit = BitVec.ofNat w (n.toNat - 1 - bit) := by
    have e1 : n.setWidth w - BitVec.ofNat w 1 = BitVec.ofNat w (n.toNat - 1) := by
      apply BitVec.eq_of_toNat_eq
      simp only [BitVec.toNat_sub, BitVec.toNat_setWidth, BitVec.toNat_ofNat]
      rw [Nat.mod_eq_of_lt (a := 1) (by omega), Nat.mod_eq_of_lt (a := n.toNat) (by omega),
        Nat.mod_eq_of_lt (a := n.toNat - 1) (by omega), show 2 ^ w - 1 + n.toNat = (n.toNat - 1) + 2 ^ w by omega,
        Nat.add_mod_right, Nat.mod_eq_of_lt (by omega)]
    rw [e1]
    apply BitVec.eq_of_toNat_eq
    simp only [BitVec.toNat_sub, BitVec.toNat_ofNat]
    rw [Nat.mod_eq_of_lt (a := bit) (by omega), Nat.mod_eq_of_lt (a := n.toNat - 1) (by omega),
      Nat.mod_eq_of_lt (a := n.toNat - 1 - bit) (by omega),
      show 2 ^ w - bit + (n.toNat - 1) = (n.toNat - 1 - bit) + 2 ^ w by omega, Nat.add_mod_right,
      Nat.mod_eq_of_lt (by omega)]
  rw [e]
  apply BitVec.eq_of_toNat_eq
  simp only [BitVec.toNat_setWidth, BitVec.toNat_and, BitVec.toNat_ofNat]
  rw [Nat.mod_eq_of_lt (a := 31) (by omega), Nat.mod_eq_of_lt (a := n.toNat - 1 - bit) (by omega), Nat.and_comm,
    show 31 = 2 ^ 5 - 1 by rfl, Nat.and_two_pow_sub_one_eq_mod]

theorem reflectLoopW_eq {w : Nat} (h : 8 ≤ w) (n_bits : Byte) : ∀ (k bit : Nat) (t r : U32), bit + k = n_bits.toNat →
    reflectLoopW w n_bits k bit t r = reflectLoop n_bits k bit t r := by
  intro k
  induction k with
  | zero => intros; rfl
  | succ k ih =>
    intro bit t r hb
    have e : 0x1F#32 &&& ((n_bits.setWidth 32 - 1#32) - BitVec.ofNat 32 bit) =
        BitVec.ofNat 32 ((n_bits.toNat - 1 - bit) % 32) := by
      have := toNat_sub_small (w := 32) (by omega) n_bits bit (by omega)
      rw [BitVec.setWidth_eq] at this
      exact this
    simp only [reflectLoopW, reflectLoop]
    rw [toNat_sub_small h n_bits bit (by omega), e]
    simp only [ih (bit + 1) _ _ (by omega)]

theorem reflectW_eq {w : Nat} (h : 8 ≤ w) (data : U32) (n_bits : Byte) : reflectW w data n_bits = reflect data n_bits :=
  reflectLoopW_eq h n_bits _ _ _ _ (by omega)

end Bits

namespace Crc

theorem reflectW_eq {w : Nat} (h : 8 ≤ w) (data : U32) (n_bits : Byte) : reflectW w data n_bits = reflect data n_bits := by
  unfold reflectW reflect
  rw [Bits.reflectW_eq h]
  rfl

theorem residue8W_eq {w : Nat} (h : 8 ≤ w) (p r : Byte) : residue8W w p r = residue8 p r := by
  unfold residue8W residue8
  simp only [← BitVec.setWidth_and, zero_eq_setWidth _ h, zero_eq_setWidth _ (show 8 ≤ 32 by omega)]
  rw [narrow_shl _ _ h, narrow_shl_xor _ _ _ h, narrow_shl _ _ (show 8 ≤ 32 by omega),
    narrow_shl_xor _ _ _ (show 8 ≤ 32 by omega)]

theorem residues8W_eq {w : Nat} (h : 8 ≤ w) (p : Byte) : ∀ n r, residues8W w p n r = residues8 p n r := by
  intro n
  induction n with
  | zero => intro r; rfl
  | succ n ih => intro r; simp only [residues8W, residues8, residue8W_eq h, ih]

theorem tableCalculator8W_eq {w : Nat} (h : 8 ≤ w) (p : Byte) (t : List Byte) :
    tableCalculator8W w p t = tableCalculator8 p t := by
  unfold tableCalculator8W tableCalculator8
  simp only [residues8W_eq h]

theorem base8W_eq {w : Nat} (h : 8 ≤ w) : base8W w = base8 := by
  funext t p n i f ro ri fx
  have e : round8W w = round8 := by
    funext t p ri k c
    unfold round8W round8
    simp only [reflectW_eq h, narrow_xor _ _ h]
  have e2 : finish8W w = finish8 := by
    funext c f ro fx
    unfold finish8W finish8
    simp only [reflectW_eq h, narrow_xor _ _ h]
  unfold base8W base8
  rw [e, e2]

theorem residue16W_eq {w : Nat} (h : 16 ≤ w) (p r : U16) : residue16W w p r = residue16 p r := by
  unfold residue16W residue16
  simp only [← BitVec.setWidth_and, zero_eq_setWidth _ h, zero_eq_setWidth _ (show 16 ≤ 32 by omega)]
  rw [narrow_shl _ _ h, narrow_shl_xor _ _ _ h, narrow_shl _ _ (show 16 ≤ 32 by omega),
    narrow_shl_xor _ _ _ (show 16 ≤ 32 by omega)]

theorem residues16W_eq {w : Nat} (h : 16 ≤ w) (p : U16) : ∀ n r, residues16W w p n r = residues16 p n r := by
  intro n
  induction n with
  | zero => intro r; rfl
  | succ n ih => intro r; simp only [residues16W, residues16, residue16W_eq h, ih]

theorem tableCalculator16W_eq {w : Nat} (h : 16 ≤ w) (p : U16) (t : List U16) :
    tableCalculator16W w p t = tableCalculator16 p t := by
  unfold tableCalculator16W tableCalculator16
  simp only [residues16W_eq h]

theorem index16 {w : Nat} (h : 16 ≤ w) (c : U16) (t : Byte) :
    (c.setWidth w >>> 8 ^^^ t.setWidth w).setWidth 8 = (c >>> 8).setWidth 8 ^^^ t := by
  rw [narrow_shr _ _ h, BitVec.setWidth_xor]
  congr 1
  · ext i hi
    simp [show i < w by omega]
  · ext i hi
    simp [show i < w by omega, hi]

theorem base16W_eq {w : Nat} (h : 16 ≤ w) : base16W w = base16 := by
  funext t p n i f ro ri fx
  have e : round16W w = round16 := by
    funext t p ri k c
    unfold round16W round16
    simp only [reflectW_eq (show 8 ≤ w by omega), index16 h, index16 (show 16 ≤ 32 by omega), narrow_shl_xor _ _ _ h,
      narrow_shl_xor _ _ _ (show 16 ≤ 32 by omega)]
  have e2 : finish16W w = finish16 := by
    funext c f ro fx
    unfold finish16W finish16
    simp only [reflectW_eq (show 8 ≤ w by omega), narrow_xor _ _ h]
  unfold base16W base16
  rw [e, e2]

theorem base32W_eq {w : Nat} (h : 8 ≤ w) : base32W w = base32 := by
  funext t p n i f ro ri fx
  have e : round32W w = round32 := by
    funext t p ri k c
    unfold round32W round32
    simp only [reflectW_eq h]
  have e2 : finish32W w = finish32 := by
    funext c f ro fx
    unfold finish32W finish32
    simp only [reflectW_eq h]
  unfold base32W base32
  rw [e, e2]

end Crc

namespace Utils

theorem narrow_ff {w : Nat} (h : 8 ≤ w) (a : Byte) : (a.setWidth w &&& BitVec.ofNat w 0xFF).setWidth 8 = a &&& 0xFF#8 := by
  have hp := Nat.pow_le_pow_right (show 0 < 2 by omega) h
  have : BitVec.ofNat w 0xFF = (0xFF#8).setWidth w := by
    apply BitVec.eq_of_toNat_eq
    simp only [BitVec.toNat_ofNat, BitVec.toNat_setWidth]
  rw [this, narrow_and _ _ h]

theorem narrow_shr8 {w : Nat} (h : 16 ≤ w) (v : U16) : (v.setWidth w >>> 8).setWidth 8 = (v >>> 8).setWidth 8 := by
  rw [narrow_shr _ _ h]
  ext i hi
  simp [show i < w by omega]

theorem serialize16BEW_eq {w : Nat} (h : 16 ≤ w) (buf : Ptr) (v : U16) : serialize16BEW w buf v = serialize16BE buf v := by
  unfold serialize16BEW serialize16BE
  rw [narrow_shr8 h, narrow_ff (by omega), narrow_ff (by omega)]

theorem serialize16LEW_eq {w : Nat} (h : 16 ≤ w) (buf : Ptr) (v : U16) : serialize16LEW w buf v = serialize16LE buf v := by
  unfold serialize16LEW serialize16LE
  rw [narrow_shr8 h, narrow_ff (by omega), narrow_ff (by omega)]

theorem deserialize16BEW_eq {w : Nat} (h : 16 ≤ w) (buf : Ptr) : deserialize16BEW w buf = deserialize16BE buf := by
  unfold deserialize16BEW deserialize16BE
  simp only [narrow_shl _ _ h, narrow_or _ _ h]

theorem deserialize16LEW_eq {w : Nat} (h : 16 ≤ w) (buf : Ptr) : deserialize16LEW w buf = deserialize16LE buf := by
  unfold deserialize16LEW deserialize16LE
  simp only [narrow_shl _ _ h, narrow_or _ _ h]

theorem narrow_sub {n w : Nat} (h : n ≤ w) (a b : BitVec w) : (a - b).setWidth n = a.setWidth n - b.setWidth n := by
  have h1 : (a - b).setWidth n + b.setWidth n = a.setWidth n := by
    rw [← BitVec.setWidth_add _ _ h, BitVec.sub_add_cancel]
  rw [← h1, BitVec.add_sub_cancel]

theorem narrow_ofNat {n w : Nat} (h : n ≤ w) (k : Nat) : (BitVec.ofNat w k).setWidth n = BitVec.ofNat n k := by
  rw [BitVec.setWidth_ofNat_of_le h]

theorem narrow_self {n w : Nat} (h : n ≤ w) (a : BitVec n) : (a.setWidth w).setWidth n = a := by
  rw [BitVec.setWidth_setWidth_of_le _ h, BitVec.setWidth_eq]

theorem narrow_signed {n w : Nat} (h : n ≤ w) (a : BitVec n) : (a.signExtend w).setWidth n = a := by
  ext i hi
  rw [BitVec.getElem_setWidth, BitVec.getLsbD_signExtend]
  simp [hi, show i < w by omega]

theorem digit_eq {w : Nat} (h : 8 ≤ w) (c : Byte) : (c.signExtend w - BitVec.ofNat w 48).setWidth 8 = c - 48#8 := by
  rw [narrow_sub h, narrow_signed h, narrow_ofNat h]

theorem stringLoopW_eq {w : Nat} (h : 8 ≤ w) (cs : Bool) (str : Ptr) (length : Byte) : ∀ n i x,
    stringLoopW w cs str length n i x = stringLoop cs str length n i x := by
  intro n
  induction n with
  | zero => intros; rfl
  | succ n ih =>
    intro i x
    simp only [stringLoopW, stringLoop, digit_eq h, ih]
    have : (length.setWidth w - (BitVec.ofNat w i + BitVec.ofNat w 1)).setWidth 8 =
        length - (BitVec.ofNat 8 i + 1#8) := by
      rw [narrow_sub h, narrow_self h, BitVec.setWidth_add _ _ h, narrow_ofNat h, narrow_ofNat h]
    simp only [this]

theorem stringToUint32W_eq {w : Nat} (h : 8 ≤ w) : stringToUint32W w = stringToUint32 := by
  funext cs str n
  unfold stringToUint32W stringToUint32
  have : (n.setWidth w - BitVec.ofNat w 1).setWidth 8 = n - 1#8 := by
    rw [narrow_sub h, narrow_self h, narrow_ofNat h]
  simp only [this, digit_eq h, stringLoopW_eq h]

end Utils
end IMU
