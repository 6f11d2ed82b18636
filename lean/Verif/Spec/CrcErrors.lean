import Verif.Spec.CrcPoly

/-! # Transmission errors -/

namespace IMU.Spec.Crc
open Polynomial

/-- The number of bits in which two messages of the same length differ. -/
def hamming (x y : List Byte) : Nat := (List.zipWith xor (bits false x) (bits false y)).count true

/-- The number of ones of a register. -/
def weight {w : Nat} (r : BitVec w) : Nat := ∑ i ∈ Finset.range w, (r.getLsbD i).toNat

/-- `x` and `y` differ at the positions `i` and `j` and nowhere else. -/
def DifferAt (i j : Nat) (x y : List Bool) : Prop :=
  x.length = y.length ∧ ∀ k, x[k]? ≠ y[k]? ↔ k = i ∨ k = j

/-- `T` is the order of the divisor: the least positive `n` such that `x^n - 1` is a multiple of it. -/
def IsOrder {w : Nat} (P : BitVec w) (T : Nat) : Prop :=
  0 < T ∧ divisor P ∣ X ^ T - 1 ∧ ∀ n, 0 < n → n < T → ¬ divisor P ∣ X ^ n - 1

/-- The orders of the polynomials of the 8-bit CRCs. -/
def orders8 : List (Byte × Nat) :=
  [(0x07#8, 127), (0x1D#8, 255), (0x2F#8, 127), (0x31#8, 127), (0x39#8, 17), (0x9B#8, 127), (0xD5#8, 93)]

/-- The orders of the polynomials of the 16-bit CRCs. -/
def orders16 : List (U16 × Nat) :=
  [(0x0589#16, 254), (0x1021#16, 32767), (0x3D65#16, 151), (0x8005#16, 32767), (0x8BB7#16, 65535), (0xA097#16, 32766),
    (0xC867#16, 65535)]

/-- The orders of the polynomials of the 32-bit CRCs. -/
def orders32 : List (U32 × Nat) :=
  [(0x000000AF#32, 4294967295), (0x04C11DB7#32, 4294967295), (0x1EDC6F41#32, 2147483647), (0x814141AB#32, 2147483647),
    (0xA833982B#32, 65537)]

/-- The functions whose polynomial has an odd number of ones (without the leading one). -/
def evenDivisors : List String :=
  ["Crc8", "Crc8_8h2f", "Crc8_cdma2000", "Crc8_dvbS2", "Crc8_itu", "Crc8_maxim", "Crc8_rohc", "Crc8_wcdma",
    "Crc16_a", "Crc16_arc", "Crc16_augCcit", "Crc16_buypass", "Crc16_ccitFalse", "Crc16_ccitZero", "Crc16_dds110",
    "Crc16_dectR", "Crc16_dectX", "Crc16_dnp", "Crc16_en13757", "Crc16_genibus", "Crc16_kermit", "Crc16_maxim",
    "Crc16_mcrf4xx", "Crc16_modbus", "Crc16_riello", "Crc16_teledisk", "Crc16_tms37157", "Crc16_usb", "Crc16_x25",
    "Crc32_c", "Crc32_q"]

/-- The residue: the CRC of `w` zero bits that starts with the final xor value. -/
def residue {w : Nat} (p : Params w) : BitVec w :=
  crc { p with init := if p.refout then p.xorout.reverse else p.xorout } (List.replicate (w / 8) 0#8)

end IMU.Spec.Crc
