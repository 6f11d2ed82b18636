import Verif.Spec.Crc

/-! # How far the guaranteed detection of errors reaches -/

namespace IMU.Spec.Crc

/-- In how many positions do two sequences of bits differ? -/
def diff (x y : List Bool) : Nat := (List.zipWith xor x y).count true

/-- `n` is the length in bits (checksum included) up to which all errors in at most `k` bits are detected: in shorter
frames none goes unnoticed, in every longer one some does. -/
structure IsReach {w : Nat} (P : BitVec w) (k n : Nat) : Prop where
  detects : ∀ (r : BitVec w) (x y : List Bool), x.length = y.length → x.length ≤ n → 0 < diff x y → diff x y ≤ k →
    crcBits P r x ≠ crcBits P r y
  misses : ∀ len, n < len → ∃ x y : List Bool, x.length = len ∧ y.length = len ∧ 0 < diff x y ∧ diff x y ≤ k ∧
    ∀ r : BitVec w, crcBits P r x = crcBits P r y

/-- The reaches of the 8-bit polynomials for errors in at most 2, 3, 4, ... bits; 8 for more than the list has. -/
def reach8 : List (Byte × List Nat) :=
  [(0x07#8, [127, 127]), (0x1D#8, [255, 21, 14]), (0x2F#8, [127, 127, 11, 11]), (0x31#8, [127, 127]),
    (0x39#8, [17, 17, 17]), (0x9B#8, [127, 127, 10, 10]), (0xD5#8, [93, 93, 10, 10])]

/-- The reaches of the 16-bit polynomials for errors in at most 2, 3, 4, ... bits; 16 for more than the list has. -/
def reach16 : List (U16 × List Nat) :=
  [(0x0589#16, [254, 254, 128, 128]), (0x1021#16, [32767, 32767]), (0x3D65#16, [151, 151, 151, 151, 22, 22, 20, 20]),
    (0x8005#16, [32767, 32767]), (0x8BB7#16, [65535, 369, 63, 39, 24, 18, 18, 18, 17]),
    (0xA097#16, [32766, 32766, 83, 83, 24, 24]), (0xC867#16, [65535, 377, 60, 27, 27, 21, 17])]

/-- The reaches of the 32-bit polynomials for errors in at most 2, 3, 4, ... bits. -/
def reach32 : List (U32 × List Nat) :=
  [(0x000000AF#32, [4294967295, 107306, 2802, 357]), (0x04C11DB7#32, [4294967295, 91639, 3006, 300]),
    (0x1EDC6F41#32, [2147483647, 2147483647, 5275, 5275]), (0x814141AB#32, [2147483647, 2147483647, 2307, 2307]),
    (0xA833982B#32, [65537, 65537, 65537])]

end IMU.Spec.Crc
