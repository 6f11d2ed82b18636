import Verif.Spec.CrcErrors

/-! # Two bytes of a message that change places, or change in the same way -/

namespace IMU.Spec.Crc

/-- A row of the tables: the polynomial, the distance of which the distance of the two bytes has to be a multiple for the
change to go unnoticed, and the masks for which it is another distance. -/
abbrev ExchangeRow (w : Nat) := BitVec w × Nat × List (Nat × List Byte)

/-- The distances of the 8-bit CRCs. -/
def exchange8 : List (ExchangeRow 8) :=
  [(0x07#8, 127, [(1, [0xFD#8])]),
    (0x1D#8, 255, []),
    (0x2F#8, 127, [(1, [0xE5#8])]),
    (0x31#8, 127, [(1, [0xEF#8])]),
    (0x39#8, 17, []),
    (0x9B#8, 127, [(1, [0x89#8])]),
    (0xD5#8, 93, [(1, [0xB3#8]),
      (3, [0x3D#8, 0x47#8, 0x7A#8, 0x8E#8, 0xC9#8, 0xF4#8]),
      (31, [
        0x07#8, 0x09#8, 0x0E#8, 0x12#8, 0x15#8, 0x1B#8, 0x1C#8, 0x23#8, 0x24#8, 0x2A#8, 0x2D#8, 0x31#8, 0x36#8, 0x38#8,
        0x3F#8, 0x41#8, 0x46#8, 0x48#8, 0x4F#8, 0x53#8, 0x54#8, 0x5A#8, 0x5D#8, 0x62#8, 0x65#8, 0x6B#8, 0x6C#8, 0x70#8,
        0x77#8, 0x79#8, 0x7E#8, 0x82#8, 0x85#8, 0x8B#8, 0x8C#8, 0x90#8, 0x97#8, 0x99#8, 0x9E#8, 0xA1#8, 0xA6#8, 0xA8#8,
        0xAF#8, 0xB4#8, 0xBA#8, 0xBD#8, 0xC3#8, 0xC4#8, 0xCA#8, 0xCD#8, 0xD1#8, 0xD6#8, 0xD8#8, 0xDF#8, 0xE0#8, 0xE7#8,
        0xE9#8, 0xEE#8, 0xF2#8, 0xF5#8, 0xFB#8, 0xFC#8])])]

/-- The distances of the 16-bit CRCs. -/
def exchange16 : List (ExchangeRow 16) :=
  [(0x0589#16, 127, []), (0x1021#16, 32767, []), (0x3D65#16, 151, []), (0x8005#16, 32767, []),
    (0x8BB7#16, 65535, []), (0xA097#16, 16383, []), (0xC867#16, 65535, [])]

/-- The distances of the 32-bit CRCs. -/
def exchange32 : List (ExchangeRow 32) :=
  [(0x000000AF#32, 4294967295, []), (0x04C11DB7#32, 4294967295, []), (0x1EDC6F41#32, 2147483647, []),
    (0x814141AB#32, 2147483647, []), (0xA833982B#32, 65537, [])]

/-- The table of a width. -/
def exchanges : (w : Nat) → List (ExchangeRow w)
  | 8 => exchange8
  | 16 => exchange16
  | 32 => exchange32
  | _ => []

/-- A byte with its bits in the order in which they enter the register, the first as the most significant one. -/
def entering (refin : Bool) (d : Byte) : Byte := if refin then d.reverse else d

/-- The distance for a mask. -/
def distanceOf {w : Nat} (row : ExchangeRow w) (d : Byte) : Nat :=
  ((row.2.2.find? (fun x => x.2.contains d)).map (·.1)).getD row.2.1

end IMU.Spec.Crc
