import Verif.C.Mem

/-!
# Base64 (RFC 4648, section 4)
-/

namespace IMU.Spec.Base64

/-- Table 1 of RFC 4648. -/
def alphabet : List Char := "ABCDEFGHIJKLMNOPQRSTUVWXYZabcdefghijklmnopqrstuvwxyz0123456789+/".toList

/-- The character for a 6-bit group. -/
def char (v : Nat) : Byte := BitVec.ofNat 8 (alphabet.getD v 'A').toNat

/-- '='. -/
def pad : Byte := 61#8

/-- "A 24-bit input group is formed by concatenating 3 8-bit input groups." -/
def group (a b c : Byte) : Nat := a.toNat * 65536 + b.toNat * 256 + c.toNat

/-- "These 24 bits are then treated as 4 concatenated 6-bit groups": the `i`-th one. -/
def sextet (v i : Nat) : Nat := v / 64 ^ (3 - i) % 64

/-- The encoding of a byte string.  Missing bits are zero; missing characters are '='. -/
def encode : List Byte → List Byte
  | [] => []
  | [a] => [char (sextet (group a 0 0) 0), char (sextet (group a 0 0) 1), pad, pad]
  | [a, b] => [char (sextet (group a b 0) 0), char (sextet (group a b 0) 1), char (sextet (group a b 0) 2), pad]
  | a :: b :: c :: t => [char (sextet (group a b c) 0), char (sextet (group a b c) 1), char (sextet (group a b c) 2),
      char (sextet (group a b c) 3)] ++ encode t

/-- The 6-bit value of a character.  RFC 4648 fixes it for the characters of the alphabet; a lenient decoder may also
take `-`, `.` for `+` and `,`, `_` for `/`, and everything else for `A`. -/
def value (c : Byte) : Nat :=
  if Char.ofNat c.toNat ∈ alphabet then alphabet.idxOf (Char.ofNat c.toNat)
  else if c = 45#8 ∨ c = 46#8 then 62
  else if c = 44#8 ∨ c = 95#8 then 63
  else 0

/-- The 24 bits of four characters. -/
def quad (a b c d : Byte) : Nat := value a * 64 ^ 3 + value b * 64 ^ 2 + value c * 64 + value d

/-- Byte `i` of a 24-bit group. -/
def octet (v i : Nat) : Byte := BitVec.ofNat 8 (v / 256 ^ (2 - i))

/-- The bytes of an incomplete last group. -/
def last (a b c : Byte) : List Byte :=
  if c = pad then [octet (quad a b 0 0) 0] else [octet (quad a b c 0) 0, octet (quad a b c 0) 1]

/-- Decoding of a text; the padding of the last group may be missing. -/
def decode : List Byte → List Byte
  | a :: b :: c :: d :: t =>
    if t = [] ∧ d = pad then last a b c
    else [octet (quad a b c d) 0, octet (quad a b c d) 1, octet (quad a b c d) 2] ++ decode t
  | [a, b, c] => last a b c
  | [a, b] => last a b pad
  | _ => []

end IMU.Spec.Base64
