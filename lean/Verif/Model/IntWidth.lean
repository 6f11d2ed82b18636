import Verif.Model.Caesar
import Verif.Model.Crc
import Verif.Model.Utils

/-!
# The functions whose expressions are computed in `int` or `unsigned int`, for an `int` of `w` bits

`w` is 32 on the targets of the other models, 16 on many microcontrollers.  Operands narrower than `int` are promoted to it,
a negative `int` meeting an `unsigned int` is converted to it modulo 2^w.  The other expressions of the library are
computed in the fixed-width types (which are at least as wide as `int`, or whose values stay below 2^15).
-/

namespace IMU.Caesar
open Utils

/-- Src/crypto/caesar_cipher.c:54; the operands of `%` are `int` and `unsigned int`. -/
def encryptCharW (w : Nat) (c shift : Byte) : Byte :=
  (BitVec.ofInt w ((c.toNat : Int) + shift.toNat - asciiVal c) % BitVec.ofNat w 26 + BitVec.ofNat w (asciiVal c)).setWidth 8

/-- Src/crypto/caesar_cipher.c:69. -/
def decryptCharW (w : Nat) (c shift : Byte) : Byte :=
  (BitVec.ofInt w ((c.toNat : Int) - shift.toNat - asciiVal c) % BitVec.ofNat w 26 + BitVec.ofNat w (asciiVal c)).setWidth 8

/-- Src/crypto/caesar_cipher.c:45-58 `CaesarCipher_encrypt`. -/
def encryptW (w : Nat) (msg : Ptr) (shift : Byte) : C Unit := do
  let length ← strlen msg
  forN length 0 (fun i _ => do
    let c ← load (msg.addN i)
    if isAlpha c then store (msg.addN i) (encryptCharW w c shift) else pure ()) ()

/-- Src/crypto/caesar_cipher.c:60-73 `CaesarCipher_decrypt`. -/
def decryptW (w : Nat) (msg : Ptr) (shift : Byte) : C Unit := do
  let length ← strlen msg
  forN length 0 (fun i _ => do
    let c ← load (msg.addN i)
    if isAlpha c then store (msg.addN i) (decryptCharW w c shift) else pure ()) ()

end IMU.Caesar

namespace IMU.Bits

/-- Src/bit_manipulation.c:47-57; `(n_bits - 1U) - bit` is `unsigned int`. -/
def reflectLoopW (w : Nat) (n_bits : Byte) : Nat → Nat → U32 → U32 → Option U32
  | 0, _, _, reflection => some reflection
  | n + 1, bit, temp_data, reflection =>
    if temp_data &&& 1#32 = 1#32 then do
      let s ← shl 1#32 ((BitVec.ofNat w 0x1F &&& ((n_bits.setWidth w - BitVec.ofNat w 1) - BitVec.ofNat w bit)).setWidth 32)
      reflectLoopW w n_bits n (bit + 1) (temp_data >>> 1) (reflection ||| s)
    else reflectLoopW w n_bits n (bit + 1) (temp_data >>> 1) reflection

/-- Src/bit_manipulation.c:39-60 `BitManipulation_reflect`. -/
def reflectW (w : Nat) (data : U32) (n_bits : Byte) : Option U32 := reflectLoopW w n_bits n_bits.toNat 0 data 0#32

end IMU.Bits

namespace IMU.Crc
open Base64 (constAt)

/-- A call of `BitManipulation_reflect`, as in Src/crc/crc8_base.c:80. -/
def reflectW (w : Nat) (data : U32) (n_bits : Byte) : C U32 :=
  match Bits.reflectW w data n_bits with
  | some y => pure y
  | none => C.ub .shiftRange

/-- Src/crc/crc8_base.c:50-56: one round of the loop over the bits. -/
def residue8W (w : Nat) (polynomial residue : Byte) : Byte :=
  if 0#w = residue.setWidth w &&& (0x80#8).setWidth w then (residue.setWidth w <<< 1).setWidth 8
  else (residue.setWidth w <<< 1 ^^^ polynomial.setWidth w).setWidth 8

/-- Src/crc/crc8_base.c:50-56: the loop over the bits, `n` rounds. -/
def residues8W (w : Nat) (polynomial : Byte) : Nat → Byte → Byte
  | 0, residue => residue
  | n + 1, residue => residues8W w polynomial n (residue8W w polynomial residue)

/-- Src/crc/crc8_base.c:42-60 `Crc8Base_tableCalculator`. -/
def tableCalculator8W (w : Nat) (polynomial : Byte) (crc_table : List Byte) : C (List Byte) :=
  forN 256 0 (fun dividend crc_table => put crc_table dividend (residues8W w polynomial 8 (BitVec.ofNat 8 dividend))) crc_table

/-- Src/crc/crc8_base.c:76-88: one round of the loop. -/
def round8W (w : Nat) (crc_table : List Byte) (crc_data_ptr : Ptr) (reflected_input : Bool) (counter : Nat) (crc : Byte) :
    C Byte := do
  let d ← load (crc_data_ptr.addN counter)
  let temp ← (if reflected_input then do
      let r ← reflectW w (d.setWidth 32) 8#8
      return r.setWidth 8
    else return d)
  let crc := (crc.setWidth w ^^^ temp.setWidth w).setWidth 8
  constAt crc_table crc.toNat

/-- Src/crc/crc8_base.c:90-97. -/
def finish8W (w : Nat) (crc final_xor_value : Byte) (reflected_output final_xor : Bool) : C Byte := do
  let crc ← (if reflected_output then do
      let r ← reflectW w (crc.setWidth 32) 8#8
      return r.setWidth 8
    else return crc)
  return if final_xor then (crc.setWidth w ^^^ final_xor_value.setWidth w).setWidth 8 else crc

/-- Src/crc/crc8_base.c:62-98 `Crc8Base`. -/
def base8W (w : Nat) (crc_table : List Byte) (crc_data_ptr : Ptr) (crc_length : U32)
    (crc_initial_value final_xor_value : Byte) (reflected_output reflected_input final_xor : Bool) : C Byte := do
  let crc ← forN crc_length.toNat 0 (round8W w crc_table crc_data_ptr reflected_input) crc_initial_value
  finish8W w crc final_xor_value reflected_output final_xor

/-- Src/crc/crc16_base.c:50-56: one round of the loop over the bits. -/
def residue16W (w : Nat) (polynomial residue : U16) : U16 :=
  if 0#w = residue.setWidth w &&& (0x8000#16).setWidth w then (residue.setWidth w <<< 1).setWidth 16
  else (residue.setWidth w <<< 1 ^^^ polynomial.setWidth w).setWidth 16

/-- Src/crc/crc16_base.c:50-56: the loop over the bits, `n` rounds. -/
def residues16W (w : Nat) (polynomial : U16) : Nat → U16 → U16
  | 0, residue => residue
  | n + 1, residue => residues16W w polynomial n (residue16W w polynomial residue)

/-- Src/crc/crc16_base.c:42-60 `Crc16Base_tableCalculator`. -/
def tableCalculator16W (w : Nat) (polynomial : U16) (crc_table : List U16) : C (List U16) :=
  forN 256 0 (fun dividend crc_table =>
    put crc_table dividend (residues16W w polynomial 8 ((BitVec.ofNat 32 dividend <<< 8).setWidth 16))) crc_table

/-- Src/crc/crc16_base.c:76-87: one round of the loop. -/
def round16W (w : Nat) (crc_table : List U16) (crc_data_ptr : Ptr) (reflected_input : Bool) (counter : Nat) (crc : U16) :
    C U16 := do
  let d ← load (crc_data_ptr.addN counter)
  let temp ← (if reflected_input then do
      let r ← reflectW w (d.setWidth 32) 8#8
      return r.setWidth 8
    else return d)
  let e ← constAt crc_table ((crc.setWidth w >>> 8 ^^^ temp.setWidth w).setWidth 8).toNat
  return (crc.setWidth w <<< 8 ^^^ e.setWidth w).setWidth 16

/-- Src/crc/crc16_base.c:89-96. -/
def finish16W (w : Nat) (crc final_xor_value : U16) (reflected_output final_xor : Bool) : C U16 := do
  let crc ← (if reflected_output then do
      let r ← reflectW w (crc.setWidth 32) 16#8
      return r.setWidth 16
    else return crc)
  return if final_xor then (crc.setWidth w ^^^ final_xor_value.setWidth w).setWidth 16 else crc

/-- Src/crc/crc16_base.c:62-97 `Crc16Base`. -/
def base16W (w : Nat) (crc_table : List U16) (crc_data_ptr : Ptr) (crc_length : U32)
    (crc_initial_value final_xor_value : U16) (reflected_output reflected_input final_xor : Bool) : C U16 := do
  let crc ← forN crc_length.toNat 0 (round16W w crc_table crc_data_ptr reflected_input) crc_initial_value
  finish16W w crc final_xor_value reflected_output final_xor

/-- Src/crc/crc32_base.c:76-88: one round of the loop; only the reflection has operations in `unsigned int`. -/
def round32W (w : Nat) (crc_table : List U32) (crc_data_ptr : Ptr) (reflected_input : Bool) (counter : Nat) (crc : U32) :
    C U32 := do
  let d ← load (crc_data_ptr.addN counter)
  let temp ← (if reflected_input then do
      let r ← reflectW w (d.setWidth 32) 8#8
      return r.setWidth 8
    else return d)
  let e ← constAt crc_table ((crc >>> 24 ^^^ temp.setWidth 32).setWidth 8).toNat
  return crc <<< 8 ^^^ e

/-- Src/crc/crc32_base.c:90-97. -/
def finish32W (w : Nat) (crc final_xor_value : U32) (reflected_output final_xor : Bool) : C U32 := do
  let crc ← (if reflected_output then do
      let r ← reflectW w crc 32#8
      return r
    else return crc)
  return if final_xor then crc ^^^ final_xor_value else crc

/-- Src/crc/crc32_base.c:62-98 `Crc32Base`. -/
def base32W (w : Nat) (crc_table : List U32) (crc_data_ptr : Ptr) (crc_length : U32)
    (crc_initial_value final_xor_value : U32) (reflected_output reflected_input final_xor : Bool) : C U32 := do
  let crc ← forN crc_length.toNat 0 (round32W w crc_table crc_data_ptr reflected_input) crc_initial_value
  finish32W w crc final_xor_value reflected_output final_xor

end IMU.Crc

namespace IMU.Utils

/-- Src/utils.c:163-169 `Utils_deserialize16BE`; both assignments truncate to 16 bits. -/
def deserialize16BEW (w : Nat) (buf : Ptr) : C U16 := do
  let b0 ← load (buf.addN 0)
  let value : U16 := ((b0.setWidth 16).setWidth w <<< 8).setWidth 16
  let b1 ← load (buf.addN 1)
  return (value.setWidth w ||| (b1.setWidth 16).setWidth w).setWidth 16

/-- Src/utils.c:227-233 `Utils_deserialize16LE`. -/
def deserialize16LEW (w : Nat) (buf : Ptr) : C U16 := do
  let b1 ← load (buf.addN 1)
  let value : U16 := ((b1.setWidth 16).setWidth w <<< 8).setWidth 16
  let b0 ← load (buf.addN 0)
  return (value.setWidth w ||| (b0.setWidth 16).setWidth w).setWidth 16

/-- Src/utils.c:135-139 `Utils_serialize16BE`; `(uint8_t)(value >> 8u) & 0xFFu` is `unsigned int`. -/
def serialize16BEW (w : Nat) (buf : Ptr) (value : U16) : C Unit := do
  store (buf.addN 0) ((((value.setWidth w >>> 8).setWidth 8).setWidth w &&& BitVec.ofNat w 0xFF).setWidth 8)
  store (buf.addN 1) (((value.setWidth 8).setWidth w &&& BitVec.ofNat w 0xFF).setWidth 8)

/-- Src/utils.c:197-201 `Utils_serialize16LE`. -/
def serialize16LEW (w : Nat) (buf : Ptr) (value : U16) : C Unit := do
  store (buf.addN 1) ((((value.setWidth w >>> 8).setWidth 8).setWidth w &&& BitVec.ofNat w 0xFF).setWidth 8)
  store (buf.addN 0) (((value.setWidth 8).setWidth w &&& BitVec.ofNat w 0xFF).setWidth 8)

/-- Src/utils.c:57-71, the loop of `Utils_stringToUint32`: `length - (i + 1U)` is `unsigned int`, and
`(int8_t)str[i] - (int8_t)'0'` is `int`. -/
def stringLoopW (w : Nat) (charSigned : Bool) (str : Ptr) (length : Byte) : Nat → Nat → U32 → C (Bool × U32)
  | 0, _, integer => pure (true, integer)
  | n + 1, i, integer => do
    let c ← load (str.addN i)
    if 48 ≤ charVal charSigned c ∧ charVal charSigned c ≤ 57 then
      let digit : Byte := (c.signExtend w - BitVec.ofNat w 48).setWidth 8
      let unsigned_power : Byte := (length.setWidth w - (BitVec.ofNat w i + BitVec.ofNat w 1)).setWidth 8
      let r := quickUint32Pow10 unsigned_power 0#32
      let integer := integer + digit.signExtend 32 * r.2
      if r.1 then stringLoopW w charSigned str length n (i + 1) integer
      else pure (false, integer)
    else pure (false, integer)

/-- Src/utils.c:44-93 `Utils_stringToUint32`. -/
def stringToUint32W (w : Nat) (charSigned : Bool) (str : Ptr) (str_length : Byte) : C (Bool × U32) := do
  let check_overflow : Bool := str_length == 10#8
  let length : Byte := if check_overflow then (str_length.setWidth w - BitVec.ofNat w 1).setWidth 8 else str_length
  let r ← stringLoopW w charSigned str length length.toNat 0 0#32
  if check_overflow && r.1 then
    let c ← load (str.addN 9)
    if 48 ≤ charVal charSigned c ∧ charVal charSigned c ≤ 57 then
      let digit : U32 := ((c.signExtend w - BitVec.ofNat w 48).setWidth 8).signExtend 32
      if r.2 > 0xFFFFFFFF#32 / 10#32 ∨
          (r.2 = 0xFFFFFFFF#32 / 10#32 ∧ digit > 0xFFFFFFFF#32 % 10#32) then
        return (false, r.2)
      else
        return (true, r.2 * 10#32 + digit)
    else return (false, r.2)
  else return r

end IMU.Utils
