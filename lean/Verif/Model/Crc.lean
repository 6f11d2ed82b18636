import Verif.C.Mem
import Verif.Model.BitManipulation
import Verif.Model.Base64

/-!
# Model of Src/crc/crc8_base.c, Src/crc/crc16_base.c, Src/crc/crc32_base.c

Arrays of `uint8_t`, `uint16_t` and `uint32_t` table entries are modelled by the list of their items: they are
only reached through the one pointer parameter `crc_table`.
-/

namespace IMU.Crc
open Base64 (constAt)

/-- `a[i] = v` for a table `a`, as in Src/crc/crc8_base.c:58. -/
def put {α} (a : List α) (i : Nat) (v : α) : C (List α) :=
  if i < a.length then pure (a.set i v) else C.ub .oobWrite

/-- A call of `BitManipulation_reflect`, as in Src/crc/crc8_base.c:80. -/
def reflect (data : U32) (n_bits : Byte) : C U32 :=
  match Bits.reflect data n_bits with
  | some y => pure y
  | none => C.ub .shiftRange

/-! ### Src/crc/crc8_base.c -/

/-- Src/crc/crc8_base.c:50-56: one round of the loop over the bits.  The operands of `<<` and `^` are promoted to
`int`; the assignment truncates. -/
def residue8 (polynomial residue : Byte) : Byte :=
  if 0#32 = residue.setWidth 32 &&& (0x80#8).setWidth 32 then (residue.setWidth 32 <<< 1).setWidth 8
  else (residue.setWidth 32 <<< 1 ^^^ polynomial.setWidth 32).setWidth 8

/-- Src/crc/crc8_base.c:50-56: the loop over the bits, `n` rounds. -/
def residues8 (polynomial : Byte) : Nat → Byte → Byte
  | 0, residue => residue
  | n + 1, residue => residues8 polynomial n (residue8 polynomial residue)

/-- Src/crc/crc8_base.c:42-60 `Crc8Base_tableCalculator`: the argument and the result are the contents of
`crc_table`. -/
def tableCalculator8 (polynomial : Byte) (crc_table : List Byte) : C (List Byte) :=
  forN 256 0 (fun dividend crc_table => put crc_table dividend (residues8 polynomial 8 (BitVec.ofNat 8 dividend))) crc_table

/-- Src/crc/crc8_base.c:76-88: one round of the loop. -/
def round8 (crc_table : List Byte) (crc_data_ptr : Ptr) (reflected_input : Bool) (counter : Nat) (crc : Byte) : C Byte := do
  let d ← load (crc_data_ptr.addN counter)
  let temp ← (if reflected_input then do
      let r ← reflect (d.setWidth 32) 8#8
      return r.setWidth 8
    else return d)
  let crc := crc ^^^ temp
  constAt crc_table crc.toNat

/-- Src/crc/crc8_base.c:90-97. -/
def finish8 (crc final_xor_value : Byte) (reflected_output final_xor : Bool) : C Byte := do
  let crc ← (if reflected_output then do
      let r ← reflect (crc.setWidth 32) 8#8
      return r.setWidth 8
    else return crc)
  return if final_xor then crc ^^^ final_xor_value else crc

/-- Src/crc/crc8_base.c:62-98 `Crc8Base`. -/
def base8 (crc_table : List Byte) (crc_data_ptr : Ptr) (crc_length : U32) (crc_initial_value final_xor_value : Byte)
    (reflected_output reflected_input final_xor : Bool) : C Byte := do
  let crc ← forN crc_length.toNat 0 (round8 crc_table crc_data_ptr reflected_input) crc_initial_value
  finish8 crc final_xor_value reflected_output final_xor

/-! ### Src/crc/crc16_base.c -/

/-- Src/crc/crc16_base.c:50-56: one round of the loop over the bits. -/
def residue16 (polynomial residue : U16) : U16 :=
  if 0#32 = residue.setWidth 32 &&& (0x8000#16).setWidth 32 then (residue.setWidth 32 <<< 1).setWidth 16
  else (residue.setWidth 32 <<< 1 ^^^ polynomial.setWidth 32).setWidth 16

/-- Src/crc/crc16_base.c:50-56: the loop over the bits, `n` rounds. -/
def residues16 (polynomial : U16) : Nat → U16 → U16
  | 0, residue => residue
  | n + 1, residue => residues16 polynomial n (residue16 polynomial residue)

/-- Src/crc/crc16_base.c:42-60 `Crc16Base_tableCalculator`. -/
def tableCalculator16 (polynomial : U16) (crc_table : List U16) : C (List U16) :=
  forN 256 0 (fun dividend crc_table =>
    put crc_table dividend (residues16 polynomial 8 ((BitVec.ofNat 32 dividend <<< 8).setWidth 16))) crc_table

/-- Src/crc/crc16_base.c:76-87: one round of the loop. -/
def round16 (crc_table : List U16) (crc_data_ptr : Ptr) (reflected_input : Bool) (counter : Nat) (crc : U16) : C U16 := do
  let d ← load (crc_data_ptr.addN counter)
  let temp ← (if reflected_input then do
      let r ← reflect (d.setWidth 32) 8#8
      return r.setWidth 8
    else return d)
  let e ← constAt crc_table ((crc.setWidth 32 >>> 8 ^^^ temp.setWidth 32).setWidth 8).toNat
  return (crc.setWidth 32 <<< 8 ^^^ e.setWidth 32).setWidth 16

/-- Src/crc/crc16_base.c:89-96. -/
def finish16 (crc final_xor_value : U16) (reflected_output final_xor : Bool) : C U16 := do
  let crc ← (if reflected_output then do
      let r ← reflect (crc.setWidth 32) 16#8
      return r.setWidth 16
    else return crc)
  return if final_xor then crc ^^^ final_xor_value else crc

/-- Src/crc/crc16_base.c:62-97 `Crc16Base`. -/
def base16 (crc_table : List U16) (crc_data_ptr : Ptr) (crc_length : U32) (crc_initial_value final_xor_value : U16)
    (reflected_output reflected_input final_xor : Bool) : C U16 := do
  let crc ← forN crc_length.toNat 0 (round16 crc_table crc_data_ptr reflected_input) crc_initial_value
  finish16 crc final_xor_value reflected_output final_xor

/-! ### Src/crc/crc32_base.c -/

/-- Src/crc/crc32_base.c:50-56: one round of the loop over the bits. -/
def residue32 (polynomial residue : U32) : U32 :=
  if 0#32 = residue &&& 0x80000000#32 then residue <<< 1 else residue <<< 1 ^^^ polynomial

/-- Src/crc/crc32_base.c:50-56: the loop over the bits, `n` rounds. -/
def residues32 (polynomial : U32) : Nat → U32 → U32
  | 0, residue => residue
  | n + 1, residue => residues32 polynomial n (residue32 polynomial residue)

/-- Src/crc/crc32_base.c:42-60 `Crc32Base_tableCalculator`. -/
def tableCalculator32 (polynomial : U32) (crc_table : List U32) : C (List U32) :=
  forN 256 0 (fun dividend crc_table =>
    put crc_table dividend (residues32 polynomial 8 (BitVec.ofNat 32 dividend <<< 24))) crc_table

/-- Src/crc/crc32_base.c:76-88: one round of the loop. -/
def round32 (crc_table : List U32) (crc_data_ptr : Ptr) (reflected_input : Bool) (counter : Nat) (crc : U32) : C U32 := do
  let d ← load (crc_data_ptr.addN counter)
  let temp ← (if reflected_input then do
      let r ← reflect (d.setWidth 32) 8#8
      return r.setWidth 8
    else return d)
  let e ← constAt crc_table ((crc >>> 24 ^^^ temp.setWidth 32).setWidth 8).toNat
  return crc <<< 8 ^^^ e

/-- Src/crc/crc32_base.c:90-97. -/
def finish32 (crc final_xor_value : U32) (reflected_output final_xor : Bool) : C U32 := do
  let crc ← (if reflected_output then do
      let r ← reflect crc 32#8
      return r
    else return crc)
  return if final_xor then crc ^^^ final_xor_value else crc

/-- Src/crc/crc32_base.c:62-98 `Crc32Base`. -/
def base32 (crc_table : List U32) (crc_data_ptr : Ptr) (crc_length : U32) (crc_initial_value final_xor_value : U32)
    (reflected_output reflected_input final_xor : Bool) : C U32 := do
  let crc ← forN crc_length.toNat 0 (round32 crc_table crc_data_ptr reflected_input) crc_initial_value
  finish32 crc final_xor_value reflected_output final_xor

/-! ### The variants -/

/-- The constants of one variant (as in Src/crc/crc8_variants/crc8.c:39-43), and which of the two output steps its function makes conditional on
`final_crc` (functions without this parameter: none). -/
structure Variant (w : Nat) where
  name : String
  crc_table : List (BitVec w)
  initial : BitVec w
  final_xor_value : BitVec w
  reflected_output : Bool
  reflected_input : Bool
  final_xor : Bool
  gate_reflect : Bool
  gate_xor : Bool

/-- The body that all functions of the variants share (as in Src/crc/crc8_variants/crc8.c:71-86): the 45 files differ only in the constants and in the
conditional assignments recorded in `Variant`.  `last_crc_ptr` is modelled by `none` (`NULL_PTR`) or the value it
points to. -/
def Variant.call {w : Nat}
    (base : List (BitVec w) → Ptr → U32 → BitVec w → BitVec w → Bool → Bool → Bool → C (BitVec w))
    (v : Variant w) (crc_data_ptr : Ptr) (crc_length : U32) (final_crc : Bool) (last_crc_ptr : Option (BitVec w)) :
    C (BitVec w) :=
  let crc_initial_value := match last_crc_ptr with
    | none => v.initial
    | some last => last
  let reflect_output := if v.gate_reflect then (if final_crc then v.reflected_output else false) else v.reflected_output
  let final_xor := if v.gate_xor then (if final_crc then v.final_xor else false) else v.final_xor
  base v.crc_table crc_data_ptr crc_length crc_initial_value v.final_xor_value reflect_output v.reflected_input final_xor

end IMU.Crc
