import Verif.C.Mem

/-!
# Model of Src/base64.c
-/

namespace IMU.Base64

/-- Reading item `i` of a constant array, as in Src/base64.c:63. -/
def constAt {α} (l : List α) (i : Nat) : C α :=
  match l[i]? with
  | some v => pure v
  | none => C.ub .oobRead

/-- Src/base64.c:24-42 `base64_table`: the character codes. -/
def base64_table : List Byte := [
  65#8, 66#8, 67#8, 68#8,
  69#8, 70#8, 71#8, 72#8,
  73#8, 74#8, 75#8, 76#8,
  77#8, 78#8, 79#8, 80#8,
  81#8, 82#8, 83#8, 84#8,
  85#8, 86#8, 87#8, 88#8,
  89#8, 90#8, 97#8, 98#8,
  99#8, 100#8, 101#8, 102#8,
  103#8, 104#8, 105#8, 106#8,
  107#8, 108#8, 109#8, 110#8,
  111#8, 112#8, 113#8, 114#8,
  115#8, 116#8, 117#8, 118#8,
  119#8, 120#8, 121#8, 122#8,
  48#8, 49#8, 50#8, 51#8,
  52#8, 53#8, 54#8, 55#8,
  56#8, 57#8, 43#8, 47#8,
  0#8]

/-- `*pos = base64_table[i]`, as in Src/base64.c:63. -/
def putIdx (pos : Ptr) (i : U32) : C Unit := do
  let v ← constAt base64_table i.toNat
  store pos v

/-- Promotion of a `uint8_t` operand to `unsigned int`, as in Src/base64.c:65. -/
abbrev u32 (x : Byte) : U32 := x.setWidth 32

/-- Src/base64.c:23, 44 and 53-56: local variables of the loop of `Base64_encode`. -/
structure EncState where
  inp : Ptr
  pos : Ptr
  in_position : SizeT
  current_length : SizeT
  success : Int

/-- Src/base64.c:63-69: the body of the loop behind the length check. -/
def encGroup (inp pos : Ptr) : C Unit := do
  let a ← load inp
  putIdx pos (u32 a >>> 2)
  let a ← load inp
  let b ← load (inp.addN 1)
  putIdx (pos.addN 1) (((u32 a &&& 0x03#32) <<< 4) ||| (u32 b >>> 4))
  let b ← load (inp.addN 1)
  let c ← load (inp.addN 2)
  putIdx (pos.addN 2) (((u32 b &&& 0x0F#32) <<< 2) ||| (u32 c >>> 6))
  let c ← load (inp.addN 2)
  putIdx (pos.addN 3) (u32 c &&& 0x3F#32)

/-- Src/base64.c:57-75: the `while` loop; `fuel` bounds the number of rounds. -/
def encLoop (data_length max_result_length : SizeT) (fuel : Nat) (s : EncState) : C EncState :=
  match fuel with
  | 0 => C.ub .fuel
  | fuel + 1 =>
    if 3#64 ≤ data_length - s.in_position then
      let current_length := s.current_length + 4#64
      if max_result_length < current_length then
        pure { s with current_length := current_length, success := 1 }
      else do
        encGroup s.inp s.pos
        encLoop data_length max_result_length fuel
          { inp := s.inp.addN 3, pos := s.pos.addN 4, in_position := s.in_position + 3#64,
            current_length := current_length, success := s.success }
    else pure s

/-- Src/base64.c:84-99: the last, incomplete group. -/
def encLast (data_length in_position : SizeT) (inp pos : Ptr) : C Ptr := do
  let a ← load inp
  putIdx pos (u32 a >>> 2)
  if data_length - in_position = 1#64 then
    let a ← load inp
    putIdx (pos.addN 1) ((u32 a &&& 0x03#32) <<< 4)
    store (pos.addN 2) 61#8
  else
    let a ← load inp
    let b ← load (inp.addN 1)
    putIdx (pos.addN 1) (((u32 a &&& 0x03#32) <<< 4) ||| (u32 b >>> 4))
    let b ← load (inp.addN 1)
    putIdx (pos.addN 2) ((u32 b &&& 0x0F#32) <<< 2)
  store (pos.addN 3) 61#8
  return pos.addN 4

/-- Src/base64.c:77-105: what follows the loop. -/
def encTail (data_length max_result_length : SizeT) (s : EncState) : C Int := do
  if s.success = 0 ∧ data_length - s.in_position ≠ 0#64 then
    let current_length := s.current_length + 4#64
    if max_result_length < current_length then
      store s.pos 0#8
      return 1
    else
      let pos ← encLast data_length s.in_position s.inp s.pos
      store pos 0#8
      return s.success
  else
    store s.pos 0#8
    return s.success

/-- Src/base64.c:21-106 `Base64_encode`. -/
def encode (data : Ptr) (data_length : SizeT) (result : Ptr) (max_result_length : SizeT) : C Int := do
  let len := 4#64 * ((data_length + 2#64) / 3#64)
  if len < data_length then return 1
  else
    let s ← encLoop data_length max_result_length (data_length.toNat + 1)
      { inp := data, pos := result, in_position := 0#64, current_length := 0#64, success := 0 }
    encTail data_length max_result_length s

/-- Src/base64.c:111-126 `base64_index`. -/
def base64_index : List U32 := [
  0#32, 0#32, 0#32, 0#32, 0#32, 0#32, 0#32, 0#32, 0#32, 0#32, 0#32, 0#32, 0#32, 0#32, 0#32, 0#32, 0#32, 0#32, 0#32, 0#32,
  0#32, 0#32, 0#32, 0#32, 0#32, 0#32, 0#32, 0#32, 0#32, 0#32, 0#32, 0#32, 0#32, 0#32, 0#32, 0#32, 0#32, 0#32, 0#32, 0#32,
  0#32, 0#32, 0#32, 62#32, 63#32, 62#32, 62#32, 63#32, 52#32, 53#32, 54#32, 55#32, 56#32, 57#32, 58#32, 59#32, 60#32,
  61#32, 0#32, 0#32, 0#32, 0#32, 0#32, 0#32, 0#32, 0#32, 1#32, 2#32, 3#32, 4#32, 5#32, 6#32, 7#32, 8#32, 9#32, 10#32, 11#32,
  12#32, 13#32, 14#32, 15#32, 16#32, 17#32, 18#32, 19#32, 20#32, 21#32, 22#32, 23#32, 24#32, 25#32, 0#32, 0#32, 0#32,
  0#32, 63#32, 0#32, 26#32, 27#32, 28#32, 29#32, 30#32, 31#32, 32#32, 33#32, 34#32, 35#32, 36#32, 37#32, 38#32, 39#32,
  40#32, 41#32, 42#32, 43#32, 44#32, 45#32, 46#32, 47#32, 48#32, 49#32, 50#32, 51#32, 0#32, 0#32, 0#32, 0#32, 0#32, 0#32,
  0#32, 0#32, 0#32, 0#32, 0#32, 0#32, 0#32, 0#32, 0#32, 0#32, 0#32, 0#32, 0#32, 0#32, 0#32, 0#32, 0#32, 0#32, 0#32, 0#32, 0#32,
  0#32, 0#32, 0#32, 0#32, 0#32, 0#32, 0#32, 0#32, 0#32, 0#32, 0#32, 0#32, 0#32, 0#32, 0#32, 0#32, 0#32, 0#32, 0#32, 0#32, 0#32,
  0#32, 0#32, 0#32, 0#32, 0#32, 0#32, 0#32, 0#32, 0#32, 0#32, 0#32, 0#32, 0#32, 0#32, 0#32, 0#32, 0#32, 0#32, 0#32, 0#32, 0#32,
  0#32, 0#32, 0#32, 0#32, 0#32, 0#32, 0#32, 0#32, 0#32, 0#32, 0#32, 0#32, 0#32, 0#32, 0#32, 0#32, 0#32, 0#32, 0#32, 0#32, 0#32,
  0#32, 0#32, 0#32, 0#32, 0#32, 0#32, 0#32, 0#32, 0#32, 0#32, 0#32, 0#32, 0#32, 0#32, 0#32, 0#32, 0#32, 0#32, 0#32, 0#32, 0#32,
  0#32, 0#32, 0#32, 0#32, 0#32, 0#32, 0#32, 0#32, 0#32, 0#32, 0#32, 0#32, 0#32, 0#32, 0#32, 0#32, 0#32, 0#32, 0#32, 0#32, 0#32,
  0#32]

/-- `base64_index[*p]`, as in Src/base64.c:147. -/
def index (p : Ptr) : C U32 := do
  let c ← load p
  constAt base64_index c.toNat

/-- Src/base64.c:147-154: one round of the loop; all reads come before the writes. -/
def decGroup (inp out : Ptr) (i j : Nat) : C Nat := do
  let a ← index (inp.addN i)
  let b ← index (inp.addN (i + 1))
  let c ← index (inp.addN (i + 2))
  let d ← index (inp.addN (i + 3))
  let n := (a <<< 18) ||| (b <<< 12) ||| (c <<< 6) ||| d
  store (out.addN j) ((n >>> 16).setWidth 8)
  store (out.addN (j + 1)) (((n >>> 8) &&& 0xFF#32).setWidth 8)
  store (out.addN (j + 2)) ((n &&& 0xFF#32).setWidth 8)
  return j + 3

/-- Src/base64.c:157-167: the last, padded group. -/
def decLast (inp : Ptr) (in_len len out_len : SizeT) (out : Ptr) (max_out_len : SizeT) : C Int := do
  let a ← index (inp.addN len.toNat)
  let b ← index (inp.addN (len + 1#64).toNat)
  let n := (a <<< 18) ||| (b <<< 12)
  store (out.addN (out_len - 1#64).toNat) ((n >>> 16).setWidth 8)
  if len + 2#64 < in_len then
    let c ← load (inp.addN (len + 2#64).toNat)
    if c ≠ 61#8 then
      if max_out_len < out_len + 1#64 then return 1
      else
        let v ← index (inp.addN (len + 2#64).toNat)
        let n := n ||| (v <<< 6)
        store (out.addN out_len.toNat) (((n >>> 8) &&& 0xFF#32).setWidth 8)
        return 0
    else return 0
  else return 0

/-- Src/base64.c:128: `pad_bool`. -/
def padBool (inp : Ptr) (in_len : SizeT) : C Bool := do
  if 0#64 < in_len then
    if in_len % 4#64 ≠ 0#64 then return true
    else
      let c ← load (inp.addN (in_len - 1#64).toNat)
      return c == 61#8
  else return false

/-- Src/base64.c:108-172 `Base64_decode`.  The loop variable takes the values 0, 4, 8, ... below `len`. -/
def decode (inp : Ptr) (in_len : SizeT) (out : Ptr) (max_out_len : SizeT) : C Int := do
  let pad_bool ← padBool inp in_len
  let pad_uint := if pad_bool then 1#64 else 0#64
  let len := (((in_len + 3#64) / 4#64) - pad_uint) * 4#64
  let out_len := (len / 4#64) * 3#64 + pad_uint
  if max_out_len < out_len ∨ len = 0#64 then return 1
  else
    let _ ← forN ((len.toNat + 3) / 4) 0 (fun r j => decGroup inp out (4 * r) j) 0
    if pad_bool then decLast inp in_len len out_len out max_out_len
    else return 0

end IMU.Base64
