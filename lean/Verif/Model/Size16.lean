import Verif.Model.Base64
import Verif.Model.Json

/-!
# Src/base64.c and Src/json.c where `size_t` and `int` have 16 bits

The same code as in `Verif/Model/Base64.lean` and `Verif/Model/Json.lean` on a target on which `size_t` is
`unsigned int` and has 16 bits: every operation on a `size_t` wraps at 2^16, and where a `size_t` meets a `uint32_t` the
operation is one of 32 bits.
-/

namespace IMU.Base64

/-- `*pos = base64_table[i]`, as in Src/base64.c:63. -/
def putIdx16 (pos : Ptr) (i : U16) : C Unit := do
  let v ← constAt base64_table i.toNat
  store pos v

/-- Promotion of a `uint8_t` operand to `unsigned int`, as in Src/base64.c:65. -/
abbrev u16 (x : Byte) : U16 := x.setWidth 16

/-- Src/base64.c:63-69. -/
def encGroup16 (inp pos : Ptr) : C Unit := do
  let a ← load inp
  putIdx16 pos (u16 a >>> 2)
  let a ← load inp
  let b ← load (inp.addN 1)
  putIdx16 (pos.addN 1) (((u16 a &&& 0x03#16) <<< 4) ||| (u16 b >>> 4))
  let b ← load (inp.addN 1)
  let c ← load (inp.addN 2)
  putIdx16 (pos.addN 2) (((u16 b &&& 0x0F#16) <<< 2) ||| (u16 c >>> 6))
  let c ← load (inp.addN 2)
  putIdx16 (pos.addN 3) (u16 c &&& 0x3F#16)

/-- Src/base64.c:23, 44 and 53-56: local variables of the loop of `Base64_encode`. -/
structure EncState16 where
  inp : Ptr
  pos : Ptr
  in_position : U16
  current_length : U16
  success : Int

/-- Src/base64.c:57-75. -/
def encLoop16 (data_length max_result_length : U16) (fuel : Nat) (s : EncState16) : C EncState16 :=
  match fuel with
  | 0 => C.ub .fuel
  | fuel + 1 =>
    if 3#16 ≤ data_length - s.in_position then
      let current_length := s.current_length + 4#16
      if max_result_length < current_length then
        pure { s with current_length := current_length, success := 1 }
      else do
        encGroup16 s.inp s.pos
        encLoop16 data_length max_result_length fuel
          { inp := s.inp.addN 3, pos := s.pos.addN 4, in_position := s.in_position + 3#16,
            current_length := current_length, success := s.success }
    else pure s

/-- Src/base64.c:84-99. -/
def encLast16 (data_length in_position : U16) (inp pos : Ptr) : C Ptr := do
  let a ← load inp
  putIdx16 pos (u16 a >>> 2)
  if data_length - in_position = 1#16 then
    let a ← load inp
    putIdx16 (pos.addN 1) ((u16 a &&& 0x03#16) <<< 4)
    store (pos.addN 2) 61#8
  else
    let a ← load inp
    let b ← load (inp.addN 1)
    putIdx16 (pos.addN 1) (((u16 a &&& 0x03#16) <<< 4) ||| (u16 b >>> 4))
    let b ← load (inp.addN 1)
    putIdx16 (pos.addN 2) ((u16 b &&& 0x0F#16) <<< 2)
  store (pos.addN 3) 61#8
  return pos.addN 4

/-- Src/base64.c:77-105. -/
def encTail16 (data_length max_result_length : U16) (s : EncState16) : C Int := do
  if s.success = 0 ∧ data_length - s.in_position ≠ 0#16 then
    let current_length := s.current_length + 4#16
    if max_result_length < current_length then
      store s.pos 0#8
      return 1
    else
      let pos ← encLast16 data_length s.in_position s.inp s.pos
      store pos 0#8
      return s.success
  else
    store s.pos 0#8
    return s.success

/-- Src/base64.c:21-106 `Base64_encode`. -/
def encode16 (data : Ptr) (data_length : U16) (result : Ptr) (max_result_length : U16) : C Int := do
  let len := 4#16 * ((data_length + 2#16) / 3#16)
  if len < data_length then return 1
  else
    let s ← encLoop16 data_length max_result_length (data_length.toNat + 1)
      { inp := data, pos := result, in_position := 0#16, current_length := 0#16, success := 0 }
    encTail16 data_length max_result_length s

/-- Src/base64.c:157-167. -/
def decLast16 (inp : Ptr) (in_len len out_len : U16) (out : Ptr) (max_out_len : U16) : C Int := do
  let a ← index (inp.addN len.toNat)
  let b ← index (inp.addN (len + 1#16).toNat)
  let n := (a <<< 18) ||| (b <<< 12)
  store (out.addN (out_len - 1#16).toNat) ((n >>> 16).setWidth 8)
  if len + 2#16 < in_len then
    let c ← load (inp.addN (len + 2#16).toNat)
    if c ≠ 61#8 then
      if max_out_len < out_len + 1#16 then return 1
      else
        let v ← index (inp.addN (len + 2#16).toNat)
        let n := n ||| (v <<< 6)
        store (out.addN out_len.toNat) (((n >>> 8) &&& 0xFF#32).setWidth 8)
        return 0
    else return 0
  else return 0

/-- Src/base64.c:128. -/
def padBool16 (inp : Ptr) (in_len : U16) : C Bool := do
  if 0#16 < in_len then
    if in_len % 4#16 ≠ 0#16 then return true
    else
      let c ← load (inp.addN (in_len - 1#16).toNat)
      return c == 61#8
  else return false

/-- Src/base64.c:108-172 `Base64_decode`.  The loop variable takes the values 0, 4, 8, ... below `len`; `len` is a
multiple of 4, so `i += 4` does not wrap. -/
def decode16 (inp : Ptr) (in_len : U16) (out : Ptr) (max_out_len : U16) : C Int := do
  let pad_bool ← padBool16 inp in_len
  let pad_uint := if pad_bool then 1#32 else 0#32
  let len : U16 := ((((in_len + 3#16) / 4#16).setWidth 32 - pad_uint) * 4#32).setWidth 16
  let out_len : U16 := (((len / 4#16) * 3#16).setWidth 32 + pad_uint).setWidth 16
  if max_out_len < out_len ∨ len = 0#16 then return 1
  else
    let _ ← forN ((len.toNat + 3) / 4) 0 (fun r j => decGroup inp out (4 * r) j) 0
    if pad_bool then decLast16 inp in_len len out_len out max_out_len
    else return 0

end IMU.Base64

namespace IMU.Json

/-- Src/json.c:41-52 `Json_startString`. -/
def startString16 (buffer : Ptr) (buffer_size : U16) : C Bool := do
  if 2#16 ≤ buffer_size then
    strcpyLit buffer [123#8]
    return true
  else return false

/-- Src/json.c:61-65. -/
def addComma16 (buffer : Ptr) (index : U16) : C U16 := do
  let q ← strcmpLit (buffer.addN (index - 1#16).toNat) [34#8]
  if q then
    strcpyLit (buffer.addN index.toNat) [44#8]
    return index + 1#16
  else return index

/-- Src/json.c:69-83. -/
def addMember16 (buffer : Ptr) (index : U16) (key value : Ptr) : C Unit := do
  strcpyLit (buffer.addN index.toNat) [34#8]
  let index := index + 1#16
  strcpy (buffer.addN index.toNat) key
  let k ← strlen key
  let index := index + BitVec.ofNat 16 k
  strcpyLit (buffer.addN index.toNat) [34#8, 58#8, 34#8]
  let index := index + 3#16
  strcpy (buffer.addN index.toNat) value
  let v ← strlen value
  let index := index + BitVec.ofNat 16 v
  strcpyLit (buffer.addN index.toNat) [34#8]

/-- Src/json.c:54-89 `Json_addData`. -/
def addData16 (buffer : Ptr) (buffer_size : U16) (key value : Ptr) : C Bool := do
  let index ← strlen buffer
  let k ← strlen key
  let v ← strlen value
  let total_size := 5#16 + BitVec.ofNat 16 k + BitVec.ofNat 16 v + 1#16
  let index ← addComma16 buffer (BitVec.ofNat 16 index)
  if total_size + index ≤ buffer_size then
    addMember16 buffer index key value
    return true
  else return false

/-- Src/json.c:91-103 `Json_endString`. -/
def endString16 (buffer : Ptr) (buffer_size : U16) : C Bool := do
  let index ← strlen buffer
  if 2#16 + BitVec.ofNat 16 index ≤ buffer_size then
    strcpyLit (buffer.addN index) [125#8]
    return true
  else return false

/-- Src/json.c:117-129. -/
def search16 (buffer key : Ptr) (key_size : U16) (max_search_size : U32) (fuel : Nat) (index : U32) : C (U32 × Bool) :=
  match fuel with
  | 0 => C.ub .fuel
  | fuel + 1 => do
    if index < max_search_size then
      let eq ← strncmpEq (buffer.addN index.toNat) key key_size.toNat
      if eq then
        let c ← load (buffer.addN (index + key_size.setWidth 32).toNat)
        return (index, c == 34#8)
      else search16 buffer key key_size max_search_size fuel (index + 1#32)
    else return (index, false)

/-- Src/json.c:134-139. -/
def skip16 (buffer : Ptr) (buffer_size : U16) (fuel : Nat) (index : U32) : C U32 :=
  match fuel with
  | 0 => C.ub .fuel
  | fuel + 1 => do
    if index < buffer_size.setWidth 32 then
      let c ← load (buffer.addN index.toNat)
      if c == 34#8 then return index
      else skip16 buffer buffer_size fuel (index + 1#32)
    else return index

/-- Src/json.c:144-155. -/
def copy16 (buffer : Ptr) (buffer_size : U16) (value : Ptr) (max_value_size : U16) (fuel : Nat) (index : U32)
    (value_size : U16) : C Bool :=
  match fuel with
  | 0 => C.ub .fuel
  | fuel + 1 => do
    if index < buffer_size.setWidth 32 ∧ value_size < max_value_size then
      let c ← load (buffer.addN index.toNat)
      store (value.addN value_size.toNat) c
      let c ← load (buffer.addN index.toNat)
      if c == 34#8 then
        store (value.addN value_size.toNat) 0#8
        return true
      else copy16 buffer buffer_size value max_value_size fuel (index + 1#32) (value_size + 1#16)
    else return false

/-- Src/json.c:105-159 `Json_findByKey`. -/
def findByKey16 (buffer : Ptr) (buffer_size : U16) (key value : Ptr) (max_value_size : U16) : C Bool := do
  let ks ← strlen key
  let key_size := BitVec.ofNat 16 ks
  let max_search_size : U32 := if key_size < buffer_size then (buffer_size - key_size).setWidth 32 else 0#32
  let (index, success) ← search16 buffer key key_size max_search_size (buffer_size.toNat + 1) 0#32
  if success then
    let index ← skip16 buffer buffer_size (buffer_size.toNat + 1) (index + (key_size + 1#16).setWidth 32)
    copy16 buffer buffer_size value max_value_size (buffer_size.toNat + 1) (index + 1#32) 0#16
  else return false

end IMU.Json
