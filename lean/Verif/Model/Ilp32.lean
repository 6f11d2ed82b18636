import Verif.Model.Base64
import Verif.Model.Json

/-!
# Src/base64.c and Src/json.c where `size_t` has 32 bits

The same code as in `Verif/Model/Base64.lean` and `Verif/Model/Json.lean` on a target on which `size_t` is
`uint32_t`: every operation on a `size_t` wraps at 2^32.
-/

namespace IMU.Base64

/-- Src/base64.c:23, 44 and 53-56: local variables of the loop of `Base64_encode`. -/
structure EncState32 where
  inp : Ptr
  pos : Ptr
  in_position : U32
  current_length : U32
  success : Int

/-- Src/base64.c:57-75. -/
def encLoop32 (data_length max_result_length : U32) (fuel : Nat) (s : EncState32) : C EncState32 :=
  match fuel with
  | 0 => C.ub .fuel
  | fuel + 1 =>
    if 3#32 ≤ data_length - s.in_position then
      let current_length := s.current_length + 4#32
      if max_result_length < current_length then
        pure { s with current_length := current_length, success := 1 }
      else do
        encGroup s.inp s.pos
        encLoop32 data_length max_result_length fuel
          { inp := s.inp.addN 3, pos := s.pos.addN 4, in_position := s.in_position + 3#32,
            current_length := current_length, success := s.success }
    else pure s

/-- Src/base64.c:84-99. -/
def encLast32 (data_length in_position : U32) (inp pos : Ptr) : C Ptr := do
  let a ← load inp
  putIdx pos (u32 a >>> 2)
  if data_length - in_position = 1#32 then
    let a ← load inp
    putIdx (pos.addN 1) ((u32 a &&& 0x03#32) <<< 4)
    store (pos.addN 2) 61#8
  else
    let a ← load inp
    let b ← load (inp.addN 1)
    putIdx (pos.addN 1) (((u32 a &&& 0x03#32) <<< 4) ||| (u32 b >>> 4))
    let b ← load (inp.addN 1)
    putIdx (pos.addN 2) ((u32 b &&& 0x0F#32) <<< 2)
  store (pos.addN 3) 61#8
  return pos.addN 4

/-- Src/base64.c:77-105. -/
def encTail32 (data_length max_result_length : U32) (s : EncState32) : C Int := do
  if s.success = 0 ∧ data_length - s.in_position ≠ 0#32 then
    let current_length := s.current_length + 4#32
    if max_result_length < current_length then
      store s.pos 0#8
      return 1
    else
      let pos ← encLast32 data_length s.in_position s.inp s.pos
      store pos 0#8
      return s.success
  else
    store s.pos 0#8
    return s.success

/-- Src/base64.c:21-106 `Base64_encode`. -/
def encode32 (data : Ptr) (data_length : U32) (result : Ptr) (max_result_length : U32) : C Int := do
  let len := 4#32 * ((data_length + 2#32) / 3#32)
  if len < data_length then return 1
  else
    let s ← encLoop32 data_length max_result_length (data_length.toNat + 1)
      { inp := data, pos := result, in_position := 0#32, current_length := 0#32, success := 0 }
    encTail32 data_length max_result_length s

/-- Src/base64.c:157-167. -/
def decLast32 (inp : Ptr) (in_len len out_len : U32) (out : Ptr) (max_out_len : U32) : C Int := do
  let a ← index (inp.addN len.toNat)
  let b ← index (inp.addN (len + 1#32).toNat)
  let n := (a <<< 18) ||| (b <<< 12)
  store (out.addN (out_len - 1#32).toNat) ((n >>> 16).setWidth 8)
  if len + 2#32 < in_len then
    let c ← load (inp.addN (len + 2#32).toNat)
    if c ≠ 61#8 then
      if max_out_len < out_len + 1#32 then return 1
      else
        let v ← index (inp.addN (len + 2#32).toNat)
        let n := n ||| (v <<< 6)
        store (out.addN out_len.toNat) (((n >>> 8) &&& 0xFF#32).setWidth 8)
        return 0
    else return 0
  else return 0

/-- Src/base64.c:128. -/
def padBool32 (inp : Ptr) (in_len : U32) : C Bool := do
  if 0#32 < in_len then
    if in_len % 4#32 ≠ 0#32 then return true
    else
      let c ← load (inp.addN (in_len - 1#32).toNat)
      return c == 61#8
  else return false

/-- Src/base64.c:108-172 `Base64_decode`.  The loop variable takes the values 0, 4, 8, ... below `len`; `len` is a
multiple of 4, so `i += 4` does not wrap. -/
def decode32 (inp : Ptr) (in_len : U32) (out : Ptr) (max_out_len : U32) : C Int := do
  let pad_bool ← padBool32 inp in_len
  let pad_uint := if pad_bool then 1#32 else 0#32
  let len := (((in_len + 3#32) / 4#32) - pad_uint) * 4#32
  let out_len := (len / 4#32) * 3#32 + pad_uint
  if max_out_len < out_len ∨ len = 0#32 then return 1
  else
    let _ ← forN ((len.toNat + 3) / 4) 0 (fun r j => decGroup inp out (4 * r) j) 0
    if pad_bool then decLast32 inp in_len len out_len out max_out_len
    else return 0

end IMU.Base64

namespace IMU.Json

/-- Src/json.c:41-52 `Json_startString`. -/
def startString32 (buffer : Ptr) (buffer_size : U32) : C Bool := do
  if 2#32 ≤ buffer_size then
    strcpyLit buffer [123#8]
    return true
  else return false

/-- Src/json.c:61-65. -/
def addComma32 (buffer : Ptr) (index : U32) : C U32 := do
  let q ← strcmpLit (buffer.addN (index - 1#32).toNat) [34#8]
  if q then
    strcpyLit (buffer.addN index.toNat) [44#8]
    return index + 1#32
  else return index

/-- Src/json.c:69-83. -/
def addMember32 (buffer : Ptr) (index : U32) (key value : Ptr) : C Unit := do
  strcpyLit (buffer.addN index.toNat) [34#8]
  let index := index + 1#32
  strcpy (buffer.addN index.toNat) key
  let k ← strlen key
  let index := index + BitVec.ofNat 32 k
  strcpyLit (buffer.addN index.toNat) [34#8, 58#8, 34#8]
  let index := index + 3#32
  strcpy (buffer.addN index.toNat) value
  let v ← strlen value
  let index := index + BitVec.ofNat 32 v
  strcpyLit (buffer.addN index.toNat) [34#8]

/-- Src/json.c:54-89 `Json_addData`. -/
def addData32 (buffer : Ptr) (buffer_size : U32) (key value : Ptr) : C Bool := do
  let index ← strlen buffer
  let k ← strlen key
  let v ← strlen value
  let total_size := 5#32 + BitVec.ofNat 32 k + BitVec.ofNat 32 v + 1#32
  let index ← addComma32 buffer (BitVec.ofNat 32 index)
  if total_size + index ≤ buffer_size then
    addMember32 buffer index key value
    return true
  else return false

/-- Src/json.c:91-103 `Json_endString`. -/
def endString32 (buffer : Ptr) (buffer_size : U32) : C Bool := do
  let index ← strlen buffer
  if 2#32 + BitVec.ofNat 32 index ≤ buffer_size then
    strcpyLit (buffer.addN index) [125#8]
    return true
  else return false

/-- Src/json.c:117-129. -/
def search32 (buffer key : Ptr) (key_size : U32) (max_search_size : U32) (fuel : Nat) (index : U32) : C (U32 × Bool) :=
  match fuel with
  | 0 => C.ub .fuel
  | fuel + 1 => do
    if index < max_search_size then
      let eq ← strncmpEq (buffer.addN index.toNat) key key_size.toNat
      if eq then
        let c ← load (buffer.addN (index + key_size).toNat)
        return (index, c == 34#8)
      else search32 buffer key key_size max_search_size fuel (index + 1#32)
    else return (index, false)

/-- Src/json.c:134-139. -/
def skip32 (buffer : Ptr) (buffer_size : U32) (fuel : Nat) (index : U32) : C U32 :=
  match fuel with
  | 0 => C.ub .fuel
  | fuel + 1 => do
    if index < buffer_size then
      let c ← load (buffer.addN index.toNat)
      if c == 34#8 then return index
      else skip32 buffer buffer_size fuel (index + 1#32)
    else return index

/-- Src/json.c:144-155. -/
def copy32 (buffer : Ptr) (buffer_size : U32) (value : Ptr) (max_value_size : U32) (fuel : Nat) (index : U32)
    (value_size : U32) : C Bool :=
  match fuel with
  | 0 => C.ub .fuel
  | fuel + 1 => do
    if index < buffer_size ∧ value_size < max_value_size then
      let c ← load (buffer.addN index.toNat)
      store (value.addN value_size.toNat) c
      let c ← load (buffer.addN index.toNat)
      if c == 34#8 then
        store (value.addN value_size.toNat) 0#8
        return true
      else copy32 buffer buffer_size value max_value_size fuel (index + 1#32) (value_size + 1#32)
    else return false

/-- Src/json.c:105-159 `Json_findByKey`. -/
def findByKey32 (buffer : Ptr) (buffer_size : U32) (key value : Ptr) (max_value_size : U32) : C Bool := do
  let ks ← strlen key
  let key_size := BitVec.ofNat 32 ks
  let max_search_size : U32 := if key_size < buffer_size then buffer_size - key_size else 0#32
  let (index, success) ← search32 buffer key key_size max_search_size (buffer_size.toNat + 1) 0#32
  if success then
    let index ← skip32 buffer buffer_size (buffer_size.toNat + 1) (index + (key_size + 1#32))
    copy32 buffer buffer_size value max_value_size (buffer_size.toNat + 1) (index + 1#32) 0#32
  else return false

end IMU.Json
