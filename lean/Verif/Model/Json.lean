import Verif.C.Str

/-!
# Model of Src/json.c
-/

namespace IMU.Json

/-- Src/json.c:41-52 `Json_startString`. -/
def startString (buffer : Ptr) (buffer_size : SizeT) : C Bool := do
  if 2#64 ≤ buffer_size then
    strcpyLit buffer [123#8]
    return true
  else return false

/-- Src/json.c:61-65: the comma behind an earlier member; the result is the new `index`.  For `index = 0` the
pointer `&buffer[index - 1U]` is `SIZE_MAX` bytes behind `buffer`. -/
def addComma (buffer : Ptr) (index : SizeT) : C SizeT := do
  let q ← strcmpLit (buffer.addN (index - 1#64).toNat) [34#8]
  if q then
    strcpyLit (buffer.addN index.toNat) [44#8]
    return index + 1#64
  else return index

/-- Src/json.c:69-83: writing the member. -/
def addMember (buffer : Ptr) (index : SizeT) (key value : Ptr) : C Unit := do
  strcpyLit (buffer.addN index.toNat) [34#8]
  let index := index + 1#64
  strcpy (buffer.addN index.toNat) key
  let k ← strlen key
  let index := index + BitVec.ofNat 64 k
  strcpyLit (buffer.addN index.toNat) [34#8, 58#8, 34#8]
  let index := index + 3#64
  strcpy (buffer.addN index.toNat) value
  let v ← strlen value
  let index := index + BitVec.ofNat 64 v
  strcpyLit (buffer.addN index.toNat) [34#8]

/-- Src/json.c:54-89 `Json_addData`. -/
def addData (buffer : Ptr) (buffer_size : SizeT) (key value : Ptr) : C Bool := do
  let index ← strlen buffer
  let k ← strlen key
  let v ← strlen value
  let total_size := 5#64 + BitVec.ofNat 64 k + BitVec.ofNat 64 v + 1#64
  let index ← addComma buffer (BitVec.ofNat 64 index)
  if total_size + index ≤ buffer_size then
    addMember buffer index key value
    return true
  else return false

/-- Src/json.c:91-103 `Json_endString`. -/
def endString (buffer : Ptr) (buffer_size : SizeT) : C Bool := do
  let index ← strlen buffer
  if 2#64 + BitVec.ofNat 64 index ≤ buffer_size then
    strcpyLit (buffer.addN index) [125#8]
    return true
  else return false

/-- Src/json.c:117-129: the first loop; the result is the final `index` and `success`.  `fuel` bounds the number
of rounds. -/
def search (buffer key : Ptr) (key_size : SizeT) (max_search_size : U32) (fuel : Nat) (index : U32) : C (U32 × Bool) :=
  match fuel with
  | 0 => C.ub .fuel
  | fuel + 1 => do
    if index < max_search_size then
      let eq ← strncmpEq (buffer.addN index.toNat) key key_size.toNat
      if eq then
        let c ← load (buffer.addN (index.setWidth 64 + key_size).toNat)
        return (index, c == 34#8)
      else search buffer key key_size max_search_size fuel (index + 1#32)
    else return (index, false)

/-- Src/json.c:134-139: the second loop, behind the initialisation of `index`. -/
def skip (buffer : Ptr) (buffer_size : SizeT) (fuel : Nat) (index : U32) : C U32 :=
  match fuel with
  | 0 => C.ub .fuel
  | fuel + 1 => do
    if index.setWidth 64 < buffer_size then
      let c ← load (buffer.addN index.toNat)
      if c == 34#8 then return index
      else skip buffer buffer_size fuel (index + 1#32)
    else return index

/-- Src/json.c:144-155: the third loop; the result is `success`. -/
def copy (buffer : Ptr) (buffer_size : SizeT) (value : Ptr) (max_value_size : SizeT) (fuel : Nat) (index : U32)
    (value_size : SizeT) : C Bool :=
  match fuel with
  | 0 => C.ub .fuel
  | fuel + 1 => do
    if index.setWidth 64 < buffer_size ∧ value_size < max_value_size then
      let c ← load (buffer.addN index.toNat)
      store (value.addN value_size.toNat) c
      let c ← load (buffer.addN index.toNat)
      if c == 34#8 then
        store (value.addN value_size.toNat) 0#8
        return true
      else copy buffer buffer_size value max_value_size fuel (index + 1#32) (value_size + 1#64)
    else return false

/-- Src/json.c:105-159 `Json_findByKey`.  The bound `buffer_size + 1` for the rounds of the three loops is reached
only for buffers of 2^32 - 1 bytes or more. -/
def findByKey (buffer : Ptr) (buffer_size : SizeT) (key value : Ptr) (max_value_size : SizeT) : C Bool := do
  let ks ← strlen key
  let key_size := BitVec.ofNat 64 ks
  let max_search_size : U32 := if key_size < buffer_size then (buffer_size - key_size).setWidth 32 else 0#32
  let (index, success) ← search buffer key key_size max_search_size (buffer_size.toNat + 1) 0#32
  if success then
    let index ← skip buffer buffer_size (buffer_size.toNat + 1) (index + (key_size + 1#64).setWidth 32)
    copy buffer buffer_size value max_value_size (buffer_size.toNat + 1) (index + 1#32) 0#64
  else return false

end IMU.Json
