import Verif.Model.Json
import Verif.C.LeakStr

/-!
# The functions of Src/json.c, observed
-/

namespace IMU.Json

/-- Src/json.c:117-129: `search`, observed. -/
def searchT (buffer key : Ptr) (key_size : SizeT) (max_search_size : U32) (fuel : Nat) (index : U32) : T (U32 × Bool) :=
  match fuel with
  | 0 => T.quiet (C.ub .fuel)
  | fuel + 1 => do
    let b ← T.branch (decide (index < max_search_size))
    if b then
      let eq ← strncmpEqT (buffer.addN index.toNat) key key_size.toNat
      let b ← T.branch eq
      if b then
        let c ← loadT (buffer.addN (index.setWidth 64 + key_size).toNat)
        let s ← T.branch (c == 34#8)
        return (index, s)
      else searchT buffer key key_size max_search_size fuel (index + 1#32)
    else return (index, false)

/-- Src/json.c:134-139: `skip`, observed. -/
def skipT (buffer : Ptr) (buffer_size : SizeT) (fuel : Nat) (index : U32) : T U32 :=
  match fuel with
  | 0 => T.quiet (C.ub .fuel)
  | fuel + 1 => do
    let b ← T.branch (decide (index.setWidth 64 < buffer_size))
    if b then
      let c ← loadT (buffer.addN index.toNat)
      let q ← T.branch (c == 34#8)
      if q then return index
      else skipT buffer buffer_size fuel (index + 1#32)
    else return index

/-- Src/json.c:144-155: `copy`, observed; the second half of the loop condition is decided only if the first one holds. -/
def copyT (buffer : Ptr) (buffer_size : SizeT) (value : Ptr) (max_value_size : SizeT) (fuel : Nat) (index : U32)
    (value_size : SizeT) : T Bool :=
  match fuel with
  | 0 => T.quiet (C.ub .fuel)
  | fuel + 1 => do
    let b ← T.branch (decide (index.setWidth 64 < buffer_size))
    if b then
      let b ← T.branch (decide (value_size < max_value_size))
      if b then
        let c ← loadT (buffer.addN index.toNat)
        storeT (value.addN value_size.toNat) c
        let c ← loadT (buffer.addN index.toNat)
        let q ← T.branch (c == 34#8)
        if q then
          storeT (value.addN value_size.toNat) 0#8
          return true
        else copyT buffer buffer_size value max_value_size fuel (index + 1#32) (value_size + 1#64)
      else return false
    else return false

/-- Src/json.c:105-159 `Json_findByKey`, observed. -/
def findByKeyT (buffer : Ptr) (buffer_size : SizeT) (key value : Ptr) (max_value_size : SizeT) : T Bool := do
  let ks ← strlenT key
  let key_size := BitVec.ofNat 64 ks
  let b ← T.branch (decide (key_size < buffer_size))
  let max_search_size : U32 := if b then (buffer_size - key_size).setWidth 32 else 0#32
  let r ← searchT buffer key key_size max_search_size (buffer_size.toNat + 1) 0#32
  let b ← T.branch r.2
  if b then
    let index ← skipT buffer buffer_size (buffer_size.toNat + 1) (r.1 + (key_size + 1#64).setWidth 32)
    copyT buffer buffer_size value max_value_size (buffer_size.toNat + 1) (index + 1#32) 0#64
  else return false

/-- Src/json.c:41-52 `Json_startString`, observed. -/
def startStringT (buffer : Ptr) (buffer_size : SizeT) : T Bool := do
  let b ← T.branch (decide (2#64 ≤ buffer_size))
  if b then
    strcpyLitT buffer [123#8]
    return true
  else return false

/-- Src/json.c:61-65: `addComma`, observed. -/
def addCommaT (buffer : Ptr) (index : SizeT) : T SizeT := do
  let q ← strcmpLitT (buffer.addN (index - 1#64).toNat) [34#8]
  let b ← T.branch q
  if b then
    strcpyLitT (buffer.addN index.toNat) [44#8]
    return index + 1#64
  else return index

/-- Src/json.c:69-83: `addMember`, observed; lines 74 and 81 measure key and value once more. -/
def addMemberT (buffer : Ptr) (index : SizeT) (key value : Ptr) : T Unit := do
  strcpyLitT (buffer.addN index.toNat) [34#8]
  let index := index + 1#64
  strcpyT (buffer.addN index.toNat) key
  let k ← strlenT key
  let index := index + BitVec.ofNat 64 k
  strcpyLitT (buffer.addN index.toNat) [34#8, 58#8, 34#8]
  let index := index + 3#64
  strcpyT (buffer.addN index.toNat) value
  let v ← strlenT value
  let index := index + BitVec.ofNat 64 v
  strcpyLitT (buffer.addN index.toNat) [34#8]

/-- Src/json.c:54-89 `Json_addData`, observed. -/
def addDataT (buffer : Ptr) (buffer_size : SizeT) (key value : Ptr) : T Bool := do
  let index ← strlenT buffer
  let k ← strlenT key
  let v ← strlenT value
  let total_size := 5#64 + BitVec.ofNat 64 k + BitVec.ofNat 64 v + 1#64
  let index ← addCommaT buffer (BitVec.ofNat 64 index)
  let b ← T.branch (decide (total_size + index ≤ buffer_size))
  if b then
    addMemberT buffer index key value
    return true
  else return false

/-- Src/json.c:91-103 `Json_endString`, observed. -/
def endStringT (buffer : Ptr) (buffer_size : SizeT) : T Bool := do
  let index ← strlenT buffer
  let b ← T.branch (decide (2#64 + BitVec.ofNat 64 index ≤ buffer_size))
  if b then
    strcpyLitT (buffer.addN index) [125#8]
    return true
  else return false

end IMU.Json
