import Verif.C.LeakMem
import Verif.Model.Leak
import Verif.Model.Caesar
import Verif.Model.Map
import Verif.Model.PriorityQueue
import Verif.Model.Queue

/-!
# The containers and the Caesar cipher with an observer

The same code as in `Verif/Model/Queue.lean`, `PriorityQueue.lean`, `Map.lean` and `Caesar.lean`, line by line, showing
the memory accesses and branches of the C text (`Props/LeakContainers.lean` shows that without the observer it is the
same).  Simplifications: the members of the structures and of the item passed to `PriorityQueue_enqueue` are at addresses
known beforehand and are not shown; a byte or priority that the C text reads several times in one statement is shown once;
the null pointer checks are not shown.
-/

namespace IMU.Queue

/-- Src/queue.c:64-81 `Queue_enqueue`. -/
def enqueueT (queue : Option Queue) (element : Option Ptr) : T (Bool × Option Queue) :=
  match queue, element with
  | some q, some el => do
    let c ← T.branch (!full q)
    if c then do
      T.quiet (C.require (q.capacity ≠ 0#32) .divByZero)
      memcpyT (q.buffer.addN (((q.rear + 1#32) % q.capacity) * q.element_size).toNat) el
        q.element_size.toNat
      return (true, some { q with rear := (q.rear + 1#32) % q.capacity, size := q.size + 1#32 })
    else pure (false, some q)
  | q, _ => pure (false, q)

/-- Src/queue.c:83-99 `Queue_dequeue`. -/
def dequeueT (queue : Option Queue) (element : Option Ptr) : T (Bool × Option Queue) :=
  match queue, element with
  | some q, some el => do
    let c ← T.branch (!empty q)
    if c then do
      memcpyT el (q.buffer.addN (q.front * q.element_size).toNat) q.element_size.toNat
      T.quiet (C.require (q.capacity ≠ 0#32) .divByZero)
      return (true, some { q with front := (q.front + 1#32) % q.capacity, size := q.size - 1#32 })
    else pure (false, some q)
  | q, _ => pure (false, q)

/-- Src/queue.c:101-115 `Queue_front`. -/
def frontT (queue : Option Queue) (element : Option Ptr) : T Bool :=
  match queue, element with
  | some q, some el => do
    let c ← T.branch (!empty q)
    if c then do
      memcpyT el (q.buffer.addN (q.front * q.element_size).toNat) q.element_size.toNat
      return true
    else pure false
  | _, _ => pure false

/-- Src/queue.c:117-131 `Queue_rear`. -/
def rearT (queue : Option Queue) (element : Option Ptr) : T Bool :=
  match queue, element with
  | some q, some el => do
    let c ← T.branch (!empty q)
    if c then do
      memcpyT el (q.buffer.addN (q.rear * q.element_size).toNat) q.element_size.toNat
      return true
    else pure false
  | _, _ => pure false

/-- A call of one of the functions of Src/queue.c:64-131 by a client; the pointers are the client's. -/
inductive Call where
  | enqueue (element : Option Ptr)
  | dequeue (element : Option Ptr)
  | front (element : Option Ptr)
  | rear (element : Option Ptr)

/-- One call on the queue `q`, Src/queue.c:64-131. -/
def callT (q : Option Queue) : Call → T (Bool × Option Queue)
  | .enqueue el => enqueueT q el
  | .dequeue el => dequeueT q el
  | .front el => do
    let r ← frontT q el
    return (r, q)
  | .rear el => do
    let r ← rearT q el
    return (r, q)

/-- The calls (Src/queue.c:64-131) of a client one after another, with all the answers; the client itself is not in /repo. -/
def callsT : List Call → Option Queue → T (List Bool × Option Queue)
  | [], q => pure ([], q)
  | c :: l, q => do
    let r ← callT q c
    let rs ← callsT l r.2
    return (r.1 :: rs.1, rs.2)

end IMU.Queue

namespace IMU.PQ

/-- Src/priority_queue.c:44-57 `GetHighestPriorityIndex`. -/
def getHighestPriorityIndexT (q : PQueue) : T U32 := do
  let p0 ← loadWT q.priority_array 0
  let r ← forNT q.size.toNat 0 (fun i (s : U32 × U32) => do
    let p ← loadWT q.priority_array i
    let c ← T.branch (decide (s.1 < p))
    if c then return (p, BitVec.ofNat 32 i) else return s) (p0, 0#32)
  return r.2

/-- Src/priority_queue.c:59-72 `GetLowestPriorityIndex`. -/
def getLowestPriorityIndexT (q : PQueue) : T U32 := do
  let p0 ← loadWT q.priority_array 0
  let r ← forNT q.size.toNat 0 (fun i (s : U32 × U32) => do
    let p ← loadWT q.priority_array i
    let c ← T.branch (decide (s.1 > p))
    if c then return (p, BitVec.ofNat 32 i) else return s) (p0, 0#32)
  return r.2

/-- Src/priority_queue.c:113-121 and 147-155. -/
def shiftDownT (q : PQueue) (index current_size : U32) : T Unit :=
  forNT (current_size.toNat - index.toNat) index.toNat (fun i (_ : Unit) => do
    let iw := BitVec.ofNat 32 i
    memcpyT (q.buffer.addN (iw * q.element_size).toNat)
      (q.buffer.addN (iw * q.element_size + q.element_size).toNat) q.element_size.toNat
    let p ← loadWT q.priority_array (iw + 1#32).toNat
    storeWT q.priority_array i p) ()

/-- Src/priority_queue.c:94-132 `PriorityQueue_enqueue`. -/
def enqueueT (q : PQueue) (element : Ptr) (priority : U32) : T (Bool × PQueue) := do
  let c ← T.branch (!full q)
  if c then do
    memcpyT (q.buffer.addN (q.size * q.element_size).toNat) element q.element_size.toNat
    storeWT q.priority_array q.size.toNat priority
    return (true, { q with size := q.size + 1#32 })
  else do
    let lowest ← getLowestPriorityIndexT q
    let p ← loadWT q.priority_array lowest.toNat
    let c ← T.branch (decide (p < priority))
    if c then do
      let q := { q with size := q.size - 1#32 }
      shiftDownT q lowest q.size
      memcpyT (q.buffer.addN (q.size * q.element_size).toNat) element q.element_size.toNat
      storeWT q.priority_array q.size.toNat priority
      return (true, { q with size := q.size + 1#32 })
    else return (false, q)

/-- Src/priority_queue.c:134-158 `PriorityQueue_dequeue`. -/
def dequeueT (q : PQueue) (element : Ptr) : T (Bool × PQueue) := do
  let c ← T.branch (!empty q)
  if c then do
    let highest ← getHighestPriorityIndexT q
    memcpyT element (q.buffer.addN (highest * q.element_size).toNat) q.element_size.toNat
    let q := { q with size := q.size - 1#32 }
    shiftDownT q highest q.size
    return (true, q)
  else return (false, q)

/-- A call of one of the functions of Src/priority_queue.c:94-158 by a client. -/
inductive Call where
  | enqueue (element : Ptr) (priority : U32)
  | dequeue (element : Ptr)

/-- The same call (Src/priority_queue.c:94-158) with another priority. -/
def Call.map (f : U32 → U32) : Call → Call
  | .enqueue el p => .enqueue el (f p)
  | .dequeue el => .dequeue el

/-- One call on the queue `q` (Src/priority_queue.c:94-158). -/
def callT (q : PQueue) : Call → T (Bool × PQueue)
  | .enqueue el p => enqueueT q el p
  | .dequeue el => dequeueT q el

/-- The calls (Src/priority_queue.c:94-158) of a client one after another, with all the answers; the client itself is not in
/repo. -/
def callsT : List Call → PQueue → T (List Bool × PQueue)
  | [], q => pure ([], q)
  | c :: l, q => do
    let r ← callT q c
    let rs ← callsT l r.2
    return (r.1 :: rs.1, rs.2)

end IMU.PQ

namespace IMU.Map

/-- Src/map.c:44-50: the loop of `GetIndex`, `n` iterations left, at index `i`. -/
def getIndexLoopT (map : MapT) (key : Ptr) : Nat → Int → T Int
  | 0, _ => do
    let _ ← T.branch false
    return -1
  | n + 1, i => do
    let _ ← T.branch true
    let off ← T.quiet (i32 (i * map.key_size))
    let eq ← memeqT (map.keys.addZ off) key (toSizeT map.key_size)
    let c ← T.branch eq
    if c then pure i else getIndexLoopT map key n (i + 1)

/-- Src/map.c:41-52 `GetIndex`. -/
def getIndexT (map : MapT) (key : Ptr) (size : Int) : T Int := getIndexLoopT map key size.toNat 0

/-- Src/map.c:70-100 `Map_insert`. -/
def insertT (map : Option MapT) (key value : Ptr) : T (Bool × Option MapT) :=
  match map with
  | none => pure (false, none)
  | some map => do
    let index ← getIndexT map key map.current_size
    let c ← T.branch (decide (index = -1))
    if c then do
      let c ← T.branch (decide (map.current_size ≠ map.max_map_size))
      if c then do
        let ko ← T.quiet (i32 (map.current_size * map.key_size))
        memcpyT (map.keys.addZ ko) key (toSizeT map.key_size)
        let vo ← T.quiet (i32 (map.current_size * map.value_size))
        memcpyT (map.values.addZ vo) value (toSizeT map.value_size)
        let cs ← T.quiet (i32 (map.current_size + 1))
        return (true, some { map with current_size := cs })
      else return (false, some map)
    else do
      let vo ← T.quiet (i32 (index * map.value_size))
      memcpyT (map.values.addZ vo) value (toSizeT map.value_size)
      return (true, some map)

/-- Src/map.c:102-117 `Map_getValue`. -/
def getValueT (map : Option MapT) (key value : Ptr) : T Bool :=
  match map with
  | none => pure false
  | some map => do
    let index ← getIndexT map key map.current_size
    let c ← T.branch (decide (index ≠ -1))
    if c then do
      let vo ← T.quiet (i32 (index * map.value_size))
      memcpyT value (map.values.addZ vo) (toSizeT map.value_size)
      return true
    else return false

end IMU.Map

namespace IMU.Caesar
open Utils Vernam

/-- Src/crypto/caesar_cipher.c:48-56 and 63-71: one round; `f` is the computation of the new character from the kind of
letter. -/
def roundT (msg : Ptr) (f : Byte → Byte) (i : Nat) : T Unit := do
  let c ← loadT (msg.addN i)
  let alpha ← isAlphaT c
  let alpha ← T.branch alpha
  if alpha then do
    let u ← isUpperCharT c
    let _ ← T.branch u
    storeT (msg.addN i) (f c)
  else return ()

/-- Src/crypto/caesar_cipher.c:45-58 `CaesarCipher_encrypt`. -/
def encryptT (msg : Ptr) (shift : Byte) : T Unit := do
  let length ← strlenT msg
  forNT length 0 (fun i _ => roundT msg (fun c => encryptChar c shift) i) ()

/-- Src/crypto/caesar_cipher.c:60-73 `CaesarCipher_decrypt`. -/
def decryptT (msg : Ptr) (shift : Byte) : T Unit := do
  let length ← strlenT msg
  forNT length 0 (fun i _ => roundT msg (fun c => decryptChar c shift) i) ()

end IMU.Caesar
