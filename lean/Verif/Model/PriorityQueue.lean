import Verif.C.Mem

/-!
# Model of Src/priority_queue.c
-/

namespace IMU.PQ

/-- Inc/priority_queue.h:45-51 `PriorityQueue_t`.  `priority_array` is the number of a `uint32_t` array
object (the caller passes its first element). -/
structure PQueue where
  capacity : U32
  size : U32
  element_size : U32
  priority_array : Nat
  buffer : Ptr
  deriving DecidableEq

/-- Inc/priority_queue.h:40-43 `PriorityQueueItem_t` as passed to `PriorityQueue_init`: the priority array
and the element buffer. -/
structure Items where
  priority : Nat
  element : Ptr

/-- Src/priority_queue.c:39-42 `Full`. -/
def full (q : PQueue) : Bool := q.size == q.capacity

/-- Src/priority_queue.c:44-57 `GetHighestPriorityIndex`; the local state is
(`highest_priority`, `index`). -/
def getHighestPriorityIndex (q : PQueue) : C U32 := do
  let p0 ← loadW q.priority_array 0
  let r ← forN q.size.toNat 0 (fun i (s : U32 × U32) => do
    let p ← loadW q.priority_array i
    if s.1 < p then return (p, BitVec.ofNat 32 i) else return s) (p0, 0#32)
  return r.2

/-- Src/priority_queue.c:59-72 `GetLowestPriorityIndex`. -/
def getLowestPriorityIndex (q : PQueue) : C U32 := do
  let p0 ← loadW q.priority_array 0
  let r ← forN q.size.toNat 0 (fun i (s : U32 × U32) => do
    let p ← loadW q.priority_array i
    if s.1 > p then return (p, BitVec.ofNat 32 i) else return s) (p0, 0#32)
  return r.2

/-- Src/priority_queue.c:74-87 `PriorityQueue_init`. -/
def init (queue : Option PQueue) (capacity element_size : U32) (items : Option Items) :
    Bool × Option PQueue :=
  match queue, items with
  | some _, some it =>
    if capacity ≠ 0#32 ∧ element_size ≠ 0#32 then
      (true, some { capacity := capacity, size := 0#32, element_size := element_size,
                    priority_array := it.priority, buffer := it.element })
    else (false, queue)
  | _, _ => (false, queue)

/-- Src/priority_queue.c:89-92 `PriorityQueue_empty`. -/
def empty (q : PQueue) : Bool := q.size == 0#32

/-- Src/priority_queue.c:113-121 and 147-155: the loop moving the entries behind `index` one place
down, `for (i = index; i < current_size; ++i)`. -/
def shiftDown (q : PQueue) (index current_size : U32) : C Unit :=
  forN (current_size.toNat - index.toNat) index.toNat (fun i (_ : Unit) => do
    let iw := BitVec.ofNat 32 i
    memcpy (q.buffer.addN (iw * q.element_size).toNat)
      (q.buffer.addN (iw * q.element_size + q.element_size).toNat) q.element_size.toNat
    let p ← loadW q.priority_array (iw + 1#32).toNat
    storeW q.priority_array i p) ()

/-- Src/priority_queue.c:94-132 `PriorityQueue_enqueue`.  `element` and `priority` are
`item->element` and `*(item->priority)`; the latter is passed by value, as it does not change during the call
unless it lies in the queue's own array (see `enqueueItem`). -/
def enqueue (q : PQueue) (element : Ptr) (priority : U32) : C (Bool × PQueue) :=
  if !full q then do
    memcpy (q.buffer.addN (q.size * q.element_size).toNat) element q.element_size.toNat
    storeW q.priority_array q.size.toNat priority
    return (true, { q with size := q.size + 1#32 })
  else do
    let lowest ← getLowestPriorityIndex q
    let p ← loadW q.priority_array lowest.toNat
    if p < priority then do
      let q := { q with size := q.size - 1#32 }
      shiftDown q lowest q.size
      memcpy (q.buffer.addN (q.size * q.element_size).toNat) element q.element_size.toNat
      storeW q.priority_array q.size.toNat priority
      return (true, { q with size := q.size + 1#32 })
    else return (false, q)

/-- Src/priority_queue.c:94-132 `PriorityQueue_enqueue` again, with `item->priority` as a pointer to item `pi` of
the `uint32_t` array object `pb`, which is read where the code reads it (lines 103, 108 and 127). -/
def enqueueItem (q : PQueue) (element : Ptr) (pb pi : Nat) : C (Bool × PQueue) :=
  if !full q then do
    memcpy (q.buffer.addN (q.size * q.element_size).toNat) element q.element_size.toNat
    let priority ← loadW pb pi
    storeW q.priority_array q.size.toNat priority
    return (true, { q with size := q.size + 1#32 })
  else do
    let lowest ← getLowestPriorityIndex q
    let p ← loadW q.priority_array lowest.toNat
    let priority ← loadW pb pi
    if p < priority then do
      let q := { q with size := q.size - 1#32 }
      shiftDown q lowest q.size
      memcpy (q.buffer.addN (q.size * q.element_size).toNat) element q.element_size.toNat
      let priority ← loadW pb pi
      storeW q.priority_array q.size.toNat priority
      return (true, { q with size := q.size + 1#32 })
    else return (false, q)

/-- Src/priority_queue.c:134-158 `PriorityQueue_dequeue`. -/
def dequeue (q : PQueue) (element : Ptr) : C (Bool × PQueue) :=
  if !empty q then do
    let highest ← getHighestPriorityIndex q
    memcpy element (q.buffer.addN (highest * q.element_size).toNat) q.element_size.toNat
    let q := { q with size := q.size - 1#32 }
    shiftDown q highest q.size
    return (true, q)
  else return (false, q)

end IMU.PQ
