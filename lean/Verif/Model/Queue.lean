import Verif.C.Mem

/-!
# Model of Src/queue.c
-/

namespace IMU.Queue

/-- Inc/queue.h:40-47 `Queue_t`. -/
structure Queue where
  capacity : U32
  front : U32
  rear : U32
  size : U32
  element_size : U32
  buffer : Ptr
  deriving DecidableEq

/-- Src/queue.c:39-52 `Queue_init`.  `queue` is the structure before the call (`none`: null
pointer); the result is the return value and the structure after the call. -/
def init (queue : Option Queue) (capacity element_size : U32) (buffer : Option Ptr) :
    C (Bool × Option Queue) :=
  match buffer with
  | none => pure (false, queue)
  | some buf =>
    if element_size ≠ 0#32 ∧ capacity ≠ 0#32 then
      match queue with
      | none => C.ub .nullDeref
      | some _ => pure (true, some
          { capacity := capacity, front := 0#32, size := 0#32, rear := capacity - 1#32,
            element_size := element_size, buffer := buf })
    else pure (false, queue)

/-- Src/queue.c:54-57 `Queue_full` (non-null queue; a null pointer would be dereferenced). -/
def full (q : Queue) : Bool := q.size == q.capacity

/-- Src/queue.c:59-62 `Queue_empty` (non-null queue). -/
def empty (q : Queue) : Bool := q.size == 0#32

/-- Src/queue.c:64-81 `Queue_enqueue`. -/
def enqueue (queue : Option Queue) (element : Option Ptr) : C (Bool × Option Queue) :=
  match queue, element with
  | some q, some el =>
    if !full q then do
      C.require (q.capacity ≠ 0#32) .divByZero
      memcpy (q.buffer.addN (((q.rear + 1#32) % q.capacity) * q.element_size).toNat) el
        q.element_size.toNat
      return (true, some { q with rear := (q.rear + 1#32) % q.capacity, size := q.size + 1#32 })
    else pure (false, some q)
  | q, _ => pure (false, q)

/-- Src/queue.c:83-99 `Queue_dequeue`. -/
def dequeue (queue : Option Queue) (element : Option Ptr) : C (Bool × Option Queue) :=
  match queue, element with
  | some q, some el =>
    if !empty q then do
      memcpy el (q.buffer.addN (q.front * q.element_size).toNat) q.element_size.toNat
      C.require (q.capacity ≠ 0#32) .divByZero
      return (true, some { q with front := (q.front + 1#32) % q.capacity, size := q.size - 1#32 })
    else pure (false, some q)
  | q, _ => pure (false, q)

/-- Src/queue.c:101-115 `Queue_front`. -/
def front (queue : Option Queue) (element : Option Ptr) : C Bool :=
  match queue, element with
  | some q, some el =>
    if !empty q then do
      memcpy el (q.buffer.addN (q.front * q.element_size).toNat) q.element_size.toNat
      return true
    else pure false
  | _, _ => pure false

/-- Src/queue.c:117-131 `Queue_rear`. -/
def rear (queue : Option Queue) (element : Option Ptr) : C Bool :=
  match queue, element with
  | some q, some el =>
    if !empty q then do
      memcpy el (q.buffer.addN (q.rear * q.element_size).toNat) q.element_size.toNat
      return true
    else pure false
  | _, _ => pure false

end IMU.Queue
