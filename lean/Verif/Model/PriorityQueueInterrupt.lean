import Verif.Model.PriorityQueue

/-!
# Src/priority_queue.c, interrupted once

The two functions of `Verif/Model/PriorityQueue.lean` with one point at which an interrupt handler runs a whole call of
its own on the same structure.  Assumptions: the handler runs to its end before the interrupted call goes on; the
interrupted call reads `queue->size` anew wherever the code names it (the compiler keeps no copy in a register), and it
holds the index that was searched for and `current_size` in local variables.  `capacity`, `element_size` and the two
pointers never change.  Interrupts inside `memcpy`, inside the searches and inside the moving loops are left out.
-/

namespace IMU.PQ

/-- What the interrupt handler does with the structure: its own call of Src/priority_queue.c:94-158, and the status it
gets. -/
abbrev Handler := PQueue → C (Bool × PQueue)

/-- Where in Src/priority_queue.c:94-132 the handler runs. -/
inductive EnqPoint where
  /-- after line 97 -/
  | guard
  /-- after line 107 (queue full) -/
  | lowest
  /-- in line 111, `queue->size` is read but not yet written (queue full) -/
  | dec
  /-- after line 112 (queue full) -/
  | shrink
  /-- after line 121 (queue full) -/
  | shift
  /-- after line 102 or 126 -/
  | copy
  /-- after line 103 or 127 -/
  | prio
  /-- in line 104 or 128, `queue->size` is read but not yet written -/
  | load
  deriving DecidableEq

/-- Where in Src/priority_queue.c:134-158 the handler runs. -/
inductive DeqPoint where
  /-- after line 137 -/
  | guard
  /-- after line 139 -/
  | highest
  /-- after line 144 -/
  | copy
  /-- in line 145, `queue->size` is read but not yet written -/
  | load
  /-- after line 146 -/
  | shrink
  /-- after line 155 -/
  | shift
  deriving DecidableEq

/-- Run the handler between two lines of Src/priority_queue.c:94-158 if this is the point (`now`); `s` is the status of
its call, `false` before. -/
def interrupt (now : Bool) (h : Handler) (s : Bool) (q : PQueue) : C (Bool × PQueue) :=
  if now then h q else return (s, q)

/-- Src/priority_queue.c:94-132 `PriorityQueue_enqueue`, interrupted at `pt`: status of the call, status of the
handler's call, structure. -/
def enqueueInt (pt : EnqPoint) (h : Handler) (q : PQueue) (element : Ptr) (priority : U32) :
    C (Bool × Bool × PQueue) :=
  if !full q then do
    let (s, q) ← interrupt (pt = .guard) h false q
    memcpy (q.buffer.addN (q.size * q.element_size).toNat) element q.element_size.toNat
    let (s, q) ← interrupt (pt = .copy) h s q
    storeW q.priority_array q.size.toNat priority
    let (s, q) ← interrupt (pt = .prio) h s q
    let r := q.size
    let (s, q) ← interrupt (pt = .load) h s q
    return (true, s, { q with size := r + 1#32 })
  else do
    let (s, q) ← interrupt (pt = .guard) h false q
    let lowest ← getLowestPriorityIndex q
    let (s, q) ← interrupt (pt = .lowest) h s q
    let p ← loadW q.priority_array lowest.toNat
    if p < priority then do
      let r := q.size
      let (s, q) ← interrupt (pt = .dec) h s q
      let q := { q with size := r - 1#32 }
      let current_size := q.size
      let (s, q) ← interrupt (pt = .shrink) h s q
      shiftDown q lowest current_size
      let (s, q) ← interrupt (pt = .shift) h s q
      memcpy (q.buffer.addN (q.size * q.element_size).toNat) element q.element_size.toNat
      let (s, q) ← interrupt (pt = .copy) h s q
      storeW q.priority_array q.size.toNat priority
      let (s, q) ← interrupt (pt = .prio) h s q
      let r := q.size
      let (s, q) ← interrupt (pt = .load) h s q
      return (true, s, { q with size := r + 1#32 })
    else return (false, s, q)

/-- Src/priority_queue.c:134-158 `PriorityQueue_dequeue`, interrupted at `pt`. -/
def dequeueInt (pt : DeqPoint) (h : Handler) (q : PQueue) (element : Ptr) : C (Bool × Bool × PQueue) :=
  if !empty q then do
    let (s, q) ← interrupt (pt = .guard) h false q
    let highest ← getHighestPriorityIndex q
    let (s, q) ← interrupt (pt = .highest) h s q
    memcpy element (q.buffer.addN (highest * q.element_size).toNat) q.element_size.toNat
    let (s, q) ← interrupt (pt = .copy) h s q
    let r := q.size
    let (s, q) ← interrupt (pt = .load) h s q
    let q := { q with size := r - 1#32 }
    let current_size := q.size
    let (s, q) ← interrupt (pt = .shrink) h s q
    shiftDown q highest current_size
    let (s, q) ← interrupt (pt = .shift) h s q
    return (true, s, q)
  else return (false, false, q)

end IMU.PQ
