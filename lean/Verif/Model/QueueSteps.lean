import Verif.Model.Queue

/-!
# Src/queue.c, one access after the other

The same functions as in `Verif/Model/Queue.lean`, cut into the accesses to the shared structure and buffer, for
callers that interrupt each other (an interrupt handler and the main program, or two threads).  Assumptions: the
accesses happen in the order of the program, one after the other (sequential consistency, which C grants only if the
objects are atomic or volatile); `capacity`, `element_size` and `buffer` never change and are read without being
counted as accesses; `memcpy` copies byte by byte in increasing order.
-/

namespace IMU.Queue

/-- A call of Src/queue.c:64-81 or 83-99 that is to be made, with a non-null element pointer. -/
inductive Act where
  | enq (p : Ptr)
  | deq (p : Ptr)

/-- Where a caller is in Src/queue.c:64-99. -/
inductive PC where
  /-- between calls -/
  | idle
  /-- before the guard, Src/queue.c:68 -/
  | eGuard (p : Ptr)
  /-- before the address computation, Src/queue.c:74 -/
  | eAddr (p : Ptr)
  /-- in `memcpy`, Src/queue.c:74, `k` bytes copied -/
  | eCopy (dst p : Ptr) (k : Nat)
  /-- before Src/queue.c:75 -/
  | eRear
  /-- before Src/queue.c:76 -/
  | eSize
  /-- within Src/queue.c:76, the value `r` of `queue->size` has been read -/
  | eStore (r : U32)
  /-- before Src/queue.c:80 -/
  | eRet (status : Bool)
  /-- before the guard, Src/queue.c:87 -/
  | dGuard (p : Ptr)
  /-- before the address computation, Src/queue.c:92 -/
  | dAddr (p : Ptr)
  /-- in `memcpy`, Src/queue.c:92 -/
  | dCopy (p src : Ptr) (k : Nat)
  /-- before Src/queue.c:93 -/
  | dFront (p : Ptr)
  /-- before Src/queue.c:94 -/
  | dSize (p : Ptr)
  /-- within Src/queue.c:94 -/
  | dStore (p : Ptr) (r : U32)
  /-- before Src/queue.c:98 -/
  | dRet (status : Bool) (p : Ptr)

/-- What the outside sees of a caller of Src/queue.c:64-99: it calls (with the memory at that time), it gets a result (with the memory at
that time). -/
inductive Event where
  | call (a : Act) (m : Mem)
  | ret (status : Bool) (out : Option Ptr) (m : Mem)

/-- A caller of Src/queue.c:64-99: calls still to be made, and where it is. -/
structure Caller where
  todo : List Act
  pc : PC

/-- Copy byte `k` of `src` to `dst`, a part of `memcpy` in Src/queue.c:74 and 92. -/
def copyByte (dst src : Ptr) (k : Nat) : C Unit := do
  let v ← load (src.addN k)
  store (dst.addN k) v

/-- One step of a caller, `none` is undefined behaviour.  `atomic`: the update of `queue->size` is one step (interrupts
are locked out, or the processor has an atomic increment); otherwise its load and its store are two.
Src/queue.c:64-99. -/
def step (atomic : Bool) (t : Caller) (q : Queue) (m : Mem) : Option (Caller × Queue × Mem × Option Event) :=
  match t.pc with
  | .idle => match t.todo with
    | [] => some (t, q, m, none)
    | .enq p :: rest => some (⟨rest, .eGuard p⟩, q, m, some (.call (.enq p) m))
    | .deq p :: rest => some (⟨rest, .dGuard p⟩, q, m, some (.call (.deq p) m))
  | .eGuard p => some (⟨t.todo, if full q then .eRet false else .eAddr p⟩, q, m, none)
  | .eAddr p =>
    if q.capacity = 0#32 then none
    else if overlaps (q.buffer.addN (((q.rear + 1#32) % q.capacity) * q.element_size).toNat) p q.element_size.toNat then none
    else some (⟨t.todo, .eCopy (q.buffer.addN (((q.rear + 1#32) % q.capacity) * q.element_size).toNat) p 0⟩, q, m, none)
  | .eCopy dst p k =>
    if k < q.element_size.toNat then
      match copyByte dst p k m with
      | .ok _ m' => some (⟨t.todo, .eCopy dst p (k + 1)⟩, q, m', none)
      | .ub _ => none
    else some (⟨t.todo, .eRear⟩, q, m, none)
  | .eRear => some (⟨t.todo, .eSize⟩, { q with rear := (q.rear + 1#32) % q.capacity }, m, none)
  | .eSize =>
    if atomic then some (⟨t.todo, .eRet true⟩, { q with size := q.size + 1#32 }, m, none)
    else some (⟨t.todo, .eStore q.size⟩, q, m, none)
  | .eStore r => some (⟨t.todo, .eRet true⟩, { q with size := r + 1#32 }, m, none)
  | .eRet b => some (⟨t.todo, .idle⟩, q, m, some (.ret b none m))
  | .dGuard p => some (⟨t.todo, if empty q then .dRet false p else .dAddr p⟩, q, m, none)
  | .dAddr p =>
    if overlaps p (q.buffer.addN (q.front * q.element_size).toNat) q.element_size.toNat then none
    else some (⟨t.todo, .dCopy p (q.buffer.addN (q.front * q.element_size).toNat) 0⟩, q, m, none)
  | .dCopy p src k =>
    if k < q.element_size.toNat then
      match copyByte p src k m with
      | .ok _ m' => some (⟨t.todo, .dCopy p src (k + 1)⟩, q, m', none)
      | .ub _ => none
    else some (⟨t.todo, .dFront p⟩, q, m, none)
  | .dFront p =>
    if q.capacity = 0#32 then none
    else some (⟨t.todo, .dSize p⟩, { q with front := (q.front + 1#32) % q.capacity }, m, none)
  | .dSize p =>
    if atomic then some (⟨t.todo, .dRet true p⟩, { q with size := q.size - 1#32 }, m, none)
    else some (⟨t.todo, .dStore p q.size⟩, q, m, none)
  | .dStore p r => some (⟨t.todo, .dRet true p⟩, { q with size := r - 1#32 }, m, none)
  | .dRet b p => some (⟨t.todo, .idle⟩, q, m, some (.ret b (if b then some p else none) m))

/-- Two callers of Src/queue.c:64-99, the shared structure and memory. -/
structure Sys where
  a : Caller
  b : Caller
  q : Queue
  m : Mem

/-- Src/queue.c:64-99 run by two callers: they take steps in the order `sched` (`false`: caller `a`): final state and the events, with the caller they
belong to. -/
def interleave (atomic : Bool) : Sys → List Bool → Option (Sys × List (Bool × Event))
  | s, [] => some (s, [])
  | s, false :: sched =>
    match step atomic s.a s.q s.m with
    | none => none
    | some (t, q, m, e) =>
      match interleave atomic ⟨t, s.b, q, m⟩ sched with
      | none => none
      | some (s', es) => some (s', (e.map fun e => (false, e)).toList ++ es)
  | s, true :: sched =>
    match step atomic s.b s.q s.m with
    | none => none
    | some (t, q, m, e) =>
      match interleave atomic ⟨s.a, t, q, m⟩ sched with
      | none => none
      | some (s', es) => some (s', (e.map fun e => (true, e)).toList ++ es)

end IMU.Queue
