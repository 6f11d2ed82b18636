import Verif.Model.Queue
import Mathlib.Logic.Function.Basic

/-!
# Queues in series

`n` queues with elements of one size; elements go into queue `0`, are passed from each queue to the next and leave from
queue `n - 1`.  The calls that pass an element on are the usual ones of a user of the library.
-/

namespace IMU.Props
open Queue

/-- Capacity and buffer of one queue. -/
structure Stage where
  cap : U32
  bb : Nat
  bo : Nat

/-- Pass an element on through the variable at `p`, after asking whether there is room:
`if (!Queue_full(b) && Queue_dequeue(a, p)) Queue_enqueue(b, p);` -/
def moveAsk (a b : Queue) (p : Ptr) : C (Bool × Queue × Queue) :=
  if full b then pure (false, a, b)
  else do
    let (r, a') ← dequeue (some a) (some p)
    if r then do
      let (_, b') ← enqueue (some b) (some p)
      return (true, a'.getD a, b'.getD b)
    else return (false, a'.getD a, b)

/-- The same by copying first and removing afterwards:
`if (Queue_front(a, p) && Queue_enqueue(b, p)) Queue_dequeue(a, p);` -/
def movePeek (a b : Queue) (p : Ptr) : C (Bool × Queue × Queue) := do
  let r ← front (some a) (some p)
  if r then do
    let (s, b') ← enqueue (some b) (some p)
    if s then do
      let (_, a') ← dequeue (some a) (some p)
      return (true, a'.getD a, b'.getD b)
    else return (false, a, b'.getD b)
  else return (false, a, b)

/-- Without asking: `if (Queue_dequeue(a, p)) Queue_enqueue(b, p);` -/
def moveBlind (a b : Queue) (p : Ptr) : C (Bool × Queue × Queue) := do
  let (r, a') ← dequeue (some a) (some p)
  if r then do
    let (s, b') ← enqueue (some b) (some p)
    return (s, a'.getD a, b'.getD b)
  else return (false, a'.getD a, b)

/-- What can happen at a chain: an element is offered to the first queue, queue `i` passes one on (in one of two ways),
one is taken from the last. -/
inductive ChainStep where
  | feed
  | move (i : Nat) (peek : Bool)
  | take
  deriving DecidableEq

/-- A step, the caller's memory `w` at that time (arbitrary apart from the buffers) and the address of the variable. -/
structure ChainCall where
  step : ChainStep
  w : Mem
  blk : Nat
  off : Nat

/-- What the callers see: the element offered and whether it was accepted, whether one was passed on, the element taken. -/
inductive ChainObs where
  | fed (e : List Byte) (r : Bool)
  | moved (r : Bool)
  | took (x : Option (List Byte))
  deriving DecidableEq

/-- The elements accepted, in order. -/
def chainIn (os : List ChainObs) : List (List Byte) :=
  os.filterMap fun | .fed e true => some e | _ => none

/-- The elements taken, in order. -/
def chainOut (os : List ChainObs) : List (List Byte) :=
  os.filterMap fun | .took x => x | _ => none

/-- The number of elements passed on. -/
def chainMoves (os : List ChainObs) : Nat := os.countP fun | .moved true => true | _ => false

/-- Memory at a call: the caller's, with the buffers as the last call left them. -/
def chainMem (n : Nat) (ls : Nat → Stage) (w m : Mem) : Mem :=
  { w with bytes := fun b => if b ∈ (List.range n).map (fun i => (ls i).bb) then m.bytes b else w.bytes b }

/-- Run one step; `none` is undefined behaviour. -/
def ChainCall.exec (c : ChainCall) (n es : Nat) (ls : Nat → Stage) (qs : Nat → Queue) (m : Mem) :
    Option (ChainObs × (Nat → Queue) × Mem) :=
  match c.step with
  | .feed => match enqueue (some (qs 0)) (some (ptr c.blk c.off)) (chainMem n ls c.w m) with
    | .ok (r, some q) m' => some (.fed (slice (c.w.bytes c.blk) c.off es) r, Function.update qs 0 q, m')
    | _ => none
  | .move i peek =>
    match (if peek then movePeek else moveAsk) (qs i) (qs (i + 1)) (ptr c.blk c.off) (chainMem n ls c.w m) with
    | .ok (r, a, b) m' => some (.moved r, Function.update (Function.update qs i a) (i + 1) b, m')
    | _ => none
  | .take => match dequeue (some (qs (n - 1))) (some (ptr c.blk c.off)) (chainMem n ls c.w m) with
    | .ok (r, some q) m' =>
      some (.took (if r then some (slice (m'.bytes c.blk) c.off es) else none), Function.update qs (n - 1) q, m')
    | _ => none

/-- Run a history. -/
def chainAll (n es : Nat) (ls : Nat → Stage) : (Nat → Queue) → Mem → List ChainCall →
    Option (List ChainObs × (Nat → Queue) × Mem)
  | qs, m, [] => some ([], qs, m)
  | qs, m, c :: cs =>
    match c.exec n es ls qs m with
    | none => none
    | some (o, qs', m') =>
      match chainAll n es ls qs' m' cs with
      | none => none
      | some (os, r) => some (o :: os, r)

/-- The queue passed from has a next one; the variable is valid and outside the buffers. -/
def ChainCall.Valid (c : ChainCall) (n es : Nat) (ls : Nat → Stage) : Prop :=
  (∀ i peek, c.step = .move i peek → i + 1 < n) ∧ (∀ i, i < n → c.blk ≠ (ls i).bb) ∧
  c.off + es ≤ (c.w.bytes c.blk).length

/-- Freshly initialised queues with buffers in different objects, large enough. -/
structure ChainReady (n : Nat) (es : U32) (ls : Nat → Stage) (qs : Nat → Queue) (m : Mem) : Prop where
  fresh : ∀ i, i < n → ∃ q0 m1 m2, init (some q0) (ls i).cap es (some (ptr (ls i).bb (ls i).bo)) m1 = .ok (true, some (qs i)) m2
  lim : ∀ i, i < n → ((ls i).cap.toNat - 1) * es.toNat < 2 ^ 32
  fits : ∀ i, i < n → (ls i).bo + (ls i).cap.toNat * es.toNat ≤ (m.bytes (ls i).bb).length
  apart : ∀ i j, i < n → j < n → i ≠ j → (ls i).bb ≠ (ls j).bb

/-- The sum of `f 0, ..., f (n - 1)`. -/
def sumTo : Nat → (Nat → Nat) → Nat
  | 0, _ => 0
  | n + 1, f => sumTo n f + f n

end IMU.Props
