import Verif.Model.Queue
import Verif.Spec.Queue
import Verif.Spec.Frame

/-!
# Histories of queue calls

Drives the modelled API functions through a list of calls and records what the caller observes.
-/

namespace IMU.Props
open Spec IMU.Queue

/-- The API calls a history can contain. -/
inductive QKind where
  | enq | deq | front | rear | full | empty
  deriving DecidableEq

/-- One call in a history: which function, the caller's memory `w` at the time of the call (arbitrary:
between calls the caller may change everything except the buffer object), and the address of the
element argument. -/
structure QCall where
  kind : QKind
  w : Mem
  blk : Nat
  off : Nat

/-- Memory at the call: the caller's, with the buffer object `bb` as the queue left it. -/
def QCall.mem (c : QCall) (bb : Nat) (m : Mem) : Mem :=
  { c.w with bytes := fun b => if b = bb then m.bytes b else c.w.bytes b }

/-- The element argument points to `esz` valid bytes outside the buffer object. -/
def QCall.Valid (c : QCall) (bb esz : Nat) : Prop :=
  c.blk ≠ bb ∧ c.off + esz ≤ (c.w.bytes c.blk).length

/-- The ideal operation the caller intends. -/
def QCall.op (c : QCall) (esz : Nat) : QOp :=
  match c.kind with
  | .enq => .enq (slice (c.w.bytes c.blk) c.off esz)
  | .deq => .deq
  | .front => .front
  | .rear => .rear
  | .full => .full
  | .empty => .empty

/-- Element delivered by a successful call. -/
def delivered (ok : Bool) (m : Mem) (c : QCall) (esz : Nat) : Option (List Byte) :=
  if ok then some (slice (m.bytes c.blk) c.off esz) else none

/-- Execute one call with the modelled code; `none` is undefined behaviour. -/
def QCall.exec (c : QCall) (bb esz : Nat) (q : Queue) (m : Mem) : Option (QObs × Queue × Mem) :=
  match c.kind with
  | .enq => match enqueue (some q) (some (ptr c.blk c.off)) (c.mem bb m) with
    | .ok (r, some q') m' => some ((r, none), q', m')
    | _ => none
  | .deq => match dequeue (some q) (some (ptr c.blk c.off)) (c.mem bb m) with
    | .ok (r, some q') m' => some ((r, delivered r m' c esz), q', m')
    | _ => none
  | .front => match IMU.Queue.front (some q) (some (ptr c.blk c.off)) (c.mem bb m) with
    | .ok r m' => some ((r, delivered r m' c esz), q, m')
    | _ => none
  | .rear => match IMU.Queue.rear (some q) (some (ptr c.blk c.off)) (c.mem bb m) with
    | .ok r m' => some ((r, delivered r m' c esz), q, m')
    | _ => none
  | .full => some ((IMU.Queue.full q, none), q, c.mem bb m)
  | .empty => some ((IMU.Queue.empty q, none), q, c.mem bb m)

/-- Execute a history: all observations and the final state. -/
def execAll (bb esz : Nat) : Queue → Mem → List QCall → Option (List QObs × Queue × Mem)
  | q, m, [] => some ([], q, m)
  | q, m, c :: cs =>
    match c.exec bb esz q m with
    | none => none
    | some (o, q', m') =>
      match execAll bb esz q' m' cs with
      | none => none
      | some (os, q'', m'') => some (o :: os, q'', m'')

/-- Where a call may change memory: the buffer for `enq`, the caller's element for the reading calls,
nothing for `full`/`empty`. -/
def QCall.Frame (c : QCall) (bb bo cap esz : Nat) (m m' : Mem) : Prop :=
  match c.kind with
  | .enq => OnlyChanged m m' bb bo (cap * esz)
  | .full | .empty => m' = m
  | _ => OnlyChanged m m' c.blk c.off esz

end IMU.Props
