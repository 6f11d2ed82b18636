import Verif.Model.PriorityQueue
import Verif.Spec.PriorityQueue

/-!
# Histories of priority queue calls
-/

namespace IMU.Props
open Spec IMU.PQ

inductive PQKind where
  | enq (priority : U32)
  | deq
  | empty

/-- One call: function, the caller's memory at the call (arbitrary apart from the queue's own two
arrays) and the address of the element. -/
structure PQCall where
  kind : PQKind
  w : Mem
  blk : Nat
  off : Nat

/-- Memory at the call: the caller's, with the element buffer `bb` and the priority array `pa` as the
queue left them. -/
def PQCall.mem (c : PQCall) (bb pa : Nat) (m : Mem) : Mem :=
  ⟨fun b => if b = bb then m.bytes b else c.w.bytes b, fun b => if b = pa then m.words b else c.w.words b⟩

def PQCall.Valid (c : PQCall) (bb esz : Nat) : Prop :=
  c.blk ≠ bb ∧ c.off + esz ≤ (c.w.bytes c.blk).length

def PQCall.op (c : PQCall) (esz : Nat) : PQOp :=
  match c.kind with
  | .enq p => .enq p (slice (c.w.bytes c.blk) c.off esz)
  | .deq => .deq
  | .empty => .empty

/-- Execute one call with the modelled code; `none` is undefined behaviour. -/
def PQCall.exec (c : PQCall) (bb pa esz : Nat) (q : PQueue) (m : Mem) : Option (PQObs × PQueue × Mem) :=
  match c.kind with
  | .enq p => match enqueue q (ptr c.blk c.off) p (c.mem bb pa m) with
    | .ok (r, q') m' => some ((r, none), q', m')
    | .ub _ => none
  | .deq => match dequeue q (ptr c.blk c.off) (c.mem bb pa m) with
    | .ok (r, q') m' =>
      some ((r, if r then some (slice (m'.bytes c.blk) c.off esz) else none), q', m')
    | .ub _ => none
  | .empty => some ((IMU.PQ.empty q, none), q, c.mem bb pa m)

def pqExecAll (bb pa esz : Nat) : PQueue → Mem → List PQCall → Option (List PQObs × PQueue × Mem)
  | q, m, [] => some ([], q, m)
  | q, m, c :: cs =>
    match c.exec bb pa esz q m with
    | none => none
    | some (o, q', m') =>
      match pqExecAll bb pa esz q' m' cs with
      | none => none
      | some (os, q'', m'') => some (o :: os, q'', m'')

/-- The items physically stored: the first `size` places of the two arrays. -/
def stored (q : PQueue) (m : Mem) (bb bo pa esz : Nat) : List PItem :=
  (List.range q.size.toNat).map fun k =>
    (((m.words pa)[k]?).getD 0#32, slice (m.bytes bb) (bo + k * esz) esz)

/-- At most `cap` words of array `pa`, the range `[bo, bo+n)` of `bb` and the range `[eo, eo+k)` of `eb`
changed. -/
def PQFrame (m m' : Mem) (bb bo n pa cap eb eo k : Nat) : Prop :=
  (∀ x, x ≠ pa → m'.words x = m.words x) ∧ (m'.words pa).length = (m.words pa).length ∧
  (∀ i, cap ≤ i → (m'.words pa)[i]? = (m.words pa)[i]?) ∧
  (∀ x, (m'.bytes x).length = (m.bytes x).length) ∧
  (∀ x i, ¬ (x = bb ∧ bo ≤ i ∧ i < bo + n) → ¬ (x = eb ∧ eo ≤ i ∧ i < eo + k) →
    (m'.bytes x)[i]? = (m.bytes x)[i]?)

/-- Where a call may change memory: `enq` only the queue's own arrays, `deq` these and the caller's
element, `empty` nothing. -/
def PQCall.Frame (c : PQCall) (bb bo pa cap esz : Nat) (m m' : Mem) : Prop :=
  match c.kind with
  | .enq _ => PQFrame m m' bb bo (cap * esz) pa cap 0 0 0
  | .deq => PQFrame m m' bb bo (cap * esz) pa cap c.blk c.off esz
  | .empty => m' = m

end IMU.Props
