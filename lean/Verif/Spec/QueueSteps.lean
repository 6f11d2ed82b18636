import Verif.Spec.Linearizable
import Verif.Model.QueueSteps

/-!
# Reading the events of `Verif/Model/QueueSteps.lean` as operations of the FIFO
-/

namespace IMU.Spec
open Queue

/-- The `esz` bytes behind `p`. -/
def elementAt (esz : Nat) (m : Mem) (p : Ptr) : List Byte := slice (m.bytes p.blk) p.off.toNat esz

/-- A call is the operation with the element as it is at that time; an answer carries the element as it is at that
time. -/
def queueEvent (esz : Nat) : Event → HEv QOp QObs
  | .call (.enq p) m => .call (.enq (elementAt esz m p))
  | .call (.deq _) _ => .call .deq
  | .ret status out m => .ret (status, out.map (elementAt esz m))

/-- The history of a run. -/
def queueHistory (esz : Nat) (es : List (Bool × Event)) : List (Bool × HEv QOp QObs) :=
  es.map fun e => (e.1, queueEvent esz e.2)

end IMU.Spec
