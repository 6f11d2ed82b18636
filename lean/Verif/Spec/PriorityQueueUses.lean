import Verif.Spec.PriorityQueue
import Verif.Spec.Queue
import Verif.Spec.PriorityQueueOrder

/-!
# A priority queue used as a FIFO and as a stack
-/

namespace IMU.Spec

/-- The operation of a FIFO that corresponds to one of the priority queue; the priority is forgotten. -/
def PQOp.toQ : PQOp → QOp
  | .enq _ e => .enq e
  | .deq => .deq
  | .empty => .empty

/-- One operation on a stack with `cap` places, the top last: pushing on a full stack drops the bottom. -/
def stackStep (cap : Nat) (s : List (List Byte)) : PQOp → PQObs × List (List Byte)
  | .enq _ e => ((true, none), (if s.length < cap then s else s.tail) ++ [e])
  | .deq => ((s.getLast?.isSome, s.getLast?), s.dropLast)
  | .empty => ((decide (s = []), none), s)

/-- Observations of a sequence of operations, and the final stack. -/
def stackRun (cap : Nat) : List (List Byte) → List PQOp → List PQObs × List (List Byte)
  | s, [] => ([], s)
  | s, op :: ops =>
    let r := stackRun cap (stackStep cap s op).2 ops
    ((stackStep cap s op).1 :: r.1, r.2)

end IMU.Spec
