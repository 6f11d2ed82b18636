import Verif.Spec.PriorityQueue

/-!
# Order of delivery of the ideal priority queue
-/

namespace IMU.Spec

/-- `ys` are the items `xs` in descending order of priority, items of equal priority in the order they have in `xs`. -/
structure ByPriority (xs ys : List PItem) : Prop where
  perm : ys.Perm xs
  descending : ys.Pairwise fun a b => b.1 ≤ a.1
  fifo : ∀ p : U32, ys.filter (fun y => y.1 = p) = xs.filter fun y => y.1 = p

/-- The `n` greatest of the priorities `ps`, in descending order. -/
def greatest (n : Nat) (ps : List U32) : List U32 := (ps.mergeSort fun a b => decide (b ≤ a)).take n

/-- The items offered by the operations. -/
def offered : List PQOp → List PItem
  | [] => []
  | .enq p e :: ops => (p, e) :: offered ops
  | _ :: ops => offered ops

/-- The number of dequeues. -/
def dequeues (ops : List PQOp) : Nat := ops.countP fun | .deq => true | _ => false

/-- The number of items offered with a priority above `p`. -/
def overtaking (p : U32) (ops : List PQOp) : Nat := (offered ops).countP fun y => p < y.1

end IMU.Spec
