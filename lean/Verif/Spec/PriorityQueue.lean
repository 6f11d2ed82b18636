import Verif.C.Mem

/-!
# Ideal bounded priority queue

The state is the list of stored (priority, element) pairs, oldest first.
-/

namespace IMU.Spec

abbrev PItem := U32 × List Byte

inductive PQOp where
  | enq (priority : U32) (element : List Byte)
  | deq
  | empty

/-- Returned status and delivered element. -/
abbrev PQObs := Bool × Option (List Byte)

/-- `PQStep cap xs op obs out xs'`: the operation `op` on the stored items `xs` shows `obs` and leads to
`xs'`; `out` are the items that left the queue (delivered or evicted). -/
inductive PQStep (cap : Nat) : List PItem → PQOp → PQObs → List PItem → List PItem → Prop where
  /-- Room left: append. -/
  | enq {xs p e} : xs.length < cap → PQStep cap xs (.enq p e) (true, none) [] (xs ++ [(p, e)])
  /-- Full: the oldest item of lowest priority is evicted if its priority is below the new one. -/
  | evict {pre x post p e} : (pre ++ x :: post).length = cap →
      (∀ y ∈ pre, x.1 < y.1) → (∀ y ∈ post, x.1 ≤ y.1) → x.1 < p →
      PQStep cap (pre ++ x :: post) (.enq p e) (true, none) [x] (pre ++ post ++ [(p, e)])
  /-- Full, and nothing stored has a lower priority: reject. -/
  | reject {xs p e} : xs.length = cap → (∀ y ∈ xs, p ≤ y.1) →
      PQStep cap xs (.enq p e) (false, none) [] xs
  /-- Deliver the oldest item of highest priority. -/
  | deq {pre x post} : (∀ y ∈ pre, y.1 < x.1) → (∀ y ∈ post, y.1 ≤ x.1) →
      PQStep cap (pre ++ x :: post) .deq (true, some x.2) [x] (pre ++ post)
  | deqEmpty : PQStep cap [] .deq (false, none) [] []
  | empty {xs} : PQStep cap xs .empty (decide (xs = []), none) [] xs

/-- A sequence of operations with its observations and all items that left the queue. -/
inductive PQRun (cap : Nat) : List PItem → List PQOp → List PQObs → List PItem → List PItem → Prop where
  | nil {xs} : PQRun cap xs [] [] [] xs
  | cons {xs op obs out ys ops obss outs zs} : PQStep cap xs op obs out ys →
      PQRun cap ys ops obss outs zs → PQRun cap xs (op :: ops) (obs :: obss) (out ++ outs) zs

end IMU.Spec
