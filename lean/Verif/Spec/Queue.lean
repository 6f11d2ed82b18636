import Verif.C.Mem

/-!
# Ideal bounded FIFO
-/

namespace IMU.Spec

/-- Operations of the FIFO; `enq` carries the element. -/
inductive QOp where
  | enq (e : List Byte)
  | deq
  | front
  | rear
  | full
  | empty
  deriving DecidableEq

/-- What a caller observes: the returned status and the element delivered, if any. -/
abbrev QObs := Bool × Option (List Byte)

/-- One operation on the ideal FIFO with `cap` places. -/
def fifoStep (cap : Nat) (xs : List (List Byte)) : QOp → QObs × List (List Byte)
  | .enq e => if xs.length < cap then ((true, none), xs ++ [e]) else ((false, none), xs)
  | .deq => match xs with
    | [] => ((false, none), [])
    | x :: xs => ((true, some x), xs)
  | .front => ((xs.head?.isSome, xs.head?), xs)
  | .rear => ((xs.getLast?.isSome, xs.getLast?), xs)
  | .full => ((decide (xs.length = cap), none), xs)
  | .empty => ((decide (xs = []), none), xs)

/-- Observations of a sequence of operations. -/
def fifoRun (cap : Nat) : List (List Byte) → List QOp → List QObs
  | _, [] => []
  | xs, op :: ops => (fifoStep cap xs op).1 :: fifoRun cap (fifoStep cap xs op).2 ops

end IMU.Spec
