import Verif.C.Leak

/-!
# What the serialisers show
-/

namespace IMU.Spec

/-- Writes at these places behind `p`, in this order. -/
def writesAt (p : Ptr) (places : List Nat) : List Leak := places.map fun i => .write (p.addN i)

/-- Reads at these places behind `p`, in this order. -/
def readsAt (p : Ptr) (places : List Nat) : List Leak := places.map fun i => .read (p.addN i)

/-- A loop of `n` rounds, of which round `i` shows `shown i`. -/
def rounds (n : Nat) (shown : Nat → List Leak) : List Leak :=
  (List.range n).flatMap (fun i => .branch true :: shown i) ++ [.branch false]

end IMU.Spec
