import Verif.Spec.SortTwins

/-!
# Arrays without ties
-/

namespace IMU.Spec

/-- Of any two of the first `n` elements of `x` one is greater than the other. -/
def NoTies (gt : List Byte → List Byte → Bool) (n : Nat) (x : List (List Byte)) : Prop :=
  ∀ i j, i < n → j < n → i ≠ j → gt (x.getD i []) (x.getD j []) = true ∨ gt (x.getD j []) (x.getD i []) = true

end IMU.Spec
