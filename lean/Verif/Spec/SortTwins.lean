import Verif.Spec.Sort

/-!
# Two arrays whose elements compare alike
-/

namespace IMU.Spec

/-- The comparators give the same answers for elements at the same places of `x` and of `y`. -/
def CompareAlike (gt gt' : List Byte → List Byte → Bool) (n : Nat) (x y : List (List Byte)) : Prop :=
  ∀ i j, i < n → j < n → gt (x.getD i []) (x.getD j []) = gt' (y.getD i []) (y.getD j [])

/-- `x'` is `x` and `y'` is `y` with the elements rearranged in the same way: place `k` of both gets the element from
place `σ[k]`. -/
def SameMoves (n : Nat) (x x' y y' : List (List Byte)) : Prop :=
  ∃ σ : List Nat, σ.Perm (List.range n) ∧ x' = σ.map (x.getD · []) ∧ y' = σ.map (y.getD · [])

end IMU.Spec
