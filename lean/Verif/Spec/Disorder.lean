import Verif.Spec.Sort

/-!
# How far a list is from being sorted
-/

namespace IMU.Spec

/-- The number of elements in front of place `k` that are greater than the element at place `k`. -/
def ahead (gt : List Byte → List Byte → Bool) (l : List (List Byte)) (k : Nat) : Nat :=
  (l.take k).countP fun x => gt x (l.getD k [])

/-- The number of pairs that are in the wrong order. -/
def inversions (gt : List Byte → List Byte → Bool) (l : List (List Byte)) : Nat :=
  ((List.range l.length).map (ahead gt l)).sum

/-- The greatest number of greater elements in front of an element. -/
def lag (gt : List Byte → List Byte → Bool) (l : List (List Byte)) : Nat :=
  ((List.range l.length).map (ahead gt l)).foldr max 0

end IMU.Spec
