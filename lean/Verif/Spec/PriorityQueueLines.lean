import Verif.Spec.PriorityQueue

/-!
# What a priority queue keeps: one waiting line per priority
-/

namespace IMU.Spec

/-- For every priority the same items, in the same order; how the items of different priorities are mixed is left open. -/
def SameLines (xs ys : List PItem) : Prop := ∀ p : U32, xs.filter (fun y => y.1 = p) = ys.filter fun y => y.1 = p

end IMU.Spec
