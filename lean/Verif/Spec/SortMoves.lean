import Verif.Spec.SortEffects

/-!
# Counting the moves of elements
-/

namespace IMU.Spec

/-- One entry into the log `v`. -/
def tick (v : Nat) : C Unit := fun m => .ok () (m.updW v (m.words v ++ [0#32]))

end IMU.Spec
