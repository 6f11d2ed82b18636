import Verif.C.Mem

/-! # Ranges that share a byte -/

namespace IMU.Spec

/-- The `s` bytes at byte `o` of object `b` and the `s'` bytes at byte `o'` of object `b'` share a byte (both nonempty). -/
def Touch (b o s b' o' s' : Nat) : Prop := b = b' ∧ o < o' + s' ∧ o' < o + s

instance (b o s b' o' s' : Nat) : Decidable (Touch b o s b' o' s') := by unfold Touch; infer_instance

end IMU.Spec
