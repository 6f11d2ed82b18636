import Verif.C.Mem

/-! # Strings -/

namespace IMU.Spec

/-- At byte `o` of the object contents `l` there is the NUL-terminated string `s`. -/
def CStr (l : List Byte) (o : Nat) (s : List Byte) : Prop := 0#8 ∉ s ∧ ∃ t, l.drop o = s ++ 0#8 :: t

end IMU.Spec
