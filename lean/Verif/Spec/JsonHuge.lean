import Verif.Spec.Json

/-! # Texts of 4 GiB and more -/

namespace IMU.Spec.Json

/-- The text read from the position `j` on to its end and then from its start up to `j`. -/
def around (t : List Byte) (j : Nat) : List Byte := t.drop j ++ t.take j

/-- The key occurs at the position `p` of the text, and at no earlier one. -/
def FirstAt (k t : List Byte) (p : Nat) : Prop := k <+: t.drop p ∧ ∀ i, i < p → ¬ k <+: t.drop i

end IMU.Spec.Json
