import Verif.Spec.Cipher

/-! # Texts that look alike -/

namespace IMU.Spec

/-- Capital letter. -/
def Capital (c : Byte) : Prop := 65 ≤ c.toNat ∧ c.toNat ≤ 90
instance (c : Byte) : Decidable (Capital c) := by unfold Capital; infer_instance

/-- Small letter. -/
def Small (c : Byte) : Prop := 97 ≤ c.toNat ∧ c.toNat ≤ 122
instance (c : Byte) : Decidable (Small c) := by unfold Small; infer_instance

/-- Same length, capitals in the same places, small letters in the same places, the other characters identical. -/
def SameShape (s t : List Byte) : Prop :=
  s.length = t.length ∧ ∀ (i : Nat) (c d : Byte), s[i]? = some c → t[i]? = some d →
    (Capital c ∧ Capital d) ∨ (Small c ∧ Small d) ∨ (¬ Letter c ∧ d = c)

end IMU.Spec
