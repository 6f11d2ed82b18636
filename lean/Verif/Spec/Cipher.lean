import Verif.C.Mem

/-! # Letters and their cyclic shift -/

namespace IMU.Spec

/-- ASCII letter. -/
def Letter (c : Byte) : Prop := (65 ≤ c.toNat ∧ c.toNat ≤ 90) ∨ (97 ≤ c.toNat ∧ c.toNat ≤ 122)
instance (c : Byte) : Decidable (Letter c) := by unfold Letter; infer_instance

/-- Place in the alphabet, from 0, in either case. -/
def place (c : Byte) : Nat := if c.toNat ≤ 90 then c.toNat - 65 else c.toNat - 97

/-- A letter moved `k` places further in the alphabet, cyclically and in the same case; other characters stay. -/
def rot (k : Nat) (c : Byte) : Byte :=
  if 65 ≤ c.toNat ∧ c.toNat ≤ 90 then BitVec.ofNat 8 (65 + (c.toNat - 65 + k) % 26)
  else if 97 ≤ c.toNat ∧ c.toNat ≤ 122 then BitVec.ofNat 8 (97 + (c.toNat - 97 + k) % 26)
  else c

end IMU.Spec
