import Verif.Spec.Crc

/-! # Bursts of errors -/

namespace IMU.Spec.Crc

/-- `x` and `y` differ at the positions `k` and `k + L - 1`, and nowhere outside the `L` positions from `k` on. -/
def Spans (k L : Nat) (x y : List Bool) : Prop :=
  x.length = y.length ∧ x[k]? ≠ y[k]? ∧ x[k + L - 1]? ≠ y[k + L - 1]? ∧ ∀ i, x[i]? ≠ y[i]? → k ≤ i ∧ i < k + L

end IMU.Spec.Crc
