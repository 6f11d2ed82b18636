import Verif.Spec.Crc
import Mathlib.Algebra.Polynomial.Div
import Mathlib.Data.ZMod.Basic

/-! # Polynomials over GF(2) -/

namespace IMU.Spec.Crc
open Polynomial

/-- A bit as an element of GF(2). -/
def gf (b : Bool) : ZMod 2 := if b then 1 else 0

/-- The polynomial whose coefficients are the bits of `r`. -/
noncomputable def polyOf {w : Nat} (r : BitVec w) : (ZMod 2)[X] := ∑ i ∈ Finset.range w, Polynomial.C (gf (r.getLsbD i)) * X ^ i

/-- The polynomial of a sequence of bits, the first one at the highest power. -/
noncomputable def polyBits : List Bool → (ZMod 2)[X]
  | [] => 0
  | b :: l => Polynomial.C (gf b) * X ^ l.length + polyBits l

/-- The divisor `x^w + ...` of a CRC. -/
noncomputable def divisor {w : Nat} (P : BitVec w) : (ZMod 2)[X] := X ^ w + polyOf P

end IMU.Spec.Crc
