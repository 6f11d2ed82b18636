import Verif.Spec.SortNested
import Verif.Spec.Sort

/-!
# Sorting by several keys in turn
-/

namespace IMU.Spec
open IMU.Sort

/-- The order by several keys, the most significant one first: `a` is greater than `b` if it is by the first key, or if
they are tied by the first key and `a` is greater by the others. -/
def lexAll {α : Type} : List (α → α → Bool) → α → α → Bool
  | [], _, _ => false
  | gt :: gts, a, b => gt a b || (!gt b a && lexAll gts a b)

/-- One array sorted several times in turn, with sorts and comparison functions of the caller's choice. -/
def passes (fuel : Nat) (st p : Ptr) (n sz : Int) : List (Alg × Cmp) → C Unit
  | [] => return ()
  | (a, cmp) :: l => do
    a.run fuel st p n sz (compareFun cmp sz)
    passes fuel st p n sz l

/-- The sorts of which C42 says that they are stable. -/
def Alg.stable : Alg → Bool
  | .bubble => true
  | .insertion => true
  | _ => false

end IMU.Spec
