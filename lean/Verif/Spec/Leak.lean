import Verif.C.Leak
import Verif.Spec.Base64

/-!
# What an observer can learn (no reference to the model)
-/

namespace IMU.Spec.Leak

/-- The table indices in an observation, in order. -/
def lookups (t : List Leak) : List Nat :=
  t.filterMap fun | .table i => some i | _ => none

/-- The decisions in an observation, in order. -/
def branches (t : List Leak) : List Bool :=
  t.filterMap fun | .branch b => some b | _ => none

/-- The 6-bit digits of a byte string; missing bits of the last digit are zero. -/
def digits : List Byte → List Nat
  | [] => []
  | [a] => [Base64.sextet (Base64.group a 0 0) 0, Base64.sextet (Base64.group a 0 0) 1]
  | [a, b] => [Base64.sextet (Base64.group a b 0) 0, Base64.sextet (Base64.group a b 0) 1,
      Base64.sextet (Base64.group a b 0) 2]
  | a :: b :: c :: t => [Base64.sextet (Base64.group a b c) 0, Base64.sextet (Base64.group a b c) 1,
      Base64.sextet (Base64.group a b c) 2, Base64.sextet (Base64.group a b c) 3] ++ digits t

/-- The kind of a character: 1 for `A`-`Z`, 3 for `a`-`z`, and 0, 2, 4 for the characters before, between and after. -/
def kind (c : Byte) : Nat :=
  if c.toNat < 65 then 0 else if c.toNat ≤ 90 then 1 else if c.toNat < 97 then 2 else if c.toNat ≤ 122 then 3 else 4

/-- The number of a letter in the alphabet, from 0. -/
def letter (c : Byte) : Nat := if kind c = 1 then c.toNat - 65 else c.toNat - 97

end IMU.Spec.Leak
