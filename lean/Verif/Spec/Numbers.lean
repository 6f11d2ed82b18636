import Verif.Spec.Sort
import Verif.Spec.Utils

/-! # The numbers that bytes stand for -/

namespace IMU.Spec

/-- The `int32_t` with these four bytes: two's complement, lowest byte first. -/
def int32Value (bytes : List Byte) : Int :=
  if valueLE bytes < 2 ^ 31 then valueLE bytes else (valueLE bytes : Int) - 2 ^ 32

/-- The `uint64_t` with these eight bytes. -/
def uint64Value (bytes : List Byte) : Int := valueLE bytes

/-- Sign, biased exponent and fraction of the IEEE 754 binary64 number with these eight bytes. -/
def f64Sign (bytes : List Byte) : Nat := valueLE bytes / 2 ^ 63
def f64Exponent (bytes : List Byte) : Nat := valueLE bytes / 2 ^ 52 % 2 ^ 11
def f64Fraction (bytes : List Byte) : Nat := valueLE bytes % 2 ^ 52

def f64NaN (bytes : List Byte) : Prop := f64Exponent bytes = 2047 ∧ f64Fraction bytes ≠ 0

/-- The number, in units of `2^-1074`, that a double stands for: `±0.fraction * 2^-1022` if the exponent is 0,
else `±1.fraction * 2^(exponent - 1023)`.  The two infinities, exponent 2047 and fraction 0, get `±2^2098`,
which lies beyond all finite doubles (these are below `2^1024 = 2^2098 * 2^-1074`).  Not used for NaNs. -/
def f64Value (bytes : List Byte) : Int :=
  (-1) ^ f64Sign bytes *
    if f64Exponent bytes = 0 then (f64Fraction bytes : Int)
    else (2 ^ 52 + f64Fraction bytes) * 2 ^ (f64Exponent bytes - 1)

/-- `after` has the elements of `before`, by ascending value. -/
structure SortedNumbers (value : List Byte → Int) (before after : List (List Byte)) : Prop where
  perm : before.Perm after
  ascending : (after.map value).Pairwise (· ≤ ·)

end IMU.Spec
