import Verif.Model.Sort

/-!
# Model of Tests/helper/sort_functions.c

The comparators that the tests hand to the sorts.  A comparator gets the bytes of its two elements
(Model/Sort.lean); the target is little-endian (simplification: the code reads the elements through typed
pointers, their byte order is that of the processor).
-/

namespace IMU.Sort

/-- The little-endian word of `w` bits at the start of `bytes`, as in Tests/helper/sort_functions.c:8, `*first_element`. -/
def word (w : Nat) (bytes : List Byte) : BitVec w :=
  match bytes with
  | [] => 0
  | c :: s => BitVec.setWidth w c ||| (word w s) <<< 8

/-- Tests/helper/sort_functions.c:3-12 `CompareInt32`: `*first > *second` for `int32_t`. -/
def compareInt32 : Cmp := fun first second => BitVec.slt (word 32 second) (word 32 first)

/-- Tests/helper/sort_functions.c:25-34 `CompareUint64`: `*first > *second` for `uint64_t`. -/
def compareUint64 : Cmp := fun first second => BitVec.ult (word 64 second) (word 64 first)

/-- For the comparison in Tests/helper/sort_functions.c:19: whether a `double` with these bits is a NaN, all exponent bits set, fraction not zero. -/
def isNaN64 (x : BitVec 64) : Bool :=
  BitVec.extractLsb' 52 11 x == BitVec.allOnes 11 && BitVec.extractLsb' 0 52 x != 0#52

/-- For the comparison in Tests/helper/sort_functions.c:19: the order of `double`s as a processor finds it from the bits, the 63 lower bits as a number, negative if
the sign bit is set. -/
def orderKey64 (x : BitVec 64) : Int :=
  if BitVec.msb x then - ((BitVec.extractLsb' 0 63 x).toNat : Int) else (BitVec.extractLsb' 0 63 x).toNat

/-- Tests/helper/sort_functions.c:14-23 `CompareFloat64`: `*first > *second` for `float64_t`, IEEE 754
binary64; the comparison is false if one of them is a NaN. -/
def compareFloat64 : Cmp := fun first second =>
  !isNaN64 (word 64 first) && !isNaN64 (word 64 second) &&
    decide (orderKey64 (word 64 second) < orderKey64 (word 64 first))

end IMU.Sort
