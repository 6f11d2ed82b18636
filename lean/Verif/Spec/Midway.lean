import Verif.C.Mem

/-! # The memory in the middle of a call that writes a result from its first byte on -/

namespace IMU.Spec

/-- Byte `i` of object `b` when the first `K` bytes of the result at byte `ro` of object `br` have been written: `m` is the
memory before and `m'` the memory after the call. -/
def midByte (m m' : Mem) (br ro K b i : Nat) : Byte :=
  if b = br ∧ ro ≤ i ∧ i < ro + K then (m'.bytes b).getD i 0 else (m.bytes b).getD i 0

/-- `n` bytes from byte `o` of object `b` on, at that time. -/
def midRange (m m' : Mem) (br ro K b o n : Nat) : List Byte := (List.range n).map fun k => midByte m m' br ro K b (o + k)

end IMU.Spec
