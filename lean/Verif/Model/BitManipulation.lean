import Verif.C.Mem

/-!
# Model of Src/bit_manipulation.c
-/

namespace IMU.Bits

/-- `x << n` for `uint32_t`, as in Src/bit_manipulation.c:67: undefined (`none`) if `n >= 32`. -/
def shl (x n : U32) : Option U32 := if n.toNat < 32 then some (x <<< n.toNat) else none
/-- `x >> n` for `uint32_t`, as in Src/bit_manipulation.c:111: undefined (`none`) if `n >= 32`. -/
def shr (x n : U32) : Option U32 := if n.toNat < 32 then some (x >>> n.toNat) else none

/-- Src/bit_manipulation.c:47-57, the loop of `BitManipulation_reflect`; the first argument is the
number of iterations left.  `bit` is a `uint8_t` that never wraps because `bit < n_bits <= 255`
whenever it is incremented. -/
def reflectLoop (n_bits : Byte) : Nat → Nat → U32 → U32 → Option U32
  | 0, _, _, reflection => some reflection
  | n + 1, bit, temp_data, reflection =>
    if temp_data &&& 1#32 = 1#32 then do
      let s ← shl 1#32 (0x1F#32 &&& ((n_bits.setWidth 32 - 1#32) - BitVec.ofNat 32 bit))
      reflectLoop n_bits n (bit + 1) (temp_data >>> 1) (reflection ||| s)
    else reflectLoop n_bits n (bit + 1) (temp_data >>> 1) reflection

/-- Src/bit_manipulation.c:39-60 `BitManipulation_reflect`; `none` is undefined behaviour. -/
def reflect (data : U32) (n_bits : Byte) : Option U32 := reflectLoop n_bits n_bits.toNat 0 data 0#32

/-- Src/bit_manipulation.c:62-72 `BitManipulation_bitSet`: return value and new `*bit_set`; `none` is undefined
behaviour. -/
def bitSet (data : U32) (n : Byte) (old : Bool) : Option (Bool × Bool) :=
  if n.toNat ≤ 31 then do
    let temp ← shl 1#32 (n.setWidth 32)
    return (true, (data &&& temp) != 0#32)
  else return (false, old)

/-- Src/bit_manipulation.c:74-83 `BitManipulation_setBit`: return value and new `*out`; `none` is undefined
behaviour. -/
def setBit (data : U32) (n : Byte) (old : U32) : Option (Bool × U32) :=
  if n.toNat ≤ 31 then do
    let temp ← shl 1#32 (n.setWidth 32)
    return (true, data ||| temp)
  else return (false, old)

/-- Src/bit_manipulation.c:85-94 `BitManipulation_clearBit`: return value and new `*out`; `none` is undefined
behaviour. -/
def clearBit (data : U32) (n : Byte) (old : U32) : Option (Bool × U32) :=
  if n.toNat ≤ 31 then do
    let temp ← shl 1#32 (n.setWidth 32)
    return (true, data &&& ~~~temp)
  else return (false, old)

/-- Src/bit_manipulation.c:96-105 `BitManipulation_toggleBit`: return value and new `*out`; `none` is undefined
behaviour. -/
def toggleBit (data : U32) (n : Byte) (old : U32) : Option (Bool × U32) :=
  if n.toNat ≤ 31 then do
    let temp ← shl 1#32 (n.setWidth 32)
    return (true, data ^^^ temp)
  else return (false, old)

/-- Src/bit_manipulation.c:107-112 `BitManipulation_rotl32`; `none` is undefined behaviour. -/
def rotl32 (data n_bits : U32) : Option U32 := do
  let a ← shl data n_bits
  let b ← shr data (32#32 - n_bits)
  return a ^^^ b

end IMU.Bits
