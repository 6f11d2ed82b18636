import Verif.C.Mem

/-!
# Model of Src/utils.c
-/

namespace IMU.Utils

/-- Src/utils.c:111-114, the constant array `pow10`. -/
def pow10 : List U32 :=
  [1, 10, 100, 1000, 10000, 100000, 1000000, 10000000, 100000000, 1000000000]

/-- Src/utils.c:107-122 `Utils_quickUint32Pow10`.  Result: return value and new value of
`*result` (`old` is its value before the call). -/
def quickUint32Pow10 (exponent : Byte) (old : U32) : Bool × U32 :=
  if h : exponent.toNat < 10 then (true, pow10[exponent.toNat]) else (false, old)

/-- Src/utils.c:57-71, the `while` loop of `Utils_stringToUint32`; the first argument is the number
`length - i` of iterations left.  `str[i]` is read once instead of up to three times. The result is
(`success`, `*integer`). -/
def stringLoop (charSigned : Bool) (str : Ptr) (length : Byte) : Nat → Nat → U32 → C (Bool × U32)
  | 0, _, integer => pure (true, integer)
  | n + 1, i, integer => do
    let c ← load (str.addN i)
    if 48 ≤ charVal charSigned c ∧ charVal charSigned c ≤ 57 then
      let digit : Byte := c - 48#8
      let unsigned_power : Byte := length - (BitVec.ofNat 8 i + 1#8)
      let r := quickUint32Pow10 unsigned_power 0#32
      let integer := integer + digit.signExtend 32 * r.2
      if r.1 then stringLoop charSigned str length n (i + 1) integer
      else pure (false, integer)
    else pure (false, integer)

/-- Src/utils.c:44-93 `Utils_stringToUint32`.  Result: return value and `*integer`.
The casts `(int8_t)str[i] - (int8_t)'0'` and `(uint32_t)digit` are an 8-bit subtraction followed
by sign extension. -/
def stringToUint32 (charSigned : Bool) (str : Ptr) (str_length : Byte) : C (Bool × U32) := do
  let check_overflow : Bool := str_length == 10#8
  let length : Byte := if check_overflow then str_length - 1#8 else str_length
  let r ← stringLoop charSigned str length length.toNat 0 0#32
  if check_overflow && r.1 then
    let c ← load (str.addN 9)
    if 48 ≤ charVal charSigned c ∧ charVal charSigned c ≤ 57 then
      let digit : U32 := (c - 48#8).signExtend 32
      if r.2 > 0xFFFFFFFF#32 / 10#32 ∨
          (r.2 = 0xFFFFFFFF#32 / 10#32 ∧ digit > 0xFFFFFFFF#32 % 10#32) then
        return (false, r.2)
      else
        return (true, r.2 * 10#32 + digit)
    else return (false, r.2)
  else return r

/-- Src/utils.c:95-105 `Utils_swapElements`. -/
def swapElements (first second : Ptr) (size : U32) : C Unit :=
  forDown size.toNat (fun index _ => do
    let temp ← load (first.addN index)
    let s ← load (second.addN index)
    store (first.addN index) s
    store (second.addN index) temp) ()

/-- Src/utils.c:124-127. -/
def serialize8 (buf : Ptr) (value : Byte) : C Unit :=
  store (buf.addN 0) (value &&& 0xFF#8)

/-- Src/utils.c:129-133. -/
def deserialize8 (buf : Ptr) : C Byte := load (buf.addN 0)

/-- Src/utils.c:135-139. -/
def serialize16BE (buf : Ptr) (value : U16) : C Unit := do
  store (buf.addN 0) ((value >>> 8).setWidth 8 &&& 0xFF#8)
  store (buf.addN 1) (value.setWidth 8 &&& 0xFF#8)

/-- Src/utils.c:141-146. -/
def serialize24BE (buf : Ptr) (value : U32) : C Unit := do
  store (buf.addN 0) ((value >>> 16).setWidth 8 &&& 0xFF#8)
  store (buf.addN 1) ((value >>> 8).setWidth 8 &&& 0xFF#8)
  store (buf.addN 2) (value.setWidth 8 &&& 0xFF#8)

/-- Src/utils.c:148-154. -/
def serialize32BE (buf : Ptr) (value : U32) : C Unit := do
  store (buf.addN 0) ((value >>> 24).setWidth 8 &&& 0xFF#8)
  store (buf.addN 1) ((value >>> 16).setWidth 8 &&& 0xFF#8)
  store (buf.addN 2) ((value >>> 8).setWidth 8 &&& 0xFF#8)
  store (buf.addN 3) (value.setWidth 8 &&& 0xFF#8)

/-- Src/utils.c:156-161. -/
def serializeBlobBE (buf src : Ptr) (size : U32) : C Unit :=
  forN size.toNat 0 (fun i _ => do
    let v ← load (src.addN i)
    store (buf.addN i) v) ()

/-- Src/utils.c:163-169.  The shift is done in `int` (at most 0xFF00) and converted to
`uint16_t`. -/
def deserialize16BE (buf : Ptr) : C U16 := do
  let b0 ← load (buf.addN 0)
  let b1 ← load (buf.addN 1)
  return (b0.setWidth 16 <<< 8) ||| b1.setWidth 16

/-- Src/utils.c:171-178. -/
def deserialize24BE (buf : Ptr) : C U32 := do
  let b0 ← load (buf.addN 0)
  let b1 ← load (buf.addN 1)
  let b2 ← load (buf.addN 2)
  return ((b0.setWidth 32 <<< 16) ||| (b1.setWidth 32 <<< 8)) ||| b2.setWidth 32

/-- Src/utils.c:180-188. -/
def deserialize32BE (buf : Ptr) : C U32 := do
  let b0 ← load (buf.addN 0)
  let b1 ← load (buf.addN 1)
  let b2 ← load (buf.addN 2)
  let b3 ← load (buf.addN 3)
  return (((b0.setWidth 32 <<< 24) ||| (b1.setWidth 32 <<< 16)) ||| (b2.setWidth 32 <<< 8)) |||
    b3.setWidth 32

/-- Src/utils.c:190-195. -/
def deserializeBlobBE (buf dst : Ptr) (size : U32) : C Unit :=
  forN size.toNat 0 (fun i _ => do
    let v ← load (buf.addN i)
    store (dst.addN i) v) ()

/-- Src/utils.c:197-201. -/
def serialize16LE (buf : Ptr) (value : U16) : C Unit := do
  store (buf.addN 1) ((value >>> 8).setWidth 8 &&& 0xFF#8)
  store (buf.addN 0) (value.setWidth 8 &&& 0xFF#8)

/-- Src/utils.c:203-208. -/
def serialize24LE (buf : Ptr) (value : U32) : C Unit := do
  store (buf.addN 2) ((value >>> 16).setWidth 8 &&& 0xFF#8)
  store (buf.addN 1) ((value >>> 8).setWidth 8 &&& 0xFF#8)
  store (buf.addN 0) (value.setWidth 8 &&& 0xFF#8)

/-- Src/utils.c:210-216. -/
def serialize32LE (buf : Ptr) (value : U32) : C Unit := do
  store (buf.addN 3) ((value >>> 24).setWidth 8 &&& 0xFF#8)
  store (buf.addN 2) ((value >>> 16).setWidth 8 &&& 0xFF#8)
  store (buf.addN 1) ((value >>> 8).setWidth 8 &&& 0xFF#8)
  store (buf.addN 0) (value.setWidth 8 &&& 0xFF#8)

/-- Src/utils.c:218-225.  `(int32_t)size - 1` may overflow; the loop runs with
`i = i0, ..., 0` and `j = i0 - i`, i.e. `i0 + 1` times if `i0 >= 0` and never otherwise. -/
def serializeBlobLE (buf src : Ptr) (size : U32) : C Unit := do
  let i0 ← i32 (size.toInt - 1)
  forN (i0 + 1).toNat 0 (fun j _ => do
    let v ← load (src.addZ (i0 - j))
    store (buf.addN j) v) ()

/-- Src/utils.c:227-233. -/
def deserialize16LE (buf : Ptr) : C U16 := do
  let b1 ← load (buf.addN 1)
  let b0 ← load (buf.addN 0)
  return (b1.setWidth 16 <<< 8) ||| b0.setWidth 16

/-- Src/utils.c:235-242. -/
def deserialize24LE (buf : Ptr) : C U32 := do
  let b2 ← load (buf.addN 2)
  let b1 ← load (buf.addN 1)
  let b0 ← load (buf.addN 0)
  return ((b2.setWidth 32 <<< 16) ||| (b1.setWidth 32 <<< 8)) ||| b0.setWidth 32

/-- Src/utils.c:244-252. -/
def deserialize32LE (buf : Ptr) : C U32 := do
  let b3 ← load (buf.addN 3)
  let b2 ← load (buf.addN 2)
  let b1 ← load (buf.addN 1)
  let b0 ← load (buf.addN 0)
  return (((b3.setWidth 32 <<< 24) ||| (b2.setWidth 32 <<< 16)) ||| (b1.setWidth 32 <<< 8)) |||
    b0.setWidth 32

/-- Src/utils.c:254-261; as `serializeBlobLE`. -/
def deserializeBlobLE (buf dst : Ptr) (size : U32) : C Unit := do
  let i0 ← i32 (size.toInt - 1)
  forN (i0 + 1).toNat 0 (fun j _ => do
    let v ← load (buf.addZ (i0 - j))
    store (dst.addN j) v) ()

/-- Src/utils.c:263-271.  The argument is the bit pattern of the `char`; the code converts it to
`uint8_t` first, so its signedness does not matter. -/
def isUpperChar (input : Byte) : Bool := decide (65 ≤ input.toNat ∧ input.toNat ≤ 90)

/-- Src/utils.c:273-281. -/
def isLowerChar (input : Byte) : Bool := decide (97 ≤ input.toNat ∧ input.toNat ≤ 122)

/-- Src/utils.c:283-289. -/
def isAlpha (input : Byte) : Bool := isUpperChar input || isLowerChar input

end IMU.Utils
