import Verif.C.Leak
import Verif.Model.Utils

/-!
# `Utils_stringToUint32`, observed

The caller's variable `*integer` is one object at a fixed place; where it is accessed follows from the decisions, so
its accesses are not shown.
-/

namespace IMU.Utils

/-- Src/utils.c:59 and 77: the condition `(str[i] >= '0') && (str[i] <= '9')`; the second half is decided, and the
character read again, only if the first one holds. -/
def isDigitT (charSigned : Bool) (p : Ptr) : T Bool := do
  let c ← loadT p
  let b ← T.branch (decide (48 ≤ charVal charSigned c))
  if b then
    let c ← loadT p
    T.branch (decide (charVal charSigned c ≤ 57))
  else return false

/-- Src/utils.c:107-122 `Utils_quickUint32Pow10`, observed; the initialisation of the table has a fixed pattern of accesses
and is not shown. -/
def quickUint32Pow10T (exponent : Byte) (old : U32) : T (Bool × U32) := do
  let b ← T.branch (decide (exponent.toNat < 10))
  if b then
    let v ← constAtT pow10 exponent.toNat
    return (true, v)
  else return (false, old)

/-- Src/utils.c:57: the loop condition `(length > i) && success` when `success` is false and `n` characters are left. -/
def leaveT (n : Nat) : T Unit := do
  let b ← T.branch (decide (0 < n))
  if b then
    let _ ← T.branch false
    return ()
  else return ()

/-- Src/utils.c:57-71: `stringLoop`, observed. -/
def stringLoopT (charSigned : Bool) (str : Ptr) (length : Byte) : Nat → Nat → U32 → T (Bool × U32)
  | 0, _, integer => do
    let _ ← T.branch false
    return (true, integer)
  | n + 1, i, integer => do
    let _ ← T.branch true
    let _ ← T.branch true
    let d ← isDigitT charSigned (str.addN i)
    if d then
      let c ← loadT (str.addN i)
      let digit : Byte := c - 48#8
      let unsigned_power : Byte := length - (BitVec.ofNat 8 i + 1#8)
      let r ← quickUint32Pow10T unsigned_power 0#32
      let integer := integer + digit.signExtend 32 * r.2
      if r.1 then stringLoopT charSigned str length n (i + 1) integer
      else
        leaveT n
        return (false, integer)
    else
      leaveT (n + 1)
      return (false, integer)

/-- Src/utils.c:44-93 `Utils_stringToUint32`, observed. -/
def stringToUint32T (charSigned : Bool) (str : Ptr) (str_length : Byte) : T (Bool × U32) := do
  let check_overflow ← T.branch (str_length == 10#8)
  let length : Byte := if check_overflow then str_length - 1#8 else str_length
  let r ← stringLoopT charSigned str length length.toNat 0 0#32
  let b ← T.branch check_overflow
  if b then
    let b ← T.branch r.1
    if b then
      let d ← isDigitT charSigned (str.addN 9)
      if d then
        let c ← loadT (str.addN 9)
        let digit : U32 := (c - 48#8).signExtend 32
        let b ← T.branch (decide (r.2 > 0xFFFFFFFF#32 / 10#32))
        if b then return (false, r.2)
        else
          let b ← T.branch (decide (r.2 = 0xFFFFFFFF#32 / 10#32))
          if b then
            let b ← T.branch (decide (digit > 0xFFFFFFFF#32 % 10#32))
            if b then return (false, r.2)
            else return (true, r.2 * 10#32 + digit)
          else return (true, r.2 * 10#32 + digit)
      else return (false, r.2)
    else return r
  else return r

end IMU.Utils
