import Verif.C.Mem

/-!
# The functions of <string.h> used by the model

Nothing here is taken from /repo; part of the trusted base like `Verif/C/Mem.lean`.  Strings are read byte by byte
up to the first byte that decides the result, and a read outside the object is undefined.
-/

namespace IMU

/-- `strlen(p)`; undefined if there is no NUL before the end of the object. -/
def strlen (p : Ptr) : C Nat := fun m =>
  if 0 ≤ p.off then
    match ((m.bytes p.blk).drop p.off.toNat).findIdx? (· == 0#8) with
    | some n => .ok n m
    | none => .ub .oobRead
  else .ub .oobRead

/-- `strcpy(dst, "lit")` with a string literal. -/
def strcpyLit (dst : Ptr) (lit : List Byte) : C Unit := storeN dst (lit ++ [0#8])

/-- `strcpy(dst, src)`: undefined for overlapping ranges. -/
def strcpy (dst src : Ptr) : C Unit := do
  let n ← strlen src
  memcpy dst src (n + 1)

/-- `strcmp(p, "lit") == 0` with a string literal. -/
def strcmpLit (p : Ptr) : List Byte → C Bool
  | [] => do
    let c ← load p
    return c == 0#8
  | x :: lit => do
    let c ← load p
    if c == x then strcmpLit (p.addN 1) lit else return false

/-- `strncmp(p, q, n) == 0`. -/
def strncmpEq (p q : Ptr) : Nat → C Bool
  | 0 => pure true
  | n + 1 => do
    let c ← load p
    let d ← load q
    if c == d then
      if c == 0#8 then pure true else strncmpEq (p.addN 1) (q.addN 1) n
    else pure false

end IMU
