import Verif.C.Leak

/-!
# Observed functions of <string.h>

Nothing here is taken from /repo; part of the trusted base of C141 and C143.
-/

namespace IMU

/-- `strncmp(p, q, n) == 0` of <string.h>: byte after byte up to the first difference or the NUL. -/
def strncmpEqT (p q : Ptr) : Nat → T Bool
  | 0 => pure true
  | n + 1 => do
    let c ← loadT p
    let d ← loadT q
    let e ← T.branch (c == d)
    if e then
      let z ← T.branch (c == 0#8)
      if z then pure true else strncmpEqT (p.addN 1) (q.addN 1) n
    else pure false

/-- `strcmp(p, "lit") == 0` of <string.h> with a string literal: byte after byte up to the first difference. -/
def strcmpLitT (p : Ptr) : List Byte → T Bool
  | [] => do
    let c ← loadT p
    T.branch (c == 0#8)
  | x :: lit => do
    let c ← loadT p
    let e ← T.branch (c == x)
    if e then strcmpLitT (p.addN 1) lit else return false

/-- `strcpy(dst, "lit")` of <string.h> with a string literal: byte after byte. -/
def strcpyLitT (dst : Ptr) (lit : List Byte) : T Unit := do
  T.emit ((List.range (lit.length + 1)).map fun i => .write (dst.addN i))
  T.quiet (strcpyLit dst lit)

/-- `strcpy(dst, src)` of <string.h>: byte after byte, the NUL included. -/
def strcpyT (dst src : Ptr) : T Unit := do
  let n ← T.quiet (strlen src)
  T.emit ((List.range (n + 1)).flatMap fun i => [.read (src.addN i), .write (dst.addN i)])
  T.quiet (memcpy dst src (n + 1))

end IMU
