import Verif.C.Leak

/-!
# Observed <string.h> functions and `uint32_t` accesses

Nothing here is taken from /repo; part of the trusted base of C132 and C133.
-/

namespace IMU

/-- `memcpy(dst, src, n)` of <string.h>: byte after byte.  Another order would be another function of the same
arguments. -/
def memcpyT (dst src : Ptr) (n : Nat) : T Unit := do
  T.emit ((List.range n).flatMap fun i => [.read (src.addN i), .write (dst.addN i)])
  T.quiet (memcpy dst src n)

/-- The length of the common beginning of two byte strings. -/
def commonLen : List Byte → List Byte → Nat
  | a :: s, b :: t => if a = b then commonLen s t + 1 else 0
  | _, _ => 0

/-- `memcmp(p, q, n) == 0` of <string.h>: byte after byte up to the first difference. -/
def memeqT (p q : Ptr) (n : Nat) : T Bool := do
  let s ← T.quiet (loadN p n)
  let t ← T.quiet (loadN q n)
  T.emit ((List.range (min n (commonLen s t + 1))).flatMap fun i => [.read (p.addN i), .read (q.addN i)])
  return s == t

/-- Read item `i` of the `uint32_t` array object `b`; shown as a read at `i` of an object of that number. -/
def loadWT (b i : Nat) : T U32 := do
  T.emit [.read (ptr b i)]
  T.quiet (loadW b i)

/-- Write item `i` of the `uint32_t` array object `b`. -/
def storeWT (b i : Nat) (v : U32) : T Unit := do
  T.emit [.write (ptr b i)]
  T.quiet (storeW b i v)

end IMU
