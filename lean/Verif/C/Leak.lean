import Verif.C.Mem
import Verif.C.Str

/-!
# Computations that show where they access memory and how they branch

The leakage model in which code is called "constant-time": an observer (cache, branch predictor, power) sees the
address of every read and write, the index of every table lookup and the outcome of every branch, but no value.  The
duration of an arithmetic operation does not depend on its operands.  Nothing here is taken from /repo; part of the
trusted base of C96 - C98 like `Verif/C/Mem.lean`.
-/

namespace IMU

/-- What an observer sees. -/
inductive Leak where
  /-- a read of the byte at `p` -/
  | read (p : Ptr)
  /-- a write to the byte at `p` -/
  | write (p : Ptr)
  /-- a read of item `i` of a constant table -/
  | table (i : Nat)
  /-- a decision -/
  | branch (b : Bool)
  deriving DecidableEq, Repr

/-- A computation together with what an observer sees of it. -/
@[implicit_reducible] def T (α : Type) := C (α × List Leak)

namespace T

protected def pure {α} (a : α) : T α := fun m => .ok (a, []) m

protected def bind {α β} (x : T α) (f : α → T β) : T β := fun m =>
  match x m with
  | .ok (a, t) m' =>
    match f a m' with
    | .ok (b, u) m'' => .ok (b, t ++ u) m''
    | .ub e => .ub e
  | .ub e => .ub e

instance : Monad T where
  pure := T.pure
  bind := T.bind

/-- A computation of which nothing can be seen. -/
def quiet {α} (x : C α) : T α := fun m =>
  match x m with
  | .ok a m' => .ok (a, []) m'
  | .ub e => .ub e

/-- Something to be seen. -/
def emit (t : List Leak) : T Unit := fun m => .ok ((), t) m

/-- A decision, seen by the observer. -/
def branch (b : Bool) : T Bool := fun m => .ok (b, [.branch b]) m

/-- The computation without the observer. -/
def erase {α} (x : T α) : C α := fun m =>
  match x m with
  | .ok (a, _) m' => .ok a m'
  | .ub e => .ub e

end T

/-- Read one byte. -/
def loadT (p : Ptr) : T Byte := do
  T.emit [.read p]
  T.quiet (load p)

/-- Write one byte. -/
def storeT (p : Ptr) (v : Byte) : T Unit := do
  T.emit [.write p]
  T.quiet (store p v)

/-- Read item `i` of a constant table. -/
def constAtT {α} (l : List α) (i : Nat) : T α := do
  T.emit [.table i]
  T.quiet (match l[i]? with
    | some v => pure v
    | none => C.ub .oobRead)

/-- `strlen(p)`: reads up to the NUL. -/
def strlenT (p : Ptr) : T Nat := do
  let n ← T.quiet (strlen p)
  T.emit ((List.range (n + 1)).map fun i => .read (p.addN i))
  return n

/-- A counting loop: the condition is tested before every round and once more at the end. -/
def forNT {σ} (n i : Nat) (body : Nat → σ → T σ) (s : σ) : T σ :=
  match n with
  | 0 => do
    let _ ← T.branch false
    return s
  | n + 1 => do
    let _ ← T.branch true
    let s ← body i s
    forNT n (i + 1) body s

/-- The automatic array `b`; its initialisation has a fixed pattern of accesses. -/
def localArrayT {α} (b : Nat) (init : List Byte) (body : T α) : T α := localArray b init body

end IMU
