/-!
# The fragment of C semantics used by the model

Nothing here is taken from /repo; this file fixes the meaning of the C constructs that
the files in `Verif/Model` use.  It is part of the trusted base (see DESIGN.md).

* An *object* ("block") is identified by a number.  Byte objects are lists of 8-bit vectors; the
  only other object kind is an array of `uint32_t`.  A block that was never allocated has
  length zero, so any access to it is out of bounds.
* A pointer is a block number and an integer byte offset, which may be negative or past the end;
  only *dereferencing* such a pointer is undefined behaviour here.
* A computation either finishes in a new memory or has undefined behaviour.
-/

namespace IMU

abbrev Byte := BitVec 8
abbrev U16 := BitVec 16
abbrev U32 := BitVec 32
/-- `size_t` on an LP64 target. -/
abbrev SizeT := BitVec 64

/-- Kinds of undefined behaviour that the modelled code can reach. -/
inductive UB where
  | oobRead        -- read outside the object
  | oobWrite       -- write outside the object
  | nullDeref      -- dereference of a null pointer
  | shiftRange     -- shift count not smaller than the width of the promoted operand
  | divByZero      -- division or remainder by zero
  | signedOverflow -- signed arithmetic leaves the range of the type
  | overlap        -- overlapping ranges passed to memcpy
  | fuel           -- not undefined behaviour: a `while` loop did not end within the given number of rounds
  deriving DecidableEq, Repr

/-- A pointer: object and byte offset. -/
structure Ptr where
  blk : Nat
  off : Int
  deriving DecidableEq, Repr

/-- `p + k` for an unsigned index `k` (in bytes). -/
def Ptr.addN (p : Ptr) (k : Nat) : Ptr := ⟨p.blk, p.off + (k : Int)⟩
/-- `p + k` for a signed index `k` (in bytes). -/
def Ptr.addZ (p : Ptr) (k : Int) : Ptr := ⟨p.blk, p.off + k⟩

/-- The pointer to byte `o` of object `b`. -/
abbrev ptr (b o : Nat) : Ptr := ⟨b, (o : Int)⟩

/-- Memory: byte objects and `uint32_t`-array objects. -/
structure Mem where
  bytes : Nat → List Byte
  words : Nat → List U32

/-- Replace the contents of byte object `b`. -/
def Mem.upd (m : Mem) (b : Nat) (l : List Byte) : Mem :=
  { m with bytes := fun x => if x = b then l else m.bytes x }

/-- Replace the contents of word object `b`. -/
def Mem.updW (m : Mem) (b : Nat) (l : List U32) : Mem :=
  { m with words := fun x => if x = b then l else m.words x }

/-- Outcome of a computation. -/
inductive Res (α : Type) where
  | ok (v : α) (m : Mem)
  | ub (e : UB)

/-- A C computation: memory to outcome. -/
@[implicit_reducible] def C (α : Type) := Mem → Res α

namespace C

protected def pure {α} (a : α) : C α := fun m => .ok a m

protected def bind {α β} (x : C α) (f : α → C β) : C β := fun m =>
  match x m with
  | .ok a m' => f a m'
  | .ub e => .ub e

instance : Monad C where
  pure := C.pure
  bind := C.bind

/-- Undefined behaviour. -/
protected def ub {α} (e : UB) : C α := fun _ => .ub e

/-- Undefined behaviour `e` unless `c` holds. -/
protected def require (c : Prop) [Decidable c] (e : UB) : C Unit :=
  if c then pure () else C.ub e

end C

/-- Read one byte. -/
def load (p : Ptr) : C Byte := fun m =>
  if 0 ≤ p.off then
    match (m.bytes p.blk)[p.off.toNat]? with
    | some v => .ok v m
    | none => .ub .oobRead
  else .ub .oobRead

/-- Write one byte. -/
def store (p : Ptr) (v : Byte) : C Unit := fun m =>
  if 0 ≤ p.off ∧ p.off < (m.bytes p.blk).length then
    .ok () (m.upd p.blk ((m.bytes p.blk).set p.off.toNat v))
  else .ub .oobWrite

/-- The `n` items of `l` from index `i` on. -/
def slice {α} (l : List α) (i n : Nat) : List α := (l.drop i).take n

/-- `l` with the items from index `i` on overwritten by `s`. -/
def splice {α} (l : List α) (i : Nat) (s : List α) : List α :=
  l.take i ++ s ++ l.drop (i + s.length)

/-- Read `n` bytes. -/
def loadN (p : Ptr) (n : Nat) : C (List Byte) := fun m =>
  if n = 0 then .ok [] m
  else if 0 ≤ p.off ∧ p.off + n ≤ (m.bytes p.blk).length then
    .ok (slice (m.bytes p.blk) p.off.toNat n) m
  else .ub .oobRead

/-- Write the bytes `s`. -/
def storeN (p : Ptr) (s : List Byte) : C Unit := fun m =>
  if s = [] then .ok () m
  else if 0 ≤ p.off ∧ p.off + s.length ≤ (m.bytes p.blk).length then
    .ok () (m.upd p.blk (splice (m.bytes p.blk) p.off.toNat s))
  else .ub .oobWrite

/-- Do the `n`-byte ranges at `p` and `q` share a byte? -/
def overlaps (p q : Ptr) (n : Nat) : Bool :=
  decide (p.blk = q.blk ∧ p.off < q.off + n ∧ q.off < p.off + n)

/-- `memcpy(dst, src, n)` of <string.h>: undefined for overlapping ranges. -/
def memcpy (dst src : Ptr) (n : Nat) : C Unit :=
  if overlaps dst src n then C.ub .overlap
  else do
    let s ← loadN src n
    storeN dst s

/-- `memcmp(p, q, n) == 0` of <string.h>. -/
def memeq (p q : Ptr) (n : Nat) : C Bool := do
  let s ← loadN p n
  let t ← loadN q n
  return s == t

/-- Read item `i` of the `uint32_t` array object `b`. -/
def loadW (b i : Nat) : C U32 := fun m =>
  match (m.words b)[i]? with
  | some v => .ok v m
  | none => .ub .oobRead

/-- Write item `i` of the `uint32_t` array object `b`. -/
def storeW (b i : Nat) (v : U32) : C Unit := fun m =>
  if i < (m.words b).length then .ok () (m.updW b ((m.words b).set i v))
  else .ub .oobWrite

/-- `body i; body (i+1); ...; body (i+n-1)`, threading a local state. -/
def forN {σ} (n i : Nat) (body : Nat → σ → C σ) (s : σ) : C σ :=
  match n with
  | 0 => pure s
  | n + 1 => do
    let s ← body i s
    forN n (i + 1) body s

/-- `body (n-1); ...; body 1; body 0`. -/
def forDown {σ} (n : Nat) (body : Nat → σ → C σ) (s : σ) : C σ :=
  match n with
  | 0 => pure s
  | n + 1 => do
    let s ← body n s
    forDown n body s

/-- The automatic array `b` with initial contents `init`: its lifetime is that of `body`.  The number `b`
of the object is a parameter of the model. -/
def localArray {α} (b : Nat) (init : List Byte) (body : C α) : C α := fun m =>
  match body (m.upd b init) with
  | .ok a m' => .ok a (m'.upd b (m.bytes b))
  | .ub e => .ub e

/-- The value of an `int32_t` expression: the exact result if it is representable. -/
def i32 (x : Int) : C Int :=
  if -2147483648 ≤ x ∧ x ≤ 2147483647 then pure x else C.ub .signedOverflow

/-- Value of a plain `char`, whose signedness is implementation-defined. -/
def charVal (signed : Bool) (b : Byte) : Int := if signed then b.toInt else b.toNat

end IMU
