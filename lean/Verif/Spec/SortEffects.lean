import Verif.Spec.Sort

/-!
# Comparison functions with effects
-/

namespace IMU.Spec

/-- `I` says something about the objects `P` (and about arrays of words) only. -/
def Concerns (P : Nat → Prop) (I : Mem → Prop) : Prop :=
  ∀ m m' : Mem, (∀ b, P b → m'.bytes b = m.bytes b) → m'.words = m.words → I m → I m'

/-- The comparison function `g` answers as `cmp` does on the bytes of the two elements and, apart from that, may read
anything and write to the objects `P`.  `I` is what it relies on (a counter exists, a cache is consistent, ...) and keeps
true.  `Q` are the objects that the elements are in. -/
def AnswersAs (I : Mem → Prop) (P Q : Nat → Prop) (sz : Nat) (cmp : List Byte → List Byte → Bool)
    (g : Ptr → Ptr → C Bool) : Prop :=
  ∀ (p q : Ptr) (m : Mem) (x y : List Byte), I m → Q p.blk → Q q.blk → loadN p sz m = .ok x m → loadN q sz m = .ok y m →
    ∃ m', g p q m = .ok (cmp x y) m' ∧ (∀ b, ¬ P b → m'.bytes b = m.bytes b) ∧ I m'

/-- `g`, writing one entry into the log `w` for every call. -/
def logged (w : Nat) (g : Ptr → Ptr → C Bool) : Ptr → Ptr → C Bool :=
  fun p q m => g p q (m.updW w (m.words w ++ [0#32]))

/-- The number of entries that the log got between `m` and `m'`. -/
def calls (w : Nat) (m m' : Mem) : Nat := (m'.words w).length - (m.words w).length

end IMU.Spec
