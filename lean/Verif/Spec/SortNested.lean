import Verif.Spec.SortEffects
import Verif.Model.SortEffects

/-!
# Sorting inside a comparison function
-/

namespace IMU.Spec
open IMU.Sort

/-- The four sorts. -/
inductive Alg where
  | bubble | selection | insertion | heap
  deriving DecidableEq

/-- The call; `st` is the static buffer of insertion sort. -/
def Alg.run (a : Alg) (fuel : Nat) (st p : Ptr) (n sz : Int) (g : CmpFun) : C Unit :=
  match a with
  | .bubble => bubbleSortE fuel p n sz g
  | .selection => selectionSortE p n sz g
  | .insertion => insertionSortE st p n sz g
  | .heap => heapSortE fuel p n sz g

/-- An array of `n` elements of `sz` bytes at byte `o` of the object `b`, and what the sort needs besides it: insertion
sort its static buffer and an element before the array, heap sort elements behind it up to index `2 n`. -/
def Alg.Setup (a : Alg) (m : Mem) (st b o sz n fuel : Nat) : Prop :=
  sz < 2 ^ 31 ∧ n < 2 ^ 31 ∧
  match a with
  | .bubble => (n - 1) * sz < 2 ^ 31 ∧ o + n * sz ≤ (m.bytes b).length ∧ n ≤ fuel ∧ 1 ≤ fuel
  | .selection => (n - 1) * sz < 2 ^ 31 ∧ o + n * sz ≤ (m.bytes b).length
  | .insertion => (n - 1) * sz < 2 ^ 31 ∧ o + n * sz ≤ (m.bytes b).length ∧ (m.bytes st).length = 64 ∧ sz ≤ 64 ∧ sz ≤ o
  | .heap => 2 * n + 1 < 2 ^ 31 ∧ 2 * n * sz < 2 ^ 31 ∧ o + (2 * n + 1) * sz ≤ (m.bytes b).length ∧ n < 2 ^ fuel

/-- A comparison function that first does `job` and then compares the bytes of the elements. -/
def after (job : C Unit) (cmp : Cmp) (sz : Int) : CmpFun := fun p q => do
  job
  compareFun cmp sz p q

/-- The comparison function `g` always answers something, leaves the object `b` alone and leaves one of the values `V`
at the beginning of the object `st`.  `I` is what it relies on. -/
def Leaves (I : Mem → Prop) (st b sz : Nat) (V : List Byte → Prop) (g : CmpFun) : Prop :=
  ∀ (p q : Ptr) (m : Mem) (x y : List Byte), I m → (m.bytes st).length = 64 → p.blk = b ∨ p.blk = st →
    q.blk = b ∨ q.blk = st → loadN p sz m = .ok x m → loadN q sz m = .ok y m →
    ∃ c m', g p q m = .ok c m' ∧ m'.bytes b = m.bytes b ∧ (m'.bytes st).length = 64 ∧ V (slice (m'.bytes st) 0 sz) ∧ I m'

end IMU.Spec
