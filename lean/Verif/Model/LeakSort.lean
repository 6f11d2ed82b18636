import Verif.C.LeakMem
import Verif.Model.Sort

/-!
# The sorts, observed

The same code as in `Verif/Model/Sort.lean`, line by line, showing the memory accesses and decisions of the C text.
Simplification: the comparison function reads every byte of its first and then of its second element, and what it
decides inside is not shown (only its answer, where the code branches on it).
-/

namespace IMU

/-- A loop counting down to 0, as in Src/utils.c:100-104 and Src/sort/heap_sort.c:78-85: the condition is tested before every
round and once more at the end. -/
def forDownT {σ} (n : Nat) (body : Nat → σ → T σ) (s : σ) : T σ :=
  match n with
  | 0 => do
    let _ ← T.branch false
    return s
  | n + 1 => do
    let _ ← T.branch true
    let s ← body n s
    forDownT n body s

/-- Src/utils.c:95-105 `Utils_swapElements`, observed. -/
def Utils.swapElementsT (first second : Ptr) (size : U32) : T Unit :=
  forDownT size.toNat (fun index _ => do
    let temp ← loadT (first.addN index)
    let s ← loadT (second.addN index)
    storeT (first.addN index) s
    storeT (second.addN index) temp) ()

end IMU

namespace IMU.Sort
open Utils

/-- The call `compareFun(first, second)`, as in Src/sort/bubble_sort.c:48, observed. -/
def compareFunT (cmp : Cmp) (element_size : Int) (first second : Ptr) : T Bool := do
  T.emit ((List.range element_size.toNat).map fun i => .read (first.addN i))
  T.emit ((List.range element_size.toNat).map fun i => .read (second.addN i))
  T.quiet (compareFun cmp element_size first second)

/-- `compareFun(&elements[i * element_size], &elements[j * element_size])`, as in Src/sort/bubble_sort.c:48, observed. -/
def compareAtT (cmp : Cmp) (elements : Ptr) (element_size i j : Int) : T Bool := do
  let p ← T.quiet (elemAt elements element_size i)
  let q ← T.quiet (elemAt elements element_size j)
  compareFunT cmp element_size p q

/-- `Utils_swapElements(&elements[i * element_size], &elements[j * element_size], (uint32_t)element_size)`,
as in Src/sort/bubble_sort.c:49, observed. -/
def swapElemsT (elements : Ptr) (element_size i j : Int) : T Unit := do
  let p ← T.quiet (elemAt elements element_size i)
  let q ← T.quiet (elemAt elements element_size j)
  swapElementsT p q (u32 element_size)

/-- Src/sort/bubble_sort.c:47-52: one pass, observed. -/
def bubblePassT (cmp : Cmp) (elements : Ptr) (element_size count : Int) : T Bool :=
  forNT count.toNat 0 (fun j swapped => do
    let c ← compareAtT cmp elements element_size j (j + 1)
    let c ← T.branch c
    if c then do
      swapElemsT elements element_size j (j + 1)
      return true
    else return swapped) false

/-- Src/sort/bubble_sort.c:45-54: the `while (swapped)` loop after its first test, observed. -/
def bubbleLoopT (cmp : Cmp) (elements : Ptr) (number_of_elements element_size : Int) : Nat → Int → T Unit
  | 0, _ => T.quiet (C.ub .fuel)
  | fuel + 1, i => do
    let d ← T.quiet (i32 (number_of_elements - i))
    let count ← T.quiet (i32 (d - 1))
    let swapped ← bubblePassT cmp elements element_size count
    let i ← T.quiet (i32 (i + 1))
    let c ← T.branch swapped
    if c then bubbleLoopT cmp elements number_of_elements element_size fuel i else return ()

/-- Src/sort/bubble_sort.c:39-55 `BubbleSort_sort`, observed. -/
def bubbleSortT (fuel : Nat) (buffer : Ptr) (number_of_elements element_size : Int) (cmp : Cmp) : T Unit := do
  let _ ← T.branch true
  bubbleLoopT cmp buffer number_of_elements element_size fuel 0

/-- Src/sort/selection_sort.c:46-51: the search for `min_index`, observed. -/
def selectMinT (cmp : Cmp) (elements : Ptr) (number_of_elements element_size : Int) (i : Nat) : T Nat := do
  let j ← T.quiet (i32 ((i : Int) + 1))
  forNT (number_of_elements - j).toNat (i + 1) (fun j min_index => do
    let c ← compareAtT cmp elements element_size min_index j
    let c ← T.branch c
    return if c then j else min_index) i

/-- Src/sort/selection_sort.c:39-57 `SelectionSort_sort`, observed. -/
def selectionSortT (buffer : Ptr) (number_of_elements element_size : Int) (cmp : Cmp) : T Unit := do
  let last ← T.quiet (i32 (number_of_elements - 1))
  forNT last.toNat 0 (fun i _ => do
    let min_index ← selectMinT cmp buffer number_of_elements element_size i
    let c ← T.branch (decide (min_index ≠ i))
    if c then swapElemsT buffer element_size min_index i else return ()) ()

/-- Src/sort/insertion_sort.c:56-63: the inner loop, observed; the second half of its condition is decided only if the
first one holds. -/
def insertionShiftT (cmp : Cmp) (elements : Ptr) (element_size : Int) (element : Ptr) : Nat → Bool → T Nat
  | 0, _ => do
    let _ ← T.branch false
    return 0
  | k + 1, compare => do
    let _ ← T.branch true
    let c ← T.branch compare
    if c then do
      let dst ← T.quiet (elemAt elements element_size (k + 1))
      let src ← T.quiet (elemAt elements element_size k)
      memcpyT dst src (szt element_size)
      let p ← T.quiet (elemAt elements element_size ((k : Int) - 1))
      let compare ← compareFunT cmp element_size p element
      insertionShiftT cmp elements element_size element k compare
    else return k + 1

/-- Src/sort/insertion_sort.c:51-68: one round of the outer loop, observed; delivers the final `j + 1`. -/
def insertOneT (cmp : Cmp) (max_element buffer : Ptr) (element_size : Int) (i : Nat) : T Nat := do
  let p ← T.quiet (elemAt buffer element_size i)
  memcpyT max_element p (szt element_size)
  let q ← T.quiet (elemAt buffer element_size ((i : Int) - 1))
  let compare ← compareFunT cmp element_size q max_element
  let k ← insertionShiftT cmp buffer element_size max_element i compare
  let dst ← T.quiet (elemAt buffer element_size k)
  memcpyT dst max_element (szt element_size)
  return k

/-- Src/sort/insertion_sort.c:39-70 `InsertionSort_sort`, observed. -/
def insertionSortT (max_element : Ptr) (buffer : Ptr) (number_of_elements element_size : Int) (cmp : Cmp) : T Unit :=
  forNT (number_of_elements - 1).toNat 1 (fun i _ => do
    let _ ← insertOneT cmp max_element buffer element_size i
    return ()) ()

/-- Src/sort/heap_sort.c:54 and 60: the condition `(child < n) && (compare_ret_value)`, observed; the second half is
decided only if the first one holds. -/
def childT (child n : Int) (compare_ret_value : Bool) : T Bool := do
  let c ← T.branch (decide (child < n))
  if c then T.branch compare_ret_value else return false

/-- Src/sort/heap_sort.c:46-70: the loop of `Heapify`, at `index`, observed. -/
def heapifyLoopT (cmp : Cmp) (elements : Ptr) (n element_size : Int) : Nat → Int → T Unit
  | 0, _ => T.quiet (C.ub .fuel)
  | fuel + 1, index => do
    let _ ← T.branch true
    let d ← T.quiet (i32 (2 * index))
    let left ← T.quiet (i32 (d + 1))
    let right ← T.quiet (i32 (d + 2))
    let c1 ← compareAtT cmp elements element_size left index
    let b1 ← childT left n c1
    let largest := if b1 then left else index
    let c2 ← compareAtT cmp elements element_size right largest
    let b2 ← childT right n c2
    let largest := if b2 then right else largest
    let c ← T.branch (decide (largest ≠ index))
    if c then do
      swapElemsT elements element_size index largest
      heapifyLoopT cmp elements n element_size fuel largest
    else do
      let _ ← T.branch false
      return ()

/-- Src/sort/heap_sort.c:73-86 `HeapSort_sort`, observed; each call of `Heapify` (lines 39-71) gets `fuel` rounds. -/
def heapSortT (fuel : Nat) (buffer : Ptr) (number_of_elements element_size : Int) (cmp : Cmp) : T Unit := do
  let h ← T.quiet (i32 (number_of_elements.tdiv 2 - 1))
  forDownT (h + 1).toNat (fun i _ => heapifyLoopT cmp buffer number_of_elements element_size fuel i) ()
  let h ← T.quiet (i32 (number_of_elements - 1))
  forDownT (h + 1).toNat (fun i _ => do
    swapElemsT buffer element_size 0 i
    heapifyLoopT cmp buffer i element_size fuel 0) ()

end IMU.Sort
