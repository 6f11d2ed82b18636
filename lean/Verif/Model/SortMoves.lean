import Verif.Model.SortEffects

/-!
# The sorts of Src/sort with something done before each element is moved

The same code as in `Verif/Model/SortEffects.lean`, line by line, but `mv` is executed before each call of
`Utils_swapElements` and each call of `memcpy`, so that they can be counted.  (`Props/SortMoves.lean` shows that the
definitions of `Model/SortEffects.lean` are the instances in which `mv` does nothing.)
-/

namespace IMU.Sort
open Utils

/-- Src/sort/bubble_sort.c:47-52. -/
def bubblePassX (mv : C Unit) (cmp : CmpFun) (elements : Ptr) (element_size count : Int) : C Bool :=
  forN count.toNat 0 (fun j swapped => do
    let c ← compareAtE cmp elements element_size j (j + 1)
    if c then do
      mv
      swapElems elements element_size j (j + 1)
      return true
    else return swapped) false

/-- Src/sort/bubble_sort.c:45-54. -/
def bubbleLoopX (mv : C Unit) (cmp : CmpFun) (elements : Ptr) (number_of_elements element_size : Int) : Nat → Int → C Unit
  | 0, _ => C.ub .fuel
  | fuel + 1, i => do
    let d ← i32 (number_of_elements - i)
    let count ← i32 (d - 1)
    let swapped ← bubblePassX mv cmp elements element_size count
    let i ← i32 (i + 1)
    if swapped then bubbleLoopX mv cmp elements number_of_elements element_size fuel i else return ()

/-- Src/sort/bubble_sort.c:39-55 `BubbleSort_sort`. -/
def bubbleSortX (mv : C Unit) (fuel : Nat) (buffer : Ptr) (number_of_elements element_size : Int) (cmp : CmpFun) : C Unit :=
  bubbleLoopX mv cmp buffer number_of_elements element_size fuel 0

/-- Src/sort/selection_sort.c:39-57 `SelectionSort_sort`. -/
def selectionSortX (mv : C Unit) (buffer : Ptr) (number_of_elements element_size : Int) (cmp : CmpFun) : C Unit := do
  let last ← i32 (number_of_elements - 1)
  forN last.toNat 0 (fun i _ => do
    let min_index ← selectMinE cmp buffer number_of_elements element_size i
    if min_index ≠ i then do
      mv
      swapElems buffer element_size min_index i
    else return ()) ()

/-- Src/sort/insertion_sort.c:56-63. -/
def insertionShiftX (mv : C Unit) (cmp : CmpFun) (elements : Ptr) (element_size : Int) (element : Ptr) : Nat → Bool → C Nat
  | 0, _ => return 0
  | k + 1, compare =>
    if compare then do
      let dst ← elemAt elements element_size (k + 1)
      let src ← elemAt elements element_size k
      mv
      memcpy dst src (szt element_size)
      let p ← elemAt elements element_size ((k : Int) - 1)
      let compare ← cmp p element
      insertionShiftX mv cmp elements element_size element k compare
    else return k + 1

/-- Src/sort/insertion_sort.c:39-70 `InsertionSort_sort`. -/
def insertionSortX (mv : C Unit) (max_element : Ptr) (buffer : Ptr) (number_of_elements element_size : Int) (cmp : CmpFun) :
    C Unit :=
  forN (number_of_elements - 1).toNat 1 (fun i _ => do
    let p ← elemAt buffer element_size i
    mv
    memcpy max_element p (szt element_size)
    let q ← elemAt buffer element_size ((i : Int) - 1)
    let compare ← cmp q max_element
    let k ← insertionShiftX mv cmp buffer element_size max_element i compare
    let dst ← elemAt buffer element_size k
    mv
    memcpy dst max_element (szt element_size)) ()

/-- Src/sort/heap_sort.c:46-70. -/
def heapifyLoopX (mv : C Unit) (cmp : CmpFun) (elements : Ptr) (n element_size : Int) : Nat → Int → C Unit
  | 0, _ => C.ub .fuel
  | fuel + 1, index => do
    let d ← i32 (2 * index)
    let left ← i32 (d + 1)
    let right ← i32 (d + 2)
    let c1 ← compareAtE cmp elements element_size left index
    let largest := if left < n ∧ c1 then left else index
    let c2 ← compareAtE cmp elements element_size right largest
    let largest := if right < n ∧ c2 then right else largest
    if largest ≠ index then do
      mv
      swapElems elements element_size index largest
      heapifyLoopX mv cmp elements n element_size fuel largest
    else return ()

/-- Src/sort/heap_sort.c:73-86 `HeapSort_sort`. -/
def heapSortX (mv : C Unit) (fuel : Nat) (buffer : Ptr) (number_of_elements element_size : Int) (cmp : CmpFun) : C Unit := do
  let h ← i32 (number_of_elements.tdiv 2 - 1)
  forDown (h + 1).toNat (fun i _ => heapifyLoopX mv cmp buffer number_of_elements element_size fuel i) ()
  let h ← i32 (number_of_elements - 1)
  forDown (h + 1).toNat (fun i _ => do
    mv
    swapElems buffer element_size 0 i
    heapifyLoopX mv cmp buffer i element_size fuel 0) ()

end IMU.Sort
