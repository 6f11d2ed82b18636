import Verif.Model.Sort

/-!
# The sorts of Src/sort with a comparison function that may do anything

The same code as in `Verif/Model/Sort.lean`, line by line, but `compareFun` is an arbitrary computation on the two
pointers: it may read and write any memory.  (`Props/SortEffects.lean` shows that the definitions of `Model/Sort.lean`
are the instances for comparison functions without effects.)
-/

namespace IMU.Sort
open Utils

/-- A comparison function `bool (*compareFun)(void* first, void* second)`, Src/sort/bubble_sort.c:41. -/
abbrev CmpFun := Ptr → Ptr → C Bool

/-- `compareFun(&elements[i * element_size], &elements[j * element_size])`, as in Src/sort/bubble_sort.c:48. -/
def compareAtE (cmp : CmpFun) (elements : Ptr) (element_size i j : Int) : C Bool := do
  let p ← elemAt elements element_size i
  let q ← elemAt elements element_size j
  cmp p q

/-- Src/sort/bubble_sort.c:47-52. -/
def bubblePassE (cmp : CmpFun) (elements : Ptr) (element_size count : Int) : C Bool :=
  forN count.toNat 0 (fun j swapped => do
    let c ← compareAtE cmp elements element_size j (j + 1)
    if c then do
      swapElems elements element_size j (j + 1)
      return true
    else return swapped) false

/-- Src/sort/bubble_sort.c:45-54. -/
def bubbleLoopE (cmp : CmpFun) (elements : Ptr) (number_of_elements element_size : Int) : Nat → Int → C Unit
  | 0, _ => C.ub .fuel
  | fuel + 1, i => do
    let d ← i32 (number_of_elements - i)
    let count ← i32 (d - 1)
    let swapped ← bubblePassE cmp elements element_size count
    let i ← i32 (i + 1)
    if swapped then bubbleLoopE cmp elements number_of_elements element_size fuel i else return ()

/-- Src/sort/bubble_sort.c:39-55 `BubbleSort_sort`. -/
def bubbleSortE (fuel : Nat) (buffer : Ptr) (number_of_elements element_size : Int) (cmp : CmpFun) : C Unit :=
  bubbleLoopE cmp buffer number_of_elements element_size fuel 0

/-- Src/sort/selection_sort.c:46-51. -/
def selectMinE (cmp : CmpFun) (elements : Ptr) (number_of_elements element_size : Int) (i : Nat) : C Nat := do
  let j ← i32 ((i : Int) + 1)
  forN (number_of_elements - j).toNat (i + 1) (fun j min_index => do
    let c ← compareAtE cmp elements element_size min_index j
    return if c then j else min_index) i

/-- Src/sort/selection_sort.c:39-57 `SelectionSort_sort`. -/
def selectionSortE (buffer : Ptr) (number_of_elements element_size : Int) (cmp : CmpFun) : C Unit := do
  let last ← i32 (number_of_elements - 1)
  forN last.toNat 0 (fun i _ => do
    let min_index ← selectMinE cmp buffer number_of_elements element_size i
    if min_index ≠ i then swapElems buffer element_size min_index i else return ()) ()

/-- Src/sort/insertion_sort.c:56-63. -/
def insertionShiftE (cmp : CmpFun) (elements : Ptr) (element_size : Int) (element : Ptr) : Nat → Bool → C Nat
  | 0, _ => return 0
  | k + 1, compare =>
    if compare then do
      let dst ← elemAt elements element_size (k + 1)
      let src ← elemAt elements element_size k
      memcpy dst src (szt element_size)
      let p ← elemAt elements element_size ((k : Int) - 1)
      let compare ← cmp p element
      insertionShiftE cmp elements element_size element k compare
    else return k + 1

/-- Src/sort/insertion_sort.c:39-70 `InsertionSort_sort`. -/
def insertionSortE (max_element : Ptr) (buffer : Ptr) (number_of_elements element_size : Int) (cmp : CmpFun) :
    C Unit :=
  forN (number_of_elements - 1).toNat 1 (fun i _ => do
    let p ← elemAt buffer element_size i
    memcpy max_element p (szt element_size)
    let q ← elemAt buffer element_size ((i : Int) - 1)
    let compare ← cmp q max_element
    let k ← insertionShiftE cmp buffer element_size max_element i compare
    let dst ← elemAt buffer element_size k
    memcpy dst max_element (szt element_size)) ()

/-- Src/sort/heap_sort.c:46-70. -/
def heapifyLoopE (cmp : CmpFun) (elements : Ptr) (n element_size : Int) : Nat → Int → C Unit
  | 0, _ => C.ub .fuel
  | fuel + 1, index => do
    let d ← i32 (2 * index)
    let left ← i32 (d + 1)
    let right ← i32 (d + 2)
    let c1 ← compareAtE cmp elements element_size left index
    let largest := if left < n ∧ c1 then left else index
    let c2 ← compareAtE cmp elements element_size right largest
    let largest := if right < n ∧ c2 then right else largest
    if largest ≠ index then do
      swapElems elements element_size index largest
      heapifyLoopE cmp elements n element_size fuel largest
    else return ()

/-- Src/sort/heap_sort.c:73-86 `HeapSort_sort`. -/
def heapSortE (fuel : Nat) (buffer : Ptr) (number_of_elements element_size : Int) (cmp : CmpFun) : C Unit := do
  let h ← i32 (number_of_elements.tdiv 2 - 1)
  forDown (h + 1).toNat (fun i _ => heapifyLoopE cmp buffer number_of_elements element_size fuel i) ()
  let h ← i32 (number_of_elements - 1)
  forDown (h + 1).toNat (fun i _ => do
    swapElems buffer element_size 0 i
    heapifyLoopE cmp buffer i element_size fuel 0) ()

end IMU.Sort
