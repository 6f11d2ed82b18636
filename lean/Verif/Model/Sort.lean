import Verif.Model.Utils

/-!
# Model of Src/sort/{bubble,selection,insertion,heap}_sort.c

`int32_t` values are integers, every `int32_t` operation is checked for overflow.  The comparison function is
a pure function `cmp` of the bytes of the two elements it is handed (simplification: it reads exactly the
`element_size` bytes of each of them, has no effects and its result depends on nothing else).  `cmp a b`
means that `a` is greater than `b`.  `while` loops get a number of rounds (`fuel`), running out of it is a
distinct outcome.
-/

namespace IMU.Sort
open Utils

/-- A comparison function (Inc/sort/bubble_sort.h:46-51: true if the first element is greater). -/
abbrev Cmp := List Byte → List Byte → Bool

/-- `(uint32_t)element_size`, as in Src/sort/bubble_sort.c:49. -/
def u32 (element_size : Int) : U32 := BitVec.ofInt 32 element_size

/-- `(size_t)element_size`, as in Src/sort/insertion_sort.c:51. -/
def szt (element_size : Int) : Nat := (BitVec.ofInt 64 element_size).toNat

/-- The call `compareFun(first, second)`, as in Src/sort/bubble_sort.c:48. -/
def compareFun (cmp : Cmp) (element_size : Int) (first second : Ptr) : C Bool := do
  let a ← loadN first element_size.toNat
  let b ← loadN second element_size.toNat
  return cmp a b

/-- The expression `&elements[i * element_size]`, as in Src/sort/bubble_sort.c:48. -/
def elemAt (elements : Ptr) (element_size i : Int) : C Ptr := do
  let k ← i32 (i * element_size)
  return elements.addZ k

/-- `compareFun(&elements[i * element_size], &elements[j * element_size])`, as in Src/sort/bubble_sort.c:48. -/
def compareAt (cmp : Cmp) (elements : Ptr) (element_size i j : Int) : C Bool := do
  let p ← elemAt elements element_size i
  let q ← elemAt elements element_size j
  compareFun cmp element_size p q

/-- `Utils_swapElements(&elements[i * element_size], &elements[j * element_size], (uint32_t)element_size)`,
as in Src/sort/bubble_sort.c:49. -/
def swapElems (elements : Ptr) (element_size i j : Int) : C Unit := do
  let p ← elemAt elements element_size i
  let q ← elemAt elements element_size j
  swapElements p q (u32 element_size)

/-- Src/sort/bubble_sort.c:47-52: one pass, `count = number_of_elements - i - 1`; delivers `swapped`. -/
def bubblePass (cmp : Cmp) (elements : Ptr) (element_size count : Int) : C Bool :=
  forN count.toNat 0 (fun j swapped => do
    let c ← compareAt cmp elements element_size j (j + 1)
    if c then do
      swapElems elements element_size j (j + 1)
      return true
    else return swapped) false

/-- Src/sort/bubble_sort.c:45-54: the `while (swapped)` loop, entered with `swapped` true. -/
def bubbleLoop (cmp : Cmp) (elements : Ptr) (number_of_elements element_size : Int) : Nat → Int → C Unit
  | 0, _ => C.ub .fuel
  | fuel + 1, i => do
    let d ← i32 (number_of_elements - i)
    let count ← i32 (d - 1)
    let swapped ← bubblePass cmp elements element_size count
    let i ← i32 (i + 1)
    if swapped then bubbleLoop cmp elements number_of_elements element_size fuel i else return ()

/-- Src/sort/bubble_sort.c:39-55 `BubbleSort_sort`. -/
def bubbleSort (fuel : Nat) (buffer : Ptr) (number_of_elements element_size : Int) (cmp : Cmp) : C Unit :=
  bubbleLoop cmp buffer number_of_elements element_size fuel 0

/-- Src/sort/selection_sort.c:46-51: the search for `min_index`. -/
def selectMin (cmp : Cmp) (elements : Ptr) (number_of_elements element_size : Int) (i : Nat) : C Nat := do
  let j ← i32 ((i : Int) + 1)
  forN (number_of_elements - j).toNat (i + 1) (fun j min_index => do
    let c ← compareAt cmp elements element_size min_index j
    return if c then j else min_index) i

/-- Src/sort/selection_sort.c:39-57 `SelectionSort_sort`. -/
def selectionSort (buffer : Ptr) (number_of_elements element_size : Int) (cmp : Cmp) : C Unit := do
  let last ← i32 (number_of_elements - 1)
  forN last.toNat 0 (fun i _ => do
    let min_index ← selectMin cmp buffer number_of_elements element_size i
    if min_index ≠ i then swapElems buffer element_size min_index i else return ()) ()

/-- Src/sort/insertion_sort.c:56-63: the inner loop; `k` is `j + 1`, `compare` the last comparison result;
delivers the final `j + 1`. -/
def insertionShift (cmp : Cmp) (elements : Ptr) (element_size : Int) (element : Ptr) : Nat → Bool → C Nat
  | 0, _ => return 0
  | k + 1, compare =>
    if compare then do
      let dst ← elemAt elements element_size (k + 1)
      let src ← elemAt elements element_size k
      memcpy dst src (szt element_size)
      let p ← elemAt elements element_size ((k : Int) - 1)
      let compare ← compareFun cmp element_size p element
      insertionShift cmp elements element_size element k compare
    else return k + 1

/-- Src/sort/insertion_sort.c:39-70 `InsertionSort_sort`; `max_element` is the static array of line 43 (64
bytes, Inc/sort/insertion_sort.h:40). -/
def insertionSort (max_element : Ptr) (buffer : Ptr) (number_of_elements element_size : Int) (cmp : Cmp) :
    C Unit :=
  forN (number_of_elements - 1).toNat 1 (fun i _ => do
    let p ← elemAt buffer element_size i
    memcpy max_element p (szt element_size)
    let q ← elemAt buffer element_size ((i : Int) - 1)
    let compare ← compareFun cmp element_size q max_element
    let k ← insertionShift cmp buffer element_size max_element i compare
    let dst ← elemAt buffer element_size k
    memcpy dst max_element (szt element_size)) ()

/-- Src/sort/heap_sort.c:46-70: the loop of `Heapify`, at `index`. -/
def heapifyLoop (cmp : Cmp) (elements : Ptr) (n element_size : Int) : Nat → Int → C Unit
  | 0, _ => C.ub .fuel
  | fuel + 1, index => do
    let d ← i32 (2 * index)
    let left ← i32 (d + 1)
    let right ← i32 (d + 2)
    let c1 ← compareAt cmp elements element_size left index
    let largest := if left < n ∧ c1 then left else index
    let c2 ← compareAt cmp elements element_size right largest
    let largest := if right < n ∧ c2 then right else largest
    if largest ≠ index then do
      swapElems elements element_size index largest
      heapifyLoop cmp elements n element_size fuel largest
    else return ()

/-- Src/sort/heap_sort.c:73-86 `HeapSort_sort`; each call of `Heapify` (lines 39-71) gets `fuel` rounds. -/
def heapSort (fuel : Nat) (buffer : Ptr) (number_of_elements element_size : Int) (cmp : Cmp) : C Unit := do
  let h ← i32 (number_of_elements.tdiv 2 - 1)
  forDown (h + 1).toNat (fun i _ => heapifyLoop cmp buffer number_of_elements element_size fuel i) ()
  let h ← i32 (number_of_elements - 1)
  forDown (h + 1).toNat (fun i _ => do
    swapElems buffer element_size 0 i
    heapifyLoop cmp buffer i element_size fuel 0) ()

end IMU.Sort
