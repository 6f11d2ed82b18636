import Verif.Proofs.SortCostReached
import Verif.Props.LeakSort

/-!
# Property C148: how many steps the sorts take

Steps are what the observer of C147 sees: bytes read or written (by the comparison function: every byte of both
elements) and decisions.
-/

namespace IMU.Props
open Spec Utils IMU.Sort T

/-- C148: bubble sort of `n` elements of `sz` bytes takes between `(n - 1)(2 sz + 2) + 3` and
`n (n - 1) / 2 * (7 sz + 3) + 2 n + 1` steps, whatever the comparison function answers. -/
theorem C148_bubble (m : Mem) (b o sz n fuel : Nat) (cmp : Cmp) (h : ArraySetup m b o sz n) (hn : 1 ≤ n) (hf : n ≤ fuel) :
    ∃ t r, bubbleSortT fuel (ptr b o) n sz cmp m = .ok ((), t) r ∧
      (n - 1) * (2 * sz + 2) + 3 ≤ t.length ∧ t.length ≤ n * (n - 1) / 2 * (7 * sz + 3) + 2 * n + 1 := by
  obtain ⟨t, r, -, -, h1, -⟩ := C147_bubble m m b o sz n fuel cmp cmp h h hf (by omega)
  exact ⟨t, r, h1, costs_bubble cmp _ h.sz_lt n fuel hn _ _ _ _ h1⟩

/-- C148: selection sort takes the same number of steps for all arrays up to the exchanges, of which there are at most
`n - 1`. -/
theorem C148_selection (m : Mem) (b o sz n : Nat) (cmp : Cmp) (h : ArraySetup m b o sz n) :
    ∃ t r, selectionSortT (ptr b o) n sz cmp m = .ok ((), t) r ∧
      n * (n - 1) / 2 * (2 * sz + 2) + 3 * (n - 1) + 1 ≤ t.length ∧
      t.length ≤ n * (n - 1) / 2 * (2 * sz + 2) + (n - 1) * (5 * sz + 4) + 1 := by
  obtain ⟨t, r, -, -, h1, -⟩ := C147_selection m m b o sz n cmp cmp h h
  exact ⟨t, r, h1, costs_selection cmp _ h.sz_lt n _ _ _ _ h1⟩

/-- C148: insertion sort, with room for an element before the array (C45). -/
theorem C148_insertion (m : Mem) (st b o sz n : Nat) (cmp : Cmp) (h : ArraySetup m b o sz n) (hst : st ≠ b)
    (hl : (m.bytes st).length = 64) (h64 : sz ≤ 64) (ho : sz ≤ o) :
    ∃ t r, insertionSortT (ptr st 0) (ptr b o) n sz cmp m = .ok ((), t) r ∧
      (n - 1) * (6 * sz + 3) + 1 ≤ t.length ∧
      t.length ≤ n * (n - 1) / 2 * (4 * sz + 2) + (n - 1) * (6 * sz + 2) + 1 := by
  obtain ⟨t, r, -, -, h1, -⟩ := C147_insertion m m st b o sz n cmp cmp h h hst hl hl h64 ho
  exact ⟨t, r, h1, costs_insertion cmp _ _ h.sz_lt n _ _ _ _ h1⟩

/-- C148: heap sort, with readable memory behind the array (C44): for all arrays a number of steps between linear and
`n log n` (building the heap is linear). -/
theorem C148_heap (m : Mem) (b o sz n fuel : Nat) (cmp : Cmp) (h : HeapSetup m b o sz n) (hf : n < 2 ^ fuel) :
    ∃ t r, heapSortT fuel (ptr b o) n sz cmp m = .ok ((), t) r ∧
      n / 2 * (4 * sz + 6) + n * (9 * sz + 7) + 2 ≤ t.length ∧
      t.length ≤ n / 2 * (4 * sz + 8) + n * (Nat.log2 n * (9 * sz + 7) + 18 * sz + 16) + 2 := by
  obtain ⟨t, r, -, -, h1, -⟩ := C147_heap m m b o sz n fuel cmp cmp h h hf
  exact ⟨t, r, h1, costs_heap cmp _ h.sz_lt n fuel _ _ _ _ h1⟩

/-- C148: the bounds of bubble, selection and insertion sort are the best ones, for every number and size of elements: the
lower ones are reached with a comparison function that finds no element greater than another, the upper ones with one
that finds every element greater than every other. -/
theorem C148_reached (m : Mem) (st b o sz n fuel : Nat) (h : ArraySetup m b o sz n) (hn : 1 ≤ n) (hf : n ≤ fuel) :
    (∃ t r, bubbleSortT fuel (ptr b o) n sz (fun _ _ => false) m = .ok ((), t) r ∧ t.length = (n - 1) * (2 * sz + 2) + 3) ∧
    (∃ t r, bubbleSortT fuel (ptr b o) n sz (fun _ _ => true) m = .ok ((), t) r ∧
      t.length = n * (n - 1) / 2 * (7 * sz + 3) + 2 * n + 1) ∧
    (∃ t r, selectionSortT (ptr b o) n sz (fun _ _ => false) m = .ok ((), t) r ∧
      t.length = n * (n - 1) / 2 * (2 * sz + 2) + 3 * (n - 1) + 1) ∧
    (∃ t r, selectionSortT (ptr b o) n sz (fun _ _ => true) m = .ok ((), t) r ∧
      t.length = n * (n - 1) / 2 * (2 * sz + 2) + (n - 1) * (5 * sz + 4) + 1) ∧
    (st ≠ b → (m.bytes st).length = 64 → sz ≤ 64 → sz ≤ o →
      (∃ t r, insertionSortT (ptr st 0) (ptr b o) n sz (fun _ _ => false) m = .ok ((), t) r ∧
        t.length = (n - 1) * (6 * sz + 3) + 1) ∧
      (∃ t r, insertionSortT (ptr st 0) (ptr b o) n sz (fun _ _ => true) m = .ok ((), t) r ∧
        t.length = n * (n - 1) / 2 * (4 * sz + 2) + (n - 1) * (6 * sz + 2) + 1)) := by
  refine ⟨?_, ?_, ?_, ?_, fun hst hl h64 ho => ⟨?_, ?_⟩⟩
  · obtain ⟨t, r, -, -, h1, -⟩ := C147_bubble m m b o sz n fuel (always false) (always false) h h hf (by omega)
    exact ⟨t, r, h1, bubble_false _ h.sz_lt n fuel hn _ _ _ _ h1⟩
  · obtain ⟨t, r, -, -, h1, -⟩ := C147_bubble m m b o sz n fuel (always true) (always true) h h hf (by omega)
    exact ⟨t, r, h1, bubble_true _ h.sz_lt n fuel hn _ _ _ _ h1⟩
  · obtain ⟨t, r, -, -, h1, -⟩ := C147_selection m m b o sz n (always false) (always false) h h
    refine ⟨t, r, h1, ?_⟩
    rw [Nat.mul_comm 3]
    exact selection_always false _ h.sz_lt n _ _ _ _ h1
  · obtain ⟨t, r, -, -, h1, -⟩ := C147_selection m m b o sz n (always true) (always true) h h
    exact ⟨t, r, h1, selection_always true _ h.sz_lt n _ _ _ _ h1⟩
  · obtain ⟨t, r, -, -, h1, -⟩ := C147_insertion m m st b o sz n (always false) (always false) h h hst hl hl h64 ho
    exact ⟨t, r, h1, insertion_always false _ _ h.sz_lt n _ _ _ _ h1⟩
  · obtain ⟨t, r, -, -, h1, -⟩ := C147_insertion m m st b o sz n (always true) (always true) h h hst hl hl h64 ho
    exact ⟨t, r, h1, insertion_always true _ _ h.sz_lt n _ _ _ _ h1⟩

/-- With the order of numbers they are reached, too: bubble sort of 1 2 3 and of 3 2 1, ... -/
example : (shownOf (bubbleSortT 3 (ptr 0 0) 3 1 byFirst (mem1 [1, 2, 3]))).length = (3 - 1) * (2 * 1 + 2) + 3 ∧
    (shownOf (bubbleSortT 3 (ptr 0 0) 3 1 byFirst (mem1 [3, 2, 1]))).length = 3 * (3 - 1) / 2 * (7 * 1 + 3) + 2 * 3 + 1 := by
  decide +kernel

/-- ... selection sort of 1 2 3 and of 2 3 1, ... -/
example : (shownOf (selectionSortT (ptr 0 0) 3 1 byFirst (mem1 [1, 2, 3]))).length = 3 * (2 * 1 + 2) + 3 * 2 + 1 ∧
    (shownOf (selectionSortT (ptr 0 0) 3 1 byFirst (mem1 [2, 3, 1]))).length = 3 * (2 * 1 + 2) + 2 * (5 * 1 + 4) + 1 := by
  decide +kernel

/-- ... insertion sort of 1 2 3 and of 3 2 1. -/
example : (shownOf (insertionSortT (ptr 1 0) (ptr 0 1) 3 1 byFirst ((mem1 [7, 1, 2, 3]).upd 1 (List.replicate 64 0)))).length =
      (3 - 1) * (6 * 1 + 3) + 1 ∧
    (shownOf (insertionSortT (ptr 1 0) (ptr 0 1) 3 1 byFirst ((mem1 [7, 3, 2, 1]).upd 1 (List.replicate 64 0)))).length =
      3 * (4 * 1 + 2) + 2 * (6 * 1 + 2) + 1 := by
  decide +kernel

/-- Heap sort of three elements takes 77 or 91 steps; the lower bound is reached with one element. -/
example : (shownOf (heapSortT 2 (ptr 0 0) 3 1 byFirst (mem1 [2, 1, 3, 7, 7, 7, 7]))).length = 77 ∧
    (shownOf (heapSortT 2 (ptr 0 0) 3 1 byFirst (mem1 [1, 2, 3, 7, 7, 7, 7]))).length = 91 ∧
    (shownOf (heapSortT 1 (ptr 0 0) 1 1 byFirst (mem1 [2, 7, 7]))).length = 1 * (9 * 1 + 7) + 2 := by
  decide +kernel

end IMU.Props
