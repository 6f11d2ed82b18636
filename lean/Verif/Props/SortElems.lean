import Verif.Proofs.SortCongr
import Verif.Props.Sort

/-!
# Property C86: sorting with a comparator that is an order among the elements only

The comparator may do anything on other arguments.  Heap sort and insertion sort hand it bytes outside the
array; the theorems say that what it answers there does not matter.
-/

namespace IMU.Props
open Spec Utils IMU.Sort

/-- C86: bubble sort sorts, stably, if the comparator is a strict weak order among the elements. -/
theorem C86_bubble_elements (m : Mem) (b o sz n fuel : Nat) (cmp : Cmp)
    (hw : StrictWeakOn (elems (m.bytes b) o sz n) cmp) (h : ArraySetup m b o sz n) (hfu : n ≤ fuel) (hfu1 : 1 ≤ fuel) :
    ∃ m', bubbleSort fuel (ptr b o) n sz cmp m = .ok () m' ∧ OnlyChanged m m' b o (n * sz) ∧
      (elems (m.bytes b) o sz n).Perm (elems (m'.bytes b) o sz n) ∧ Sorted cmp (elems (m'.bytes b) o sz n) ∧
      SameTiesOn cmp (elems (m.bytes b) o sz n) (elems (m'.bytes b) o sz n) := by
  obtain ⟨g, ha, hg⟩ := strictWeakOn_extend hw
  obtain ⟨m', h1, h2, h3, h4⟩ := bubble_all m b o sz n fuel g h hfu hfu1
  have hl := elems_length (m.bytes b) o sz n
  have hc := bubbleLoop_congr (m0 := m) (b := b) (o := o) h.sz_lt fuel (elems (m.bytes b) o sz n) 0
    (elems_fits h.room) (by rw [hl]; exact h.lim) ha
  rw [hl, arr_elems h.room] at hc
  exact ⟨m', hc.trans h1, h2, h3, ha.sorted (fun x hx => h3.mem_iff.mpr hx) (h4 hg).1, ha.ties h3 (h4 hg).2⟩

/-- C86: selection sort sorts if the comparator is a strict weak order among the elements. -/
theorem C86_selection_elements (m : Mem) (b o sz n : Nat) (cmp : Cmp)
    (hw : StrictWeakOn (elems (m.bytes b) o sz n) cmp) (h : ArraySetup m b o sz n) :
    ∃ m', selectionSort (ptr b o) n sz cmp m = .ok () m' ∧ OnlyChanged m m' b o (n * sz) ∧
      (elems (m.bytes b) o sz n).Perm (elems (m'.bytes b) o sz n) ∧ Sorted cmp (elems (m'.bytes b) o sz n) := by
  obtain ⟨g, ha, hg⟩ := strictWeakOn_extend hw
  obtain ⟨m', h1, h2, h3, h4, -⟩ := selection_all m b o sz n g h
  have hl := elems_length (m.bytes b) o sz n
  have hc := selectionSort_congr (m0 := m) (b := b) (o := o) h.sz_lt (elems_fits h.room)
    (by rw [hl]; exact h.lim) (by rw [hl]; exact h.n_lt) ha
  rw [hl, arr_elems h.room] at hc
  exact ⟨m', hc.trans h1, h2, h3, ha.sorted (fun x hx => h3.mem_iff.mpr hx) (h4 hg)⟩

/-- C86: insertion sort sorts, stably, if the comparator is a strict weak order among the elements and the
`sz` bytes before the array are readable, whatever the comparator says about these bytes. -/
theorem C86_insertion_elements (m : Mem) (st b o sz n : Nat) (cmp : Cmp)
    (hw : StrictWeakOn (elems (m.bytes b) o sz n) cmp) (h : ArraySetup m b o sz n) (hst : st ≠ b)
    (hst64 : (m.bytes st).length = 64) (h64 : sz ≤ 64) (ho : sz ≤ o) :
    ∃ m' X, insertionSort (ptr st 0) (ptr b o) n sz cmp m = .ok () m' ∧
      X.length = 64 ∧ X.drop sz = (m.bytes st).drop sz ∧ OnlyChanged (m.upd st X) m' b o (n * sz) ∧
      (elems (m.bytes b) o sz n).Perm (elems (m'.bytes b) o sz n) ∧ Sorted cmp (elems (m'.bytes b) o sz n) ∧
      SameTiesOn cmp (elems (m.bytes b) o sz n) (elems (m'.bytes b) o sz n) := by
  obtain ⟨g, ha, hg⟩ := strictWeakOn_extend hw
  obtain ⟨m', X, h1, h2, h3, h4, h5, h6⟩ := (insertion_all m st b o sz n g h hst hst64 h64).1 (.inl ho)
  have hl := elems_length (m.bytes b) o sz n
  have hc : insertionSort (ptr st 0) (ptr b o) n sz cmp m = insertionSort (ptr st 0) (ptr b o) n sz g m := by
    have hun : ∀ c : Cmp, insertionSort (ptr st 0) (ptr b o) n sz c m =
        forN (n - 1) 1 (insertionBody c st b o sz) () m := by
      intro c
      unfold insertionSort insertionBody
      rw [show ((n : Int) - 1).toNat = n - 1 by omega]
    rw [hun, hun]
    have hf := elems_fits (sz := sz) (n := n) h.room
    cases hE : elems (m.bytes b) o sz n with
    | nil =>
      have hn : n = 0 := by rw [← hl, hE]; rfl
      subst hn
      rfl
    | cons x t =>
      have hn : n = t.length + 1 := by rw [← hl, hE]; rfl
      have him : imem m st b o (m.bytes st) ([x] ++ t) = m := by
        unfold imem
        rw [Mem.upd_self, List.singleton_append, ← hE, arr_elems h.room]
      have := insertion_congr (g := cmp) (g' := g) (m0 := m) (st := st) (b := b) (o := o) h.sz_lt t [x] (m.bytes st) (by simp)
        ⟨by rw [List.singleton_append, ← hE]; exact hf, hst, by omega⟩
        (by rw [List.singleton_append, ← hE, hl]; exact h.lim) (by rw [List.singleton_append, ← hE]; exact ha)
      rw [him] at this
      rw [show n - 1 = t.length by omega]
      exact this
  exact ⟨m', X, hc.trans h1, h2, h3.1, h4, h5, ha.sorted (fun x hx => h5.mem_iff.mpr hx) (h6 hg).1, ha.ties h5 (h6 hg).2⟩

/-- C86: heap sort sorts if the comparator is a strict weak order among the elements and the memory up to
element index `2n` is readable, whatever the comparator says about the bytes behind the array. -/
theorem C86_heap_elements (m : Mem) (b o sz n fuel : Nat) (cmp : Cmp)
    (hw : StrictWeakOn (elems (m.bytes b) o sz n) cmp) (h : HeapSetup m b o sz n) (hfu : n < 2 ^ fuel) :
    ∃ m', heapSort fuel (ptr b o) n sz cmp m = .ok () m' ∧ OnlyChanged m m' b o (n * sz) ∧
      (elems (m.bytes b) o sz n).Perm (elems (m'.bytes b) o sz n) ∧ Sorted cmp (elems (m'.bytes b) o sz n) := by
  obtain ⟨g, ha, hg⟩ := strictWeakOn_extend hw
  obtain ⟨m', h1, h2, h3, h4⟩ := heap_all m b o sz n fuel g h hfu
  have hl := elems_length (m.bytes b) o sz (2 * n + 1)
  have hf := elems_fits (sz := sz) (n := 2 * n + 1) h.room
  have hb : AgreeBelow n (elems (m.bytes b) o sz (2 * n + 1)) cmp g := by
    have hm : ∀ p, p < n → (elems (m.bytes b) o sz (2 * n + 1)).getD p [] ∈ elems (m.bytes b) o sz n := by
      intro p hp
      rw [List.getD_eq_getElem?_getD, elems_get (by omega), Option.getD_some]
      exact List.mem_of_getElem? (elems_get hp)
    intro p q hp hq
    exact ha _ (hm p hp) _ (hm q hq)
  have hc := heapSort_congr (m0 := m) (b := b) (o := o) h.sz_lt hf (by rw [hl]; exact h.lim) (by rw [hl]; exact h.n_lt)
    n fuel (by rw [hl]; omega) hfu hb
  rw [arr_elems h.room] at hc
  exact ⟨m', hc.trans h1, h2, h3, ha.sorted (fun x hx => h3.mem_iff.mpr hx) (h4 hg)⟩

/-- A comparator by value that calls zero greater than everything, itself included. -/
def oddCmp : Cmp := fun a b => a == [0] || byFirst a b

/-- An array 3, 1, 2 among zeros: an order among its elements, not on all bytes. -/
example : StrictWeakOn (elems [0, 3, 1, 2, 0, 0, 0, 0] 1 1 3) oddCmp ∧ ¬ StrictWeak oddCmp ∧
    HeapSetup (mem1 [0, 3, 1, 2, 0, 0, 0, 0]) 0 1 1 3 ∧ ArraySetup (mem1 [0, 3, 1, 2, 0, 0, 0, 0]) 0 1 1 3 := by
  have he : elems [0, 3, 1, 2, 0, 0, 0, 0] 1 1 3 = ([[3], [1], [2]] : List (List Byte)) := by rfl
  refine ⟨?_, ?_, ⟨by decide, by decide, by decide, by decide⟩, ⟨by decide, by decide, by decide, by decide⟩⟩
  · rw [he]
    constructor <;> simp [oddCmp, byFirst]
  · intro h
    have := h.asymm [0] [0] (by decide)
    exact absurd this (by decide)

/-- The zeros behind the array do not enter the sorted array. -/
example : (match heapSort 3 (ptr 0 1) 3 1 oddCmp (mem1 [0, 3, 1, 2, 0, 0, 0, 0]) with
    | .ok _ m' => m'.bytes 0
    | .ub _ => []) = [0, 1, 2, 3, 0, 0, 0, 0] := by decide +kernel

end IMU.Props
