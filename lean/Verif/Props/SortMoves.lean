import Verif.Proofs.SortMoves
import Verif.Props.Disorder

/-!
# Property C119: how often the sorts move elements

`bubbleSortX mv` and so on execute `mv` before every exchange of two elements (`Utils_swapElements`) and, in insertion
sort, before every copy (`memcpy`); with `mv := tick v` they write one entry into the log `v` each time, and `calls v m m'`
is the number of these entries.
-/

namespace IMU.Props
open Spec Utils IMU.Sort

/-- C119: without the counting these are the sorts of C94. -/
theorem C119_instances (fuel : Nat) (st p : Ptr) (n sz : Int) (f : CmpFun) :
    bubbleSortX (pure ()) fuel p n sz f = bubbleSortE fuel p n sz f ∧
    selectionSortX (pure ()) p n sz f = selectionSortE p n sz f ∧
    insertionSortX (pure ()) st p n sz f = insertionSortE st p n sz f ∧
    heapSortX (pure ()) fuel p n sz f = heapSortE fuel p n sz f := by
  refine ⟨bubbleLoopX_eq .., rfl, ?_, ?_⟩
  · unfold insertionSortX insertionSortE
    simp only [insertionShiftX_eq]
    rfl
  · unfold heapSortX heapSortE
    simp only [heapifyLoopX_eq]
    rfl

theorem simLog_logged (v w : Nat) (cmp : Cmp) (sz : Int) (p q : Ptr) :
    SimLog v (logged w (compareFun cmp sz) p q) (logged w (compareFun cmp sz) p q) :=
  SimLog.logged (fun p q => SimLog.compareFun cmp sz p q) p q

theorem calls_compareFun (cmp : Cmp) (sz : Int) (u : Nat) (p q : Ptr) : Calls u (compareFun cmp sz p q) 0 0 :=
  Calls.bind (Calls.loadN _ _) fun _ => Calls.bind (Calls.loadN _ _) fun _ => Calls.pure _

/-- Whatever `x` does from `m`, `y` does too, with the same bytes and the same number of calls logged in `w`. -/
def SameBut (w : Nat) (x y : C Unit) (m : Mem) : Prop :=
  ∀ m1, x m = .ok () m1 → ∃ m', y m = .ok () m' ∧ m'.bytes = m1.bytes ∧ calls w m m' = calls w m m1

theorem sameBut_of {v w : Nat} (hvw : v ≠ w) {x y : C Unit} (h : SimLog v x y) (m : Mem) : SameBut w x y m := by
  intro m1 h1
  obtain ⟨m', h2, h3, h4⟩ := h m m () m1 ⟨rfl, fun _ _ => rfl⟩ h1
  exact ⟨m', h2, h3, by unfold calls; rw [h4 w (Ne.symm hvw)]⟩

/-- C119: the counting changes neither the results nor the number of comparisons, so that what C38 - C46, C95 and C113
say holds for the executions counted here. -/
theorem C119_same (v w : Nat) (hvw : v ≠ w) (fuel : Nat) (st p : Ptr) (n sz : Int) (cmp : Cmp) (m : Mem) :
    SameBut w (bubbleSortE fuel p n sz (logged w (compareFun cmp sz)))
      (bubbleSortX (tick v) fuel p n sz (logged w (compareFun cmp sz))) m ∧
    SameBut w (selectionSortE p n sz (logged w (compareFun cmp sz)))
      (selectionSortX (tick v) p n sz (logged w (compareFun cmp sz))) m ∧
    SameBut w (insertionSortE st p n sz (logged w (compareFun cmp sz)))
      (insertionSortX (tick v) st p n sz (logged w (compareFun cmp sz))) m ∧
    SameBut w (heapSortE fuel p n sz (logged w (compareFun cmp sz)))
      (heapSortX (tick v) fuel p n sz (logged w (compareFun cmp sz))) m :=
  ⟨sameBut_of hvw (bubble_simLog (simLog_logged v w cmp sz) n fuel 0) m,
    sameBut_of hvw (selection_simLog (simLog_logged v w cmp sz) n) m,
    sameBut_of hvw (insertion_simLog (simLog_logged v w cmp sz) st n) m,
    sameBut_of hvw (heap_simLog (simLog_logged v w cmp sz) n fuel) m⟩

/-- C119: bubble sort exchanges two elements exactly once for every pair in the wrong order. -/
theorem C119_bubble (m : Mem) (v w b o sz n fuel : Nat) (hvw : v ≠ w) (cmp : Cmp) (hw : StrictWeak cmp)
    (h : ArraySetup m b o sz n) (hfu : n ≤ fuel) (hfu1 : 1 ≤ fuel) :
    ∃ m' m1, bubbleSortX (tick v) fuel (ptr b o) n sz (logged w (compareFun cmp sz)) m = .ok () m' ∧
      bubbleSort fuel (ptr b o) n sz cmp m = .ok () m1 ∧ m'.bytes = m1.bytes ∧
      calls v m m' = inversions cmp (elems (m.bytes b) o sz n) := by
  obtain ⟨m2, m1, h1, h2, h3, -⟩ := C95_bubble m w b o sz n fuel cmp h hfu hfu1
  obtain ⟨m', h4, h5, -⟩ := (C119_same v w hvw fuel (ptr b o) (ptr b o) n sz cmp m).1 m2 h1
  have hl := elems_length (m.bytes b) o sz n
  have hf := elems_fits (sz := sz) (n := n) h.room
  obtain ⟨M', q1, q2⟩ := bubble_moves hw (b := b) (o := o) hvw h.sz_lt fuel m (elems (m.bytes b) o sz n) []
    (by omega) hfu1 (by rw [List.append_nil, hl]; exact h.n_lt) (by simp) (by rw [List.append_nil]; exact hf)
    (by rw [List.append_nil, hl]; exact h.lim)
  rw [List.append_nil, hl, arr_elems h.room] at q1
  have h4' : bubbleLoopX (tick v) (logged w (compareFun cmp sz)) (ptr b o) (n : Int) sz fuel
      (([] : List (List Byte)).length : Int) m = .ok () m' := h4
  rw [h4'] at q1
  simp only [Res.ok.injEq, true_and] at q1
  subst q1
  refine ⟨m', m1, h4, h2, h5.trans h3, ?_⟩
  rw [inversions_eq, calls, q2]
  omega

/-- C119: selection sort makes at most `n - 1` exchanges, whatever the comparison function. -/
theorem C119_selection_most (m : Mem) (v w b o sz n : Nat) (hvw : v ≠ w) (cmp : Cmp) (h : ArraySetup m b o sz n) :
    ∃ m' m1, selectionSortX (tick v) (ptr b o) n sz (logged w (compareFun cmp sz)) m = .ok () m' ∧
      selectionSort (ptr b o) n sz cmp m = .ok () m1 ∧ m'.bytes = m1.bytes ∧ calls v m m' ≤ n - 1 := by
  obtain ⟨m2, m1, h1, h2, h3, -⟩ := C95_selection m w b o sz n cmp h
  obtain ⟨m', h4, h5, -⟩ := (C119_same v w hvw 0 (ptr b o) (ptr b o) n sz cmp m).2.1 m2 h1
  have hl := elems_length (m.bytes b) o sz n
  obtain ⟨l, M', s, q1, -, q2, q3, -⟩ := selection_moves cmp (b := b) (o := o) (v := v) (w := w) hvw h.sz_lt
    (elems_fits (sz := sz) (n := n) h.room) (by rw [hl]; exact h.lim) (by rw [hl]; exact h.n_lt)
  rw [hl] at q3
  rw [hl, arr_elems h.room, h4] at q1
  simp only [Res.ok.injEq, true_and] at q1
  subst q1
  exact ⟨m', m1, h4, h2, h5.trans h3, by rw [calls, q2]; omega⟩

/-- C119: for a strict weak order it makes none exactly if the array is sorted, and never more than bubble sort. -/
theorem C119_selection (m : Mem) (v w b o sz n : Nat) (hvw : v ≠ w) (cmp : Cmp) (hw : StrictWeak cmp)
    (h : ArraySetup m b o sz n) :
    ∃ m', selectionSortX (tick v) (ptr b o) n sz (logged w (compareFun cmp sz)) m = .ok () m' ∧
      (calls v m m' = 0 ↔ Sorted cmp (elems (m.bytes b) o sz n)) ∧
      calls v m m' ≤ inversions cmp (elems (m.bytes b) o sz n) := by
  obtain ⟨m2, m1, h1, h2, h3, -⟩ := C95_selection m w b o sz n cmp h
  obtain ⟨m', h4, h5, -⟩ := (C119_same v w hvw 0 (ptr b o) (ptr b o) n sz cmp m).2.1 m2 h1
  have hl := elems_length (m.bytes b) o sz n
  obtain ⟨l, M', s, q1, q0, q2, q3, q4, q5⟩ := selection_moves cmp (b := b) (o := o) (v := v) (w := w) hvw h.sz_lt
    (elems_fits (sz := sz) (n := n) h.room) (by rw [hl]; exact h.lim) (by rw [hl]; exact h.n_lt)
  rw [hl, arr_elems h.room, h4] at q1
  simp only [Res.ok.injEq, true_and] at q1
  subst q1
  have hs : calls v m m' = s := by rw [calls, q2]; omega
  have q6 := q4 hw
  refine ⟨m', h4, ?_, by omega⟩
  rw [hs]
  constructor
  · intro h0
    obtain ⟨m3, g1, -, -, g4, -⟩ := selection_all m b o sz n cmp h
    rw [h2] at g1
    simp only [Res.ok.injEq, true_and] at g1
    subst g1
    have hs1 := g4 hw
    have hb : m1.bytes = m.bytes := by
      rw [← h3, ← h5]
      funext c
      have := q0.1 c id
      rw [q5 h0, arr_elems h.room] at this
      exact this
    rw [hb] at hs1
    exact hs1
  · intro hsrt
    have := (C113_sorted cmp (elems (m.bytes b) o sz n)).1.mpr hsrt
    omega

/-- C119: insertion sort copies an element once for every comparison and once more for every element but the first,
whatever the comparison function; for a strict weak order this is twice for every element but the first and once for
every pair in the wrong order. -/
theorem C119_insertion (m : Mem) (v w st b o sz n : Nat) (hvw : v ≠ w) (cmp : Cmp) (h : ArraySetup m b o sz n)
    (hst : st ≠ b) (hst64 : (m.bytes st).length = 64) (h64 : sz ≤ 64)
    (hro : sz ≤ o ∨ ¬ HasNewMinimum cmp (elems (m.bytes b) o sz n)) :
    ∃ m' m1, insertionSortX (tick v) (ptr st 0) (ptr b o) n sz (logged w (compareFun cmp sz)) m = .ok () m' ∧
      insertionSort (ptr st 0) (ptr b o) n sz cmp m = .ok () m1 ∧ m'.bytes = m1.bytes ∧
      calls v m m' = calls w m m' + (n - 1) ∧
      (StrictWeak cmp → calls v m m' = 2 * (n - 1) + inversions cmp (elems (m.bytes b) o sz n)) := by
  obtain ⟨m1, X, h1, -⟩ := (insertion_all m st b o sz n cmp h hst hst64 h64).1 hro
  obtain ⟨m2, h7, h8⟩ := insertion_sim (Q := fun _ => True) (P := Priv.none) (p := ptr b o) (st := ptr st 0)
    (logged_sim (w := w) (cmp := cmp) (sz := sz)) trivial id trivial id n m m () m1 (AgreeOff.refl trivial)
    (by rw [← insertionSort_eq]; exact h1)
  have h9 := insertion_calls (w := w) (fun p q => logged_calls (cmp := cmp) (sz := (sz : Int)) p q) _ n m () m2 h7
  obtain ⟨m', g1, g2, g3⟩ := insertion_simLog (simLog_logged v w cmp sz) (ptr st 0) n m m () m2 ⟨rfl, fun _ _ => rfl⟩ h7
  have g4 := g3 w (Ne.symm hvw)
  have g5 := insertion_diff (p := ptr b o) (sz := sz) hvw
    (fun p q => Diff.logged hvw (fun u p q => calls_compareFun cmp sz u p q) p q) (ptr st 0) n m () m' g1
  rw [Int.one_mul, Int.one_mul] at g5
  have e1 : calls v m m' = calls w m m' + (n - 1) := by unfold calls; omega
  refine ⟨m', m1, g1, h1, g2.trans (funext fun c => h8.1 c id), e1, fun hw => ?_⟩
  obtain ⟨m3, -, k1, -, -, k2⟩ := C113_insertion m w st b o sz n cmp hw h hst hst64 h64 hro
  rw [h7] at k1
  simp only [Res.ok.injEq, true_and] at k1
  subst k1
  have e2 : calls w m m' = calls w m m2 := by unfold calls; rw [g4]
  rw [e1, e2, k2]
  omega

/-- C119: heap sort of `n` elements makes two comparisons for every exchange and `2 (n / 2)` more; it makes at least `n`
exchanges, also of a sorted array, and at most `n` and `n / 2 + n` times the number of levels. -/
theorem C119_heap (m : Mem) (v w b o sz n fuel : Nat) (hvw : v ≠ w) (cmp : Cmp) (h : HeapSetup m b o sz n)
    (hfu : n < 2 ^ fuel) :
    ∃ m' m1, heapSortX (tick v) fuel (ptr b o) n sz (logged w (compareFun cmp sz)) m = .ok () m' ∧
      heapSort fuel (ptr b o) n sz cmp m = .ok () m1 ∧ m'.bytes = m1.bytes ∧
      calls w m m' = 2 * calls v m m' + 2 * (n / 2) ∧ n ≤ calls v m m' ∧
      calls v m m' ≤ n + (n / 2 + n) * Nat.log2 n := by
  obtain ⟨m2, m1, h1, h2, h3, h4, h5, -⟩ := C95_heap m w b o sz n fuel cmp h hfu
  obtain ⟨m', g1, g2, g3⟩ := heap_simLog (simLog_logged v w cmp sz) n fuel m m () m2 ⟨rfl, fun _ _ => rfl⟩ h1
  have g4 := g3 w (Ne.symm hvw)
  have g5 := heap_diff (p := ptr b o) (sz := sz) hvw
    (fun p q => Diff.logged hvw (fun u p q => calls_compareFun cmp sz u p q) p q) n fuel m () m' g1
  have e2 : calls w m m2 = calls w m m' := by unfold calls; rw [g4]
  rw [e2] at h4 h5
  have e3 : calls w m m' = 2 * calls v m m' + 2 * (n / 2) := by
    rcases Nat.eq_zero_or_pos n with rfl | hn
    · simp only [Nat.zero_div, Nat.mul_zero, Nat.zero_mul, Nat.add_zero, Nat.le_zero] at h5 ⊢
      unfold calls at h5 ⊢
      omega
    · unfold calls at h4 ⊢
      omega
  refine ⟨m', m1, g1, h2, g2.trans h3, e3, by omega, ?_⟩
  rw [Nat.mul_add, Nat.mul_one, Nat.mul_assoc] at h5
  omega

/-- The bytes of object 0, the number of comparisons and the number of moves, for the examples. -/
def outMoves : Res Unit → Option (List Byte × Nat × Nat)
  | .ok _ m => some (m.bytes 0, calls 9 (mem1 []) m, calls 8 (mem1 []) m)
  | .ub _ => none

/-- Non-vacuity: executions on `[4, 1, 2, 3]` with three pairs in the wrong order. -/
example :
    ArraySetup (memI [9, 4, 1, 2, 3]) 0 1 1 4 ∧ inversions byFirst [[4], [1], [2], [3]] = 3 ∧
    HeapSetup (mem1 [2, 1, 3, 0, 0, 0, 0]) 0 0 1 3 ∧
    outMoves (bubbleSortX (tick 8) 4 (ptr 0 0) 4 1 (logged 9 (compareFun byFirst 1)) (mem1 [4, 1, 2, 3])) =
      some ([1, 2, 3, 4], 5, 3) ∧
    outMoves (selectionSortX (tick 8) (ptr 0 0) 4 1 (logged 9 (compareFun byFirst 1)) (mem1 [4, 1, 2, 3])) =
      some ([1, 2, 3, 4], 6, 3) ∧
    outMoves (selectionSortX (tick 8) (ptr 0 0) 4 1 (logged 9 (compareFun byFirst 1)) (mem1 [4, 2, 3, 1])) =
      some ([1, 2, 3, 4], 6, 1) ∧
    outMoves (insertionSortX (tick 8) (ptr 1 0) (ptr 0 1) 4 1 (logged 9 (compareFun byFirst 1)) (memI [9, 4, 1, 2, 3])) =
      some ([9, 1, 2, 3, 4], 6, 9) ∧
    outMoves (heapSortX (tick 8) 2 (ptr 0 0) 3 1 (logged 9 (compareFun byFirst 1)) (mem1 [2, 1, 3, 0, 0, 0, 0])) =
      some ([1, 2, 3, 0, 0, 0, 0], 10, 4) :=
  ⟨⟨by decide, by decide, by decide, by decide⟩, by decide +kernel, ⟨by decide, by decide, by decide, by decide⟩,
    by decide +kernel, by decide +kernel, by decide +kernel, by decide +kernel, by decide +kernel⟩

end IMU.Props
