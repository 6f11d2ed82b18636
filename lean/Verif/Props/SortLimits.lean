import Verif.Proofs.SortLimits
import Verif.Props.Sort

/-!
# Property C103: the sorts at the ends of the ranges of their arguments
-/

namespace IMU.Props
open Spec IMU.Sort

/-- C103: bubble sort of an array whose last element is 2^31 bytes or more behind the first one is undefined, whatever
the memory and the comparison function: the limit of C38 is necessary. -/
theorem C103_bubble_limit (m : Mem) (p : Ptr) (n sz : Nat) (fuel : Nat) (cmp : Cmp) (hn : n < 2 ^ 31)
    (hlim : 2 ^ 31 ≤ (n - 1) * sz) (hfu : 1 ≤ fuel) :
    ∃ e, bubbleSort fuel p n sz cmp m = .ub e ∧ e ≠ .fuel := by
  obtain ⟨fuel, rfl⟩ : ∃ k, fuel = k + 1 := ⟨fuel - 1, by omega⟩
  have hn2 : 2 ≤ n := by
    by_contra h
    rw [show n - 1 = 0 by omega, Nat.zero_mul] at hlim; omega
  unfold bubbleSort bubbleLoop
  rw [C.bind_ok (i32_ok (by omega) (by omega) _), C.bind_ok (i32_ok (by omega) (by omega) _), C.bind_run]
  have hno : ∀ r m', bubblePass cmp p sz ((n : Int) - 0 - 1) m ≠ .ok r m' := by
    intro r m' h
    obtain ⟨s1, m1, s2, m2, hb⟩ := forN_of_ok _ h (n - 2) (by omega) (by omega)
    obtain ⟨c, m3, hc, -⟩ := bind_of_ok hb
    have := (compareAt_of_ok hc).2
    rw [show ((n - 2 : Nat) : Int) + 1 = ((n - 1 : Nat) : Int) by omega, ← Int.natCast_mul] at this
    omega
  have hnf : NoFuel (bubblePass cmp p sz ((n : Int) - 0 - 1)) :=
    NoFuel.forN (fun k s => NoFuel.bind (noFuel_compareAt _ _ _ _ _) (fun c => by
      split
      · exact NoFuel.bind (noFuel_swapElems _ _ _ _) (fun _ => NoFuel.pure _)
      · exact NoFuel.pure _)) _ _ _
  obtain ⟨e, h1, h2⟩ := ub_of (hnf m) hno
  exact ⟨e, by rw [h1], h2⟩

/-- C103: the same for selection sort. -/
theorem C103_selection_limit (m : Mem) (p : Ptr) (n sz : Nat) (cmp : Cmp) (hn : n < 2 ^ 31)
    (hlim : 2 ^ 31 ≤ (n - 1) * sz) : ∃ e, selectionSort p n sz cmp m = .ub e ∧ e ≠ .fuel := by
  have hn2 : 2 ≤ n := by
    by_contra h
    rw [show n - 1 = 0 by omega, Nat.zero_mul] at hlim; omega
  have hsel : ∀ i, NoFuel (selectMin cmp p n sz i) := fun i => NoFuel.bind (noFuel_i32 _) (fun _ =>
    NoFuel.forN (fun k s => NoFuel.bind (noFuel_compareAt _ _ _ _ _) (fun c => NoFuel.pure _)) _ _ _)
  apply ub_of
  · refine NoFuel.bind (noFuel_i32 _) (fun _ => NoFuel.forN (fun k s => NoFuel.bind (hsel k) (fun c => ?_)) _ _ _) m
    split
    · exact noFuel_swapElems _ _ _ _
    · exact NoFuel.pure _
  · intro r m' h
    unfold selectionSort at h
    rw [C.bind_ok (i32_ok (by omega) (by omega) _)] at h
    obtain ⟨s1, m1, s2, m2, hb⟩ := forN_of_ok _ h 0 (by omega) (by omega)
    obtain ⟨c, m3, hc, -⟩ := bind_of_ok hb
    unfold selectMin at hc
    rw [C.bind_ok (i32_ok (by omega) (by omega) _)] at hc
    obtain ⟨s3, m4, s4, m5, hd⟩ := forN_of_ok _ hc (n - 1) (by omega) (by omega)
    obtain ⟨c', m6, he, -⟩ := bind_of_ok hd
    have := (compareAt_of_ok he).2
    rw [← Int.natCast_mul] at this
    omega

/-- C103: the same for insertion sort. -/
theorem C103_insertion_limit (m : Mem) (st p : Ptr) (n sz : Nat) (cmp : Cmp) (hn : n < 2 ^ 31)
    (hlim : 2 ^ 31 ≤ (n - 1) * sz) : ∃ e, insertionSort st p n sz cmp m = .ub e ∧ e ≠ .fuel := by
  have hn2 : 2 ≤ n := by
    by_contra h
    rw [show n - 1 = 0 by omega, Nat.zero_mul] at hlim; omega
  have hshift : ∀ k c, NoFuel (insertionShift cmp p sz st k c) := by
    intro k
    induction k with
    | zero => intro c; exact NoFuel.pure _
    | succ k ih =>
      intro c
      simp only [insertionShift]
      split
      · exact NoFuel.bind (noFuel_elemAt _ _ _) fun _ => NoFuel.bind (noFuel_elemAt _ _ _) fun _ =>
          NoFuel.bind (noFuel_memcpy _ _ _) fun _ => NoFuel.bind (noFuel_elemAt _ _ _) fun _ =>
          NoFuel.bind (noFuel_compareFun _ _ _ _) fun c => ih c
      · exact NoFuel.pure _
  apply ub_of
  · exact NoFuel.forN (fun k s => NoFuel.bind (noFuel_elemAt _ _ _) fun _ => NoFuel.bind (noFuel_memcpy _ _ _) fun _ =>
      NoFuel.bind (noFuel_elemAt _ _ _) fun _ => NoFuel.bind (noFuel_compareFun _ _ _ _) fun c =>
      NoFuel.bind (hshift _ _) fun _ => NoFuel.bind (noFuel_elemAt _ _ _) fun _ => noFuel_memcpy _ _ _) _ _ _ m
  · intro r m' h
    obtain ⟨s1, m1, s2, m2, hb⟩ := forN_of_ok _ h (n - 1) (by omega) (by omega)
    obtain ⟨c, m3, hc, -⟩ := bind_of_ok hb
    have := elemAt_of_ok hc
    rw [← Int.natCast_mul] at this
    omega

/-- C103: the same for heap sort. -/
theorem C103_heap_limit (m : Mem) (p : Ptr) (n sz : Nat) (fuel : Nat) (cmp : Cmp) (hn : n < 2 ^ 31)
    (hlim : 2 ^ 31 ≤ (n - 1) * sz) (hfu : 1 ≤ fuel) : ∃ e, heapSort fuel p n sz cmp m = .ub e ∧ e ≠ .fuel := by
  obtain ⟨fuel, rfl⟩ : ∃ k, fuel = k + 1 := ⟨fuel - 1, by omega⟩
  have hn2 : 2 ≤ n := by
    by_contra h
    rw [show n - 1 = 0 by omega, Nat.zero_mul] at hlim; omega
  have hhalf : ((n : Int).tdiv 2) = ((n / 2 : Nat) : Int) := by
    rw [Int.tdiv_eq_ediv_of_nonneg (by omega)]; omega
  unfold heapSort
  rw [C.bind_ok (i32_ok (by omega) (by omega) _), hhalf]
  obtain ⟨k, hk⟩ : ∃ k, n / 2 = k + 1 := ⟨n / 2 - 1, by omega⟩
  rw [hk, show (((k + 1 : Nat) : Int) - 1 + 1).toNat = k + 1 by omega, C.bind_run, forDown_succ]
  suffices h : ∃ e, heapifyLoop cmp p n sz (fuel + 1) k m = .ub e ∧ e ≠ .fuel by
    obtain ⟨e, h1, h2⟩ := h
    exact ⟨e, by rw [h1], h2⟩
  rw [heapifyLoop, C.bind_ok (i32_ok (by omega) (by omega) _), C.bind_ok (i32_ok (by omega) (by omega) _), C.bind_ok (i32_ok (by omega) (by omega) _), C.bind_run]
  cases hc : compareAt cmp p sz (2 * (k : Int) + 1) k m with
  | ub e => exact ⟨e, rfl, fun he => noFuel_compareAt _ _ _ _ _ _ (by rw [hc, he])⟩
  | ok c m1 =>
    simp only [C.bind_run]
    cases hd : compareAt cmp p sz (2 * (k : Int) + 2) (if 2 * (k : Int) + 1 < n ∧ c = true then 2 * (k : Int) + 1 else k) m1 with
    | ub e => exact ⟨e, rfl, fun he => noFuel_compareAt _ _ _ _ _ _ (by rw [hd, he])⟩
    | ok c m2 =>
      exfalso
      have := (compareAt_of_ok hd).1
      rw [show 2 * (k : Int) + 2 = ((2 * k + 2 : Nat) : Int) by omega, ← Int.natCast_mul] at this
      have h3 : (n - 1) * sz ≤ (2 * k + 2) * sz := Nat.mul_le_mul_right _ (by omega)
      omega

/-- Non-vacuity: 65537 elements of 32768 bytes. -/
example : 65537 < 2 ^ 31 ∧ 2 ^ 31 ≤ (65537 - 1) * 32768 := by decide

/-- C103: with at most one element (and down to -2^31 + 1) bubble, selection and insertion sort do nothing, whatever
the pointers; heap sort does so with no element. -/
theorem C103_nothing_to_do (m : Mem) (st p : Ptr) (n sz : Int) (fuel : Nat) (cmp : Cmp) (hn : -2147483647 ≤ n)
    (hfu : 1 ≤ fuel) :
    (n ≤ 1 → bubbleSort fuel p n sz cmp m = .ok () m ∧ selectionSort p n sz cmp m = .ok () m ∧
      insertionSort st p n sz cmp m = .ok () m) ∧
    (n ≤ 0 → heapSort fuel p n sz cmp m = .ok () m) := by
  obtain ⟨fuel, rfl⟩ : ∃ k, fuel = k + 1 := ⟨fuel - 1, by omega⟩
  constructor
  · intro h
    refine ⟨?_, ?_, ?_⟩
    · unfold bubbleSort bubbleLoop
      rw [C.bind_ok (i32_ok (by omega) (by omega) _), C.bind_ok (i32_ok (by omega) (by omega) _)]
      unfold bubblePass
      rw [show (n - 0 - 1).toNat = 0 by omega, C.bind_ok (forN_zero _ _ _ _), C.bind_ok (i32_ok (by omega) (by omega) _)]
      rfl
    · unfold selectionSort
      rw [C.bind_ok (i32_ok (by omega) (by omega) _), show (n - 1).toNat = 0 by omega]
      rfl
    · unfold insertionSort
      rw [show (n - 1).toNat = 0 by omega]
      rfl
  · intro h
    have h2 : n.tdiv 2 ≤ 0 ∧ -2147483646 ≤ n.tdiv 2 := by
      obtain ⟨k, rfl⟩ : ∃ k : Nat, n = -(k : Int) := ⟨n.natAbs, by omega⟩
      rw [Int.neg_tdiv, Int.tdiv_eq_ediv_of_nonneg (by omega)]
      omega
    unfold heapSort
    rw [C.bind_ok (i32_ok (by omega) (by omega) _), show (n.tdiv 2 - 1 + 1).toNat = 0 by omega, C.bind_ok (forDown_zero _ _ _),
      C.bind_ok (i32_ok (by omega) (by omega) _), show (n - 1 + 1).toNat = 0 by omega]
    rfl

/-- C103: for the count -2^31 all but insertion sort compute `number_of_elements - 1`, which overflows. -/
theorem C103_int_min (m : Mem) (st p : Ptr) (sz : Int) (fuel : Nat) (cmp : Cmp) (hfu : 1 ≤ fuel) :
    bubbleSort fuel p (-2147483648) sz cmp m = .ub .signedOverflow ∧
    selectionSort p (-2147483648) sz cmp m = .ub .signedOverflow ∧
    heapSort fuel p (-2147483648) sz cmp m = .ub .signedOverflow ∧
    insertionSort st p (-2147483648) sz cmp m = .ok () m := by
  obtain ⟨fuel, rfl⟩ : ∃ k, fuel = k + 1 := ⟨fuel - 1, by omega⟩
  exact ⟨rfl, rfl, rfl, rfl⟩

end IMU.Props
