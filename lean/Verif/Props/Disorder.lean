import Verif.Proofs.SortDisorder
import Verif.Props.SortEffects

/-!
# Property C113: the number of comparisons of bubble and insertion sort depends on the disorder of the array only

`ahead cmp l k` is the number of elements in front of place `k` that are greater than the element there, `inversions`
the sum of these numbers, `lag` the greatest of them (Spec/Disorder.lean); `calls` counts the calls of the comparison
function (Spec/SortEffects.lean).
-/

namespace IMU.Props
open Spec Utils IMU.Sort

/-- C113: insertion sort of `n ≥ 1` elements calls the comparison function exactly once for every element but the first
and once for every pair in the wrong order. -/
theorem C113_insertion (m : Mem) (w st b o sz n : Nat) (cmp : Cmp) (hw : StrictWeak cmp) (h : ArraySetup m b o sz n)
    (hst : st ≠ b) (hst64 : (m.bytes st).length = 64) (h64 : sz ≤ 64)
    (hro : sz ≤ o ∨ ¬ HasNewMinimum cmp (elems (m.bytes b) o sz n)) :
    ∃ m' m1, insertionSortE (ptr st 0) (ptr b o) n sz (logged w (compareFun cmp sz)) m = .ok () m' ∧
      insertionSort (ptr st 0) (ptr b o) n sz cmp m = .ok () m1 ∧ m'.bytes = m1.bytes ∧
      calls w m m' = (n - 1) + inversions cmp (elems (m.bytes b) o sz n) := by
  obtain ⟨m1, X, h1, -⟩ := (insertion_all m st b o sz n cmp h hst hst64 h64).1 hro
  obtain ⟨m', h7, h8⟩ := insertion_sim (Q := fun _ => True) (P := Priv.none) (p := ptr b o) (st := ptr st 0)
    (logged_sim (w := w) (cmp := cmp) (sz := sz)) trivial id trivial id n m m () m1 (AgreeOff.refl trivial)
    (by rw [← insertionSort_eq]; exact h1)
  refine ⟨m', m1, h7, h1, funext fun c => h8.1 c id, ?_⟩
  have hl := elems_length (m.bytes b) o sz n
  have hf := elems_fits (sz := sz) (n := n) h.room
  have hun : insertionSortE (ptr st 0) (ptr b o) n sz (logged w (compareFun cmp sz)) m =
      forN (n - 1) 1 (insertionBodyE (logged w (compareFun cmp sz)) st b o sz) () m := by
    unfold insertionSortE insertionBodyE
    rw [show ((n : Int) - 1).toNat = n - 1 by omega]
  cases hE : elems (m.bytes b) o sz n with
  | nil =>
    have hn : n = 0 := by rw [← hl, hE]; rfl
    subst hn
    rw [hun] at h7
    simp only [Nat.zero_sub, forN, C.pure_run, Res.ok.injEq, true_and] at h7
    subst h7
    simp [calls, inversions]
  | cons x t =>
    have hn : n = t.length + 1 := by rw [← hl, hE]; rfl
    rw [hE] at hf hro
    have him : imem m st b o (m.bytes st) ([x] ++ t) = m := by
      unfold imem
      rw [Mem.upd_self, List.singleton_append, ← hE, arr_elems h.room]
    obtain ⟨M', q1, q2⟩ := insertion_count hw (m0 := m) (st := st) (b := b) (o := o) (w := w) h.sz_lt t [x] (m.bytes st) m
      (by simp) ⟨by simpa using hf, hst, by omega⟩
      (by simp only [List.singleton_append, List.length_cons]; rw [← hn]; exact h.lim) (by simp [Sorted])
      (by rw [newMin_iff]; exact hro) (by rw [him]; exact AgreeOff.refl trivial)
    rw [hun, show n - 1 = t.length by omega] at h7
    rw [List.length_singleton] at q1
    rw [h7] at q1
    simp only [Res.ok.injEq, true_and] at q1
    subst q1
    rw [inversions_eq, aheadsR, calls, q2]
    simp only [List.countP_nil, List.sum_cons]
    omega

/-- C113: bubble sort goes through the array once more than there are greater elements in front of an element at most:
`(n-1) + (n-2) + ...` calls, `lag + 1` terms. -/
theorem C113_bubble (m : Mem) (w b o sz n fuel : Nat) (cmp : Cmp) (hw : StrictWeak cmp) (h : ArraySetup m b o sz n)
    (hfu : n ≤ fuel) (hn : 1 ≤ n) :
    ∃ m' m1, bubbleSortE fuel (ptr b o) n sz (logged w (compareFun cmp sz)) m = .ok () m' ∧
      bubbleSort fuel (ptr b o) n sz cmp m = .ok () m1 ∧ m'.bytes = m1.bytes ∧
      lag cmp (elems (m.bytes b) o sz n) < n ∧
      2 * calls w m m' = (lag cmp (elems (m.bytes b) o sz n) + 1) * (2 * n - 2 - lag cmp (elems (m.bytes b) o sz n)) := by
  obtain ⟨m1, h1, -⟩ := bubble_all m b o sz n fuel cmp h hfu (by omega)
  obtain ⟨m', h7, h8⟩ := bubble_sim (Q := fun _ => True) (P := Priv.none) (p := ptr b o)
    (logged_sim (w := w) (cmp := cmp) (sz := sz)) trivial id n fuel 0 m m () m1 (AgreeOff.refl trivial)
    (by rw [← bubbleLoop_eq]; exact h1)
  have hl := elems_length (m.bytes b) o sz n
  have hf := elems_fits (sz := sz) (n := n) h.room
  have hlt := lag_lt cmp (elems (m.bytes b) o sz n) (by omega)
  rw [hl] at hlt
  refine ⟨m', m1, h7, h1, funext fun c => h8.1 c id, hlt, ?_⟩
  obtain ⟨M', q1, q2⟩ := bubble_count hw (m0 := m) (b := b) (o := o) (w := w) h.sz_lt fuel (elems (m.bytes b) o sz n) [] m
    (by omega) (by omega) (by rw [List.append_nil, hl]; exact h.n_lt) (by simp) (by rw [List.append_nil]; exact hf)
    (by rw [List.append_nil, hl]; exact h.lim) (by rw [List.append_nil, arr_elems h.room]; exact AgreeOff.refl trivial)
  rw [List.append_nil, hl] at q1
  have h7' : bubbleLoopE (logged w (compareFun cmp sz)) (ptr b o) (n : Int) sz fuel (([] : List (List Byte)).length : Int) m =
      .ok () m' := h7
  rw [h7'] at q1
  simp only [Res.ok.injEq, true_and] at q1
  subst q1
  rw [hl, ← lag_eq] at q2
  rw [← psum_eq _ n hlt, calls, q2]
  omega

/-! ### The measures -/

theorem le_max {L : List Nat} {a : Nat} (h : a ∈ L) : a ≤ L.foldr max 0 := by
  induction L with
  | nil => simp at h
  | cons b L ih =>
    rw [List.foldr_cons]
    rcases List.mem_cons.mp h with rfl | h
    · omega
    · have := ih h; omega

theorem max_le {L : List Nat} {d : Nat} (h : ∀ a ∈ L, a ≤ d) : L.foldr max 0 ≤ d := by
  induction L with
  | nil => simp
  | cons b L ih =>
    rw [List.foldr_cons]
    have h1 := h b (by simp)
    have h2 := ih fun a ha => h a (by simp [ha])
    omega

theorem sum_le {L : List Nat} {d : Nat} (h : ∀ a ∈ L, a ≤ d) : L.sum ≤ L.length * d := by
  induction L with
  | nil => simp
  | cons b L ih =>
    have h1 := h b (by simp)
    have h2 := ih fun a ha => h a (by simp [ha])
    rw [List.sum_cons, List.length_cons, Nat.succ_mul]
    omega

theorem ahead_zero (cmp : Cmp) (l : List (List Byte)) : ahead cmp l 0 = 0 := by simp [ahead]

/-- C113: both measures are zero exactly for sorted arrays. -/
theorem C113_sorted (cmp : Cmp) (l : List (List Byte)) :
    (inversions cmp l = 0 ↔ Sorted cmp l) ∧ (lag cmp l = 0 ↔ Sorted cmp l) := by
  have key : (∀ k < l.length, ahead cmp l k = 0) ↔ Sorted cmp l := by
    rw [sorted_iff]
    constructor
    · intro h p q hpq hq
      have := List.countP_eq_zero.mp (h q hq) (l.getD p []) (by
        rw [List.mem_take_iff_getElem]
        exact ⟨p, by omega, by simp [show p < l.length by omega]⟩)
      simpa using this
    · intro h k hk
      refine List.countP_eq_zero.mpr fun x hx => ?_
      obtain ⟨p, hp, rfl⟩ := List.mem_take_iff_getElem.mp hx
      have := h p k (by omega) hk
      rw [List.getD_eq_getElem?_getD, List.getElem?_eq_getElem (by omega), Option.getD_some] at this
      rw [this]; decide
  constructor
  · rw [← key]
    constructor
    · intro h k hk
      have := (List.sum_eq_zero_iff_forall_eq_nat).mp h (ahead cmp l k) (List.mem_map.mpr ⟨k, List.mem_range.mpr hk, rfl⟩)
      exact this
    · intro h
      exact (List.sum_eq_zero_iff_forall_eq_nat).mpr fun a ha => by
        obtain ⟨k, hk, rfl⟩ := List.mem_map.mp ha
        exact h k (List.mem_range.mp hk)
  · rw [← key]
    constructor
    · intro h k hk
      have := le_max (List.mem_map.mpr ⟨k, List.mem_range.mpr hk, rfl⟩ :
        ahead cmp l k ∈ (List.range l.length).map (ahead cmp l))
      unfold lag at h
      omega
    · intro h
      have : lag cmp l ≤ 0 := max_le fun a ha => by
        obtain ⟨k, hk, rfl⟩ := List.mem_map.mp ha
        exact Nat.le_of_eq (h k (List.mem_range.mp hk))
      omega

/-- C113: if no element has more than `d` greater ones in front of it, both sorts make at most `(d + 1) (n - 1)` calls. -/
theorem C113_nearly_sorted (m : Mem) (w st b o sz n fuel d : Nat) (cmp : Cmp) (hw : StrictWeak cmp)
    (h : ArraySetup m b o sz n) (hst : st ≠ b) (hst64 : (m.bytes st).length = 64) (h64 : sz ≤ 64) (ho : sz ≤ o)
    (hfu : n ≤ fuel) (hn : 1 ≤ n) (hd : ∀ k < n, ahead cmp (elems (m.bytes b) o sz n) k ≤ d) :
    (∃ m', bubbleSortE fuel (ptr b o) n sz (logged w (compareFun cmp sz)) m = .ok () m' ∧
      calls w m m' ≤ (d + 1) * (n - 1)) ∧
    ∃ m', insertionSortE (ptr st 0) (ptr b o) n sz (logged w (compareFun cmp sz)) m = .ok () m' ∧
      calls w m m' ≤ (d + 1) * (n - 1) := by
  have hl := elems_length (m.bytes b) o sz n
  constructor
  · obtain ⟨m', m1, h1, -, -, h2, h3⟩ := C113_bubble m w b o sz n fuel cmp hw h hfu hn
    refine ⟨m', h1, ?_⟩
    have hL : lag cmp (elems (m.bytes b) o sz n) ≤ d := max_le fun a ha => by
      obtain ⟨k, hk, rfl⟩ := List.mem_map.mp ha
      rw [hl] at hk
      exact hd k (List.mem_range.mp hk)
    have h4 : (lag cmp (elems (m.bytes b) o sz n) + 1) * (2 * n - 2 - lag cmp (elems (m.bytes b) o sz n)) ≤
        (d + 1) * (2 * (n - 1)) := Nat.mul_le_mul (by omega) (by omega)
    rw [← h3, Nat.mul_left_comm] at h4
    omega
  · obtain ⟨m', m1, h1, -, -, h3⟩ := C113_insertion m w st b o sz n cmp hw h hst hst64 h64 (.inl ho)
    refine ⟨m', h1, ?_⟩
    have h4 : inversions cmp (elems (m.bytes b) o sz n) ≤ (n - 1) * d := by
      unfold inversions
      rw [hl]
      obtain ⟨k, rfl⟩ : ∃ k, n = k + 1 := ⟨n - 1, by omega⟩
      rw [List.range_succ_eq_map, List.map_cons, ahead_zero, List.sum_cons, Nat.zero_add]
      have := sum_le (L := List.map (ahead cmp (elems (m.bytes b) o sz (k + 1))) (List.map Nat.succ (List.range k)))
        (d := d) fun a ha => by
          obtain ⟨j, hj, rfl⟩ := List.mem_map.mp ha
          obtain ⟨i, hi, rfl⟩ := List.mem_map.mp hj
          exact hd _ (by have := List.mem_range.mp hi; omega)
      simpa using this
    rw [h3, Nat.add_mul, Nat.one_mul, Nat.mul_comm d]
    omega

/-- C113: if every element is greater than all later ones, the greatest numbers of calls of C95 are reached. -/
theorem C113_reversed (m : Mem) (w st b o sz n fuel : Nat) (cmp : Cmp) (hw : StrictWeak cmp)
    (h : ArraySetup m b o sz n) (hst : st ≠ b) (hst64 : (m.bytes st).length = 64) (h64 : sz ≤ 64) (ho : sz ≤ o)
    (hfu : n ≤ fuel) (hn : 1 ≤ n) (hr : (elems (m.bytes b) o sz n).Pairwise fun x y => cmp x y = true) :
    (∃ m', bubbleSortE fuel (ptr b o) n sz (logged w (compareFun cmp sz)) m = .ok () m' ∧
      2 * calls w m m' = n * (n - 1)) ∧
    ∃ m', insertionSortE (ptr st 0) (ptr b o) n sz (logged w (compareFun cmp sz)) m = .ok () m' ∧
      2 * (calls w m m' + 1) = n * (n + 1) := by
  have hl := elems_length (m.bytes b) o sz n
  have ha : ∀ k < n, ahead cmp (elems (m.bytes b) o sz n) k = k := by
    intro k hk
    unfold ahead
    rw [List.countP_eq_length.mpr, List.length_take, hl]
    · omega
    · intro x hx
      obtain ⟨p, hp, rfl⟩ := List.mem_take_iff_getElem.mp hx
      have := List.pairwise_iff_getElem.mp hr p k (by omega) (by omega) (by omega)
      rw [List.getD_eq_getElem?_getD, List.getElem?_eq_getElem (by omega), Option.getD_some]
      exact this
  have hmap : (List.range (elems (m.bytes b) o sz n).length).map (ahead cmp (elems (m.bytes b) o sz n)) = List.range n := by
    rw [hl]
    conv => rhs; rw [← List.map_id (List.range n)]
    exact List.map_congr_left fun k hk => ha k (List.mem_range.mp hk)
  constructor
  · obtain ⟨m', m1, h1, -, -, h2, h3⟩ := C113_bubble m w b o sz n fuel cmp hw h hfu hn
    refine ⟨m', h1, ?_⟩
    have hL : n - 1 ≤ lag cmp (elems (m.bytes b) o sz n) := by
      unfold lag
      rw [hmap]
      exact le_max (List.mem_range.mpr (by omega))
    have e : lag cmp (elems (m.bytes b) o sz n) = n - 1 := by omega
    rw [h3, e, show n - 1 + 1 = n by omega, show 2 * n - 2 - (n - 1) = n - 1 by omega]
  · obtain ⟨m', m1, h1, -, -, h3⟩ := C113_insertion m w st b o sz n cmp hw h hst hst64 h64 (.inl ho)
    refine ⟨m', h1, ?_⟩
    have hs : ∀ k, 2 * (List.range k).sum = k * (k - 1) := by
      intro k
      rw [← tri_eq]
      congr 1
      induction k with
      | zero => rfl
      | succ k ih => rw [List.range_succ, List.sum_append, ih, tri]; simp
    have h4 : 2 * inversions cmp (elems (m.bytes b) o sz n) = n * (n - 1) := by
      unfold inversions
      rw [hmap]; exact hs n
    rw [h3]
    obtain ⟨k, rfl⟩ : ∃ k, n = k + 1 := ⟨n - 1, by omega⟩
    simp only [Nat.add_sub_cancel] at h4 ⊢
    have e : (k + 1) * (k + 1 + 1) = (k + 1) * k + 2 * (k + 1) := by ring
    rw [e, ← h4]; omega

/-- Non-vacuity: `[1, 4, 2, 3]` has two pairs in the wrong order, no element has more than one greater one in front of
it; insertion sort makes 3 + 2 calls, bubble sort 3 + 2. -/
example :
    ArraySetup (memI [9, 1, 4, 2, 3]) 0 1 1 4 ∧ inversions byFirst [[1], [4], [2], [3]] = 2 ∧
    lag byFirst [[1], [4], [2], [3]] = 1 ∧
    outCalls (insertionSortE (ptr 1 0) (ptr 0 1) 4 1 (logged 9 (compareFun byFirst 1)) (memI [9, 1, 4, 2, 3])) =
      some ([9, 1, 2, 3, 4], 5) ∧
    outCalls (bubbleSortE 4 (ptr 0 0) 4 1 (logged 9 (compareFun byFirst 1)) (mem1 [1, 4, 2, 3])) =
      some ([1, 2, 3, 4], 5) :=
  ⟨⟨by decide, by decide, by decide, by decide⟩, by decide +kernel, by decide +kernel, by decide +kernel,
    by decide +kernel⟩

/-- `[2, 3, 4, 1]`: three pairs, but the last element has three greater ones in front of it: 3 + 3 calls of insertion
sort, 3 + 2 + 1 of bubble sort; `[4, 1, 2, 3]`, with three pairs as well, takes bubble sort 3 + 2. -/
example :
    inversions byFirst [[2], [3], [4], [1]] = 3 ∧ lag byFirst [[2], [3], [4], [1]] = 3 ∧
    inversions byFirst [[4], [1], [2], [3]] = 3 ∧ lag byFirst [[4], [1], [2], [3]] = 1 ∧
    outCalls (insertionSortE (ptr 1 0) (ptr 0 1) 4 1 (logged 9 (compareFun byFirst 1)) (memI [9, 2, 3, 4, 1])) =
      some ([9, 1, 2, 3, 4], 6) ∧
    outCalls (bubbleSortE 4 (ptr 0 0) 4 1 (logged 9 (compareFun byFirst 1)) (mem1 [2, 3, 4, 1])) =
      some ([1, 2, 3, 4], 6) ∧
    outCalls (bubbleSortE 4 (ptr 0 0) 4 1 (logged 9 (compareFun byFirst 1)) (mem1 [4, 1, 2, 3])) =
      some ([1, 2, 3, 4], 5) := by decide +kernel

/-- Non-vacuity of the hypotheses of `C113_nearly_sorted` and `C113_reversed`. -/
example : (∀ k < 4, ahead byFirst (elems ((memI [9, 1, 4, 2, 3]).bytes 0) 1 1 4) k ≤ 1) ∧
    (elems ((memI [9, 3, 2, 1]).bytes 0) 1 1 3).Pairwise (fun x y => byFirst x y = true) ∧
    ((memI [9, 3, 2, 1]).bytes 1).length = 64 := by decide +kernel

end IMU.Props
