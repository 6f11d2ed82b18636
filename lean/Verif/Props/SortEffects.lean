import Verif.Proofs.SortEffects
import Verif.Props.Sort

/-!
# Properties C94, C95: comparison functions with effects; the number of comparisons

`bubbleSortE` and so on take any computation as comparison function.  `AnswersAs I P Q sz cmp g` says that `g` decides as
`cmp` does and writes at most to the objects `P`.
-/

namespace IMU.Props
open Spec Utils IMU.Sort

/-! ### C94 -/

/-- C94: the sorts of C38 - C46 are the ones here with a comparison function that only reads the two elements. -/
theorem C94_instances (fuel : Nat) (st p : Ptr) (n sz : Int) (cmp : Cmp) :
    bubbleSort fuel p n sz cmp = bubbleSortE fuel p n sz (compareFun cmp sz) ∧
    selectionSort p n sz cmp = selectionSortE p n sz (compareFun cmp sz) ∧
    insertionSort st p n sz cmp = insertionSortE st p n sz (compareFun cmp sz) ∧
    heapSort fuel p n sz cmp = heapSortE fuel p n sz (compareFun cmp sz) :=
  ⟨bubbleSort_eq .., selectionSort_eq .., insertionSort_eq .., heapSort_eq ..⟩

/-- The array at `b`, `o` is sorted afterwards, and nothing changed but its bytes and the objects `P`. -/
def SortedApart (P : Nat → Prop) (cmp : Cmp) (m m' : Mem) (b o sz n : Nat) : Prop :=
  Sorted cmp (elems (m'.bytes b) o sz n) ∧ (elems (m.bytes b) o sz n).Perm (elems (m'.bytes b) o sz n) ∧
  (∀ c, ¬ P c → c ≠ b → m'.bytes c = m.bytes c) ∧ (m'.bytes b).length = (m.bytes b).length ∧
  ∀ i, i < o ∨ o + n * sz ≤ i → (m'.bytes b)[i]? = (m.bytes b)[i]?

/-- C94: bubble sort with a comparison function that writes to other objects. -/
theorem C94_bubble (I : Mem → Prop) (P : Nat → Prop) (m : Mem) (b o sz n fuel : Nat) (cmp : Cmp) (g : CmpFun) (hw : StrictWeak cmp)
    (h : ArraySetup m b o sz n) (hfu : n ≤ fuel) (hfu1 : 1 ≤ fuel) (hI : Concerns P I) (hm : I m) (hP : ¬ P b)
    (hg : AnswersAs I P (· = b) sz cmp g) :
    ∃ m' m1, bubbleSortE fuel (ptr b o) n sz g m = .ok () m' ∧ SortedApart P cmp m m' b o sz n ∧
      SameTies cmp (elems (m.bytes b) o sz n) (elems (m'.bytes b) o sz n) ∧
      bubbleSort fuel (ptr b o) n sz cmp m = .ok () m1 ∧ (∀ c, ¬ P c → m'.bytes c = m1.bytes c) ∧ I m' := by
  obtain ⟨m1, h1, h2, h3, h4⟩ := bubble_all m b o sz n fuel cmp h hfu hfu1
  obtain ⟨h5, h6⟩ := h4 hw
  obtain ⟨m', h7, h8⟩ := bubble_sim (Q := (· = b)) (p := ptr b o) (simCmp_of_answers (P := ⟨P, I, hI⟩) hg (by rintro _ rfl; exact hP)) rfl hP n fuel 0 m m () m1
    (AgreeOff.refl hm) (by rw [← bubbleLoop_eq]; exact h1)
  refine ⟨m', m1, h7, ?_, by rw [h8.1 b hP]; exact h6, h1, h8⟩
  unfold SortedApart
  rw [h8.1 b hP]
  exact ⟨h5, h3, fun c hc hb => (h8.1 c hc).trans (h2.2.1 c hb), h2.2.2⟩

/-- C94: selection sort. -/
theorem C94_selection (I : Mem → Prop) (P : Nat → Prop) (m : Mem) (b o sz n : Nat) (cmp : Cmp) (g : CmpFun) (hw : StrictWeak cmp)
    (h : ArraySetup m b o sz n) (hI : Concerns P I) (hm : I m) (hP : ¬ P b) (hg : AnswersAs I P (· = b) sz cmp g) :
    ∃ m' m1, selectionSortE (ptr b o) n sz g m = .ok () m' ∧ SortedApart P cmp m m' b o sz n ∧
      selectionSort (ptr b o) n sz cmp m = .ok () m1 ∧ (∀ c, ¬ P c → m'.bytes c = m1.bytes c) ∧ I m' := by
  obtain ⟨m1, h1, h2, h3, h4, -⟩ := selection_all m b o sz n cmp h
  obtain ⟨m', h7, h8⟩ := selection_sim (Q := (· = b)) (p := ptr b o) (simCmp_of_answers (P := ⟨P, I, hI⟩) hg (by rintro _ rfl; exact hP)) rfl hP n m m () m1
    (AgreeOff.refl hm) (by rw [← selectionSort_eq]; exact h1)
  refine ⟨m', m1, h7, ?_, h1, h8⟩
  unfold SortedApart
  rw [h8.1 b hP]
  exact ⟨h4 hw, h3, fun c hc hb => (h8.1 c hc).trans (h2.2.1 c hb), h2.2.2⟩

/-- C94: insertion sort; the comparison function is also called with the static buffer `st`, which it must not write
to either. -/
theorem C94_insertion (I : Mem → Prop) (P : Nat → Prop) (m : Mem) (st b o sz n : Nat) (cmp : Cmp) (g : CmpFun) (hw : StrictWeak cmp)
    (h : ArraySetup m b o sz n) (hst : st ≠ b) (hst64 : (m.bytes st).length = 64) (h64 : sz ≤ 64) (ho : sz ≤ o)
    (hI : Concerns P I) (hm : I m) (hP : ¬ P b) (hPst : ¬ P st) (hg : AnswersAs I P (fun c => c = b ∨ c = st) sz cmp g) :
    ∃ m' m1, insertionSortE (ptr st 0) (ptr b o) n sz g m = .ok () m' ∧
      SortedApart (fun c => P c ∨ c = st) cmp m m' b o sz n ∧
      SameTies cmp (elems (m.bytes b) o sz n) (elems (m'.bytes b) o sz n) ∧
      insertionSort (ptr st 0) (ptr b o) n sz cmp m = .ok () m1 ∧ (∀ c, ¬ P c → m'.bytes c = m1.bytes c) ∧ I m' := by
  obtain ⟨m1, X, h1, hX, -, h2, h3, h4⟩ := (insertion_all m st b o sz n cmp h hst hst64 h64).1 (.inl ho)
  obtain ⟨h5, h6⟩ := h4 hw
  obtain ⟨m', h7, h8⟩ := insertion_sim (Q := fun c => c = b ∨ c = st) (p := ptr b o)
    (simCmp_of_answers (P := ⟨P, I, hI⟩) hg (by rintro c (rfl | rfl); exacts [hP, hPst]))
    (st := ptr st 0) (.inr rfl) hPst (.inl rfl) hP n m m () m1 (AgreeOff.refl hm) (by rw [← insertionSort_eq]; exact h1)
  have hb : (m.upd st X).bytes b = m.bytes b := by
    simp only [Mem.upd_bytes]; rw [if_neg (Ne.symm hst)]
  refine ⟨m', m1, h7, ?_, by rw [h8.1 b hP]; exact h6, h1, h8⟩
  unfold SortedApart
  rw [h8.1 b hP]
  refine ⟨h5, h3, fun c hc hcb => (h8.1 c fun e => hc (.inl e)).trans ((h2.2.1 c hcb).trans ?_), ?_⟩
  · simp only [Mem.upd_bytes]; rw [if_neg fun e => hc (.inr e)]
  · rw [← hb]; exact h2.2.2

/-- C94: heap sort, with readable elements behind the array (C44), on which the comparison function is called too. -/
theorem C94_heap (I : Mem → Prop) (P : Nat → Prop) (m : Mem) (b o sz n fuel : Nat) (cmp : Cmp) (g : CmpFun) (hw : StrictWeak cmp)
    (h : HeapSetup m b o sz n) (hfu : n < 2 ^ fuel) (hI : Concerns P I) (hm : I m) (hP : ¬ P b) (hg : AnswersAs I P (· = b) sz cmp g) :
    ∃ m' m1, heapSortE fuel (ptr b o) n sz g m = .ok () m' ∧ SortedApart P cmp m m' b o sz n ∧
      heapSort fuel (ptr b o) n sz cmp m = .ok () m1 ∧ (∀ c, ¬ P c → m'.bytes c = m1.bytes c) ∧ I m' := by
  obtain ⟨m1, h1, h2, h3, h4⟩ := heap_all m b o sz n fuel cmp h hfu
  obtain ⟨m', h7, h8⟩ := heap_sim (Q := (· = b)) (p := ptr b o) (simCmp_of_answers (P := ⟨P, I, hI⟩) hg (by rintro _ rfl; exact hP)) rfl hP n fuel m m () m1
    (AgreeOff.refl hm) (by rw [← heapSort_eq]; exact h1)
  refine ⟨m', m1, h7, ?_, h1, h8⟩
  unfold SortedApart
  rw [h8.1 b hP]
  exact ⟨h4 hw, h3, fun c hc hb => (h8.1 c hc).trans (h2.2.1 c hb), h2.2.2⟩

/-- A comparison function that counts its calls in the first byte of object 5. -/
def countingByFirst : CmpFun := fun p q => do
  let x ← loadN p 2
  let y ← loadN q 2
  let c ← load (ptr 5 0)
  store (ptr 5 0) (c + 1#8)
  return byFirst x y

/-- An execution with such a comparison function: the array is sorted and the count is there. -/
example : outBytes (bubbleSortE 3 (ptr 0 1) 3 2 countingByFirst ((mem1 [7, 2, 1, 1, 8, 2, 0, 9]).upd 5 [0])) 0 =
      some [7, 1, 8, 2, 1, 2, 0, 9] ∧
    outBytes (bubbleSortE 3 (ptr 0 1) 3 2 countingByFirst ((mem1 [7, 2, 1, 1, 8, 2, 0, 9]).upd 5 [0])) 5 = some [3] := by
  decide +kernel

/-- Non-vacuity: it answers as `byFirst` does while that object is there. -/
theorem countingByFirst_answers : Concerns (· = 5) (fun m => 0 < (m.bytes 5).length) ∧
    AnswersAs (fun m => 0 < (m.bytes 5).length) (· = 5) (· ≠ 5) 2 byFirst countingByFirst := by
  constructor
  · intro m m' h _ hm
    show 0 < (m'.bytes 5).length
    rw [h 5 rfl]; exact hm
  intro p q m x y h5 _ _ hx hy
  have h0 : 0 < (m.bytes 5).length := h5
  obtain ⟨c, hc⟩ : ∃ c, (m.bytes 5)[0]? = some c := ⟨_, List.getElem?_eq_getElem h0⟩
  have h1 : load (ptr 5 0) m = .ok c m := load_ok hc
  have h2 : store (ptr 5 0) (c + 1#8) m = .ok () (m.upd 5 ((m.bytes 5).set 0 (c + 1#8))) := store_ok h0
  refine ⟨m.upd 5 ((m.bytes 5).set 0 (c + 1#8)), ?_, ?_, ?_⟩
  · unfold countingByFirst
    rw [C.bind_ok hx, C.bind_ok hy, C.bind_ok h1, C.bind_ok h2]
    rfl
  · intro b hb
    simp only [Mem.upd_bytes]
    rw [if_neg hb]
  · show 0 < ((m.upd 5 ((m.bytes 5).set 0 (c + 1#8))).bytes 5).length
    rw [Mem.upd_bytes, if_pos rfl, List.length_set]
    exact h0

/-! ### C95 -/

/-- C95: bubble sort of `n` elements calls the comparison function at least `n - 1` and at most `n (n - 1) / 2` times. -/
theorem C95_bubble (m : Mem) (w b o sz n fuel : Nat) (cmp : Cmp) (h : ArraySetup m b o sz n) (hfu : n ≤ fuel)
    (hfu1 : 1 ≤ fuel) :
    ∃ m' m1, bubbleSortE fuel (ptr b o) n sz (logged w (compareFun cmp sz)) m = .ok () m' ∧
      bubbleSort fuel (ptr b o) n sz cmp m = .ok () m1 ∧ m'.bytes = m1.bytes ∧
      n - 1 ≤ calls w m m' ∧ 2 * calls w m m' ≤ n * (n - 1) := by
  obtain ⟨m1, h1, -⟩ := bubble_all m b o sz n fuel cmp h hfu hfu1
  obtain ⟨m', h7, h8⟩ := bubble_sim (Q := fun _ => True) (P := Priv.none) (p := ptr b o)
    (logged_sim (w := w) (cmp := cmp) (sz := sz)) trivial id n fuel 0 m m () m1 (AgreeOff.refl trivial)
    (by rw [← bubbleLoop_eq]; exact h1)
  have h9 := bubbleLoop_calls (w := w) (fun p q => logged_calls (cmp := cmp) (sz := (sz : Int)) p q) n fuel 0 m () m' h7
  have h10 := tri_eq n
  refine ⟨m', m1, h7, h1, funext fun c => h8.1 c id, ?_, ?_⟩ <;> unfold calls <;> simp only [Nat.sub_zero] at h9 <;> omega

/-- C95: bubble sort calls it exactly `n - 1` times on an array of `n ≥ 1` elements without a neighbouring pair in the
wrong order. -/
theorem C95_bubble_best (m : Mem) (w b o sz n fuel : Nat) (cmp : Cmp) (h : ArraySetup m b o sz n) (hfu1 : 1 ≤ fuel)
    (hn : 1 ≤ n)
    (hs : ∀ k, k + 1 < n → cmp (slice (m.bytes b) (o + k * sz) sz) (slice (m.bytes b) (o + (k + 1) * sz) sz) = false) :
    ∃ m', bubbleSortE fuel (ptr b o) n sz (logged w (compareFun cmp sz)) m = .ok () m' ∧ m'.bytes = m.bytes ∧
      calls w m m' = n - 1 := by
  obtain ⟨fuel, rfl⟩ : ∃ f, fuel = f + 1 := ⟨fuel - 1, by omega⟩
  have hroom := h.room
  have hpass : bubblePassE (compareFun cmp sz) (ptr b o) sz ((n - 1 : Nat) : Int) m = .ok false m := by
    unfold bubblePassE
    rw [Int.toNat_natCast]
    refine pass_false _ 0 false fun k _ hk => ?_
    have hk1 := mul_lim h.lim (show k < n by omega)
    have hk2 := mul_lim h.lim (show k + 1 < n by omega)
    have hm1 : k * sz + sz ≤ n * sz := by rw [← Nat.succ_mul]; exact Nat.mul_le_mul_right _ (by omega)
    have hm2 : (k + 1) * sz + sz ≤ n * sz := by rw [← Nat.succ_mul]; exact Nat.mul_le_mul_right _ (by omega)
    unfold compareAtE
    rw [C.bind_ok (elemAt_ok hk1 m), show ((k : Int) + 1) = ((k + 1 : Nat) : Int) by omega, C.bind_ok (elemAt_ok hk2 m)]
    unfold compareFun
    rw [Int.toNat_natCast, C.bind_ok (loadN_ok (by omega)), C.bind_ok (loadN_ok (by omega)), hs k (by omega)]
    rfl
  have hnl := h.n_lt
  have e1 : ((n : Int) - (0 : Int) - 1) = ((n - 1 : Nat) : Int) := by omega
  obtain ⟨m', h7, h8⟩ := Sim.forN (P := Priv.none) _ _ _ _ _ (fun j s => Sim.bind
    (Sim.compareAt (Q := fun _ => True) (p := ptr b o) (sz := sz)
      (logged_sim (w := w) (cmp := cmp) (sz := sz)) trivial (j : Int) ((j : Int) + 1)) fun c =>
      Sim.ite (Sim.bind (Sim.swapElems (sz := sz) (p := ptr b o) id _ _) fun _ => Sim.pure true) (Sim.pure s)) m m false m
    (AgreeOff.refl trivial) hpass
  have h9 := pass_calls (w := w) (fun p q => logged_calls (cmp := cmp) (sz := (sz : Int)) p q) _ m false m' h7
  rw [Int.toNat_natCast] at h9
  refine ⟨m', ?_, funext fun c => h8.1 c id, by unfold calls; omega⟩
  unfold bubbleSortE
  simp only [bubbleLoopE]
  rw [C.bind_ok (i32_ok (by omega) (by omega) m), C.bind_ok (i32_ok (by omega) (by omega) m), e1]
  rw [C.bind_ok (show bubblePassE (logged w (compareFun cmp sz)) (ptr b o) sz ((n - 1 : Nat) : Int) m = .ok false m' from h7)]
  rw [C.bind_ok (i32_ok (by omega) (by omega) m')]
  rfl

/-- C95: selection sort calls it exactly `n (n - 1) / 2` times, whatever is in the array. -/
theorem C95_selection (m : Mem) (w b o sz n : Nat) (cmp : Cmp) (h : ArraySetup m b o sz n) :
    ∃ m' m1, selectionSortE (ptr b o) n sz (logged w (compareFun cmp sz)) m = .ok () m' ∧
      selectionSort (ptr b o) n sz cmp m = .ok () m1 ∧ m'.bytes = m1.bytes ∧ 2 * calls w m m' = n * (n - 1) := by
  obtain ⟨m1, h1, -⟩ := selection_all m b o sz n cmp h
  obtain ⟨m', h7, h8⟩ := selection_sim (Q := fun _ => True) (P := Priv.none) (p := ptr b o)
    (logged_sim (w := w) (cmp := cmp) (sz := sz)) trivial id n m m () m1 (AgreeOff.refl trivial)
    (by rw [← selectionSort_eq]; exact h1)
  have h9 := selection_calls (w := w) (fun p q => logged_calls (cmp := cmp) (sz := (sz : Int)) p q) n m () m' h7
  have h10 := tri_eq n
  refine ⟨m', m1, h7, h1, funext fun c => h8.1 c id, ?_⟩
  unfold calls; omega

/-- C95: insertion sort calls it at least `n - 1` and at most `n (n + 1) / 2 - 1` times: once for every element, and
once more for every place that the element moves, the last of these calls with the memory before the array (C45). -/
theorem C95_insertion (m : Mem) (w st b o sz n : Nat) (cmp : Cmp) (h : ArraySetup m b o sz n) (hst : st ≠ b)
    (hst64 : (m.bytes st).length = 64) (h64 : sz ≤ 64) (ho : sz ≤ o) (hn : 1 ≤ n) :
    ∃ m' m1, insertionSortE (ptr st 0) (ptr b o) n sz (logged w (compareFun cmp sz)) m = .ok () m' ∧
      insertionSort (ptr st 0) (ptr b o) n sz cmp m = .ok () m1 ∧ m'.bytes = m1.bytes ∧
      n - 1 ≤ calls w m m' ∧ 2 * (calls w m m' + 1) ≤ n * (n + 1) := by
  obtain ⟨m1, X, h1, -⟩ := (insertion_all m st b o sz n cmp h hst hst64 h64).1 (.inl ho)
  obtain ⟨m', h7, h8⟩ := insertion_sim (Q := fun _ => True) (P := Priv.none) (p := ptr b o) (st := ptr st 0)
    (logged_sim (w := w) (cmp := cmp) (sz := sz)) trivial id trivial id n m m () m1 (AgreeOff.refl trivial)
    (by rw [← insertionSort_eq]; exact h1)
  have h9 := insertion_calls (w := w) (fun p q => logged_calls (cmp := cmp) (sz := (sz : Int)) p q) _ n m () m' h7
  have h10 := tri_eq (n + 1)
  rw [Nat.add_sub_cancel, Nat.mul_comm (n + 1)] at h10
  have h11 : 1 * (1 + 1) ≤ n * (n + 1) := Nat.mul_le_mul hn (by omega)
  refine ⟨m', m1, h7, h1, funext fun c => h8.1 c id, ?_, ?_⟩ <;> unfold calls <;> omega

/-- C95: insertion sort calls it exactly `n - 1` times on an array without a neighbouring pair in the wrong order. -/
theorem C95_insertion_best (m : Mem) (w st b o sz n : Nat) (cmp : Cmp) (h : ArraySetup m b o sz n) (hst : st ≠ b)
    (hst64 : (m.bytes st).length = 64) (h64 : sz ≤ 64)
    (hs : ∀ k, k + 1 < n → cmp (slice (m.bytes b) (o + k * sz) sz) (slice (m.bytes b) (o + (k + 1) * sz) sz) = false) :
    ∃ m', insertionSortE (ptr st 0) (ptr b o) n sz (logged w (compareFun cmp sz)) m = .ok () m' ∧
      m'.bytes b = m.bytes b ∧ calls w m m' = n - 1 := by
  rcases Nat.eq_zero_or_pos n with rfl | hn
  · exact ⟨m, rfl, rfl, by simp [calls]⟩
  obtain ⟨m', h1, h2, h3⟩ := insertion_sorted_loop (cmp := cmp) (w := w) hst h.lim h.sz_lt h64 h.room
    (fun i h1 h2 => by
      have := hs (i - 1) (by omega)
      rw [show i - 1 + 1 = i by omega] at this
      exact this) (n - 1) 1 m (by omega) (by omega) rfl hst64
  refine ⟨m', ?_, h2, by unfold calls; omega⟩
  unfold insertionSortE
  rw [show ((n : Int) - 1).toNat = n - 1 by omega]
  exact h1

/-- C95: heap sort calls it at most `3 n (log2 n + 1)` times - for `n / 2 + n` elements two per level of the heap. -/
theorem C95_heap (m : Mem) (w b o sz n fuel : Nat) (cmp : Cmp) (h : HeapSetup m b o sz n) (hfu : n < 2 ^ fuel) :
    ∃ m' m1, heapSortE fuel (ptr b o) n sz (logged w (compareFun cmp sz)) m = .ok () m' ∧
      heapSort fuel (ptr b o) n sz cmp m = .ok () m1 ∧ m'.bytes = m1.bytes ∧
      2 * (n / 2 + n) ≤ calls w m m' ∧ calls w m m' ≤ 2 * (n / 2 + n) * (Nat.log2 n + 1) ∧
      calls w m m' ≤ 3 * n * (Nat.log2 n + 1) := by
  obtain ⟨k, hk⟩ : ∃ k, fuel = Nat.log2 n + 1 + k ∨ n = 0 := by
    rcases Nat.eq_zero_or_pos n with hn | hn
    · exact ⟨0, .inr hn⟩
    · have := (Nat.log2_lt (by omega)).2 hfu
      exact ⟨fuel - (Nat.log2 n + 1), .inl (by omega)⟩
  rcases hk with rfl | rfl
  · obtain ⟨m1, h1, -⟩ := heap_all m b o sz n (Nat.log2 n + 1) cmp h Nat.lt_log2_self
    obtain ⟨m', h7, h8⟩ := heap_sim (Q := fun _ => True) (P := Priv.none) (p := ptr b o)
      (logged_sim (w := w) (cmp := cmp) (sz := sz)) trivial id n (Nat.log2 n + 1) m m () m1
      (AgreeOff.refl trivial) (by rw [← heapSort_eq]; exact h1)
    have h9 := heap_calls (w := w) (fun p q => logged_calls (cmp := cmp) (sz := (sz : Int)) p q) n _ m () m' h7
    refine ⟨m', m1, heap_fuel _ k _ m () m' h7, by rw [heapSort_eq] at h1 ⊢; exact heap_fuel _ k _ m () m1 h1,
      funext fun c => h8.1 c id, by unfold calls; omega, ?_, ?_⟩
    · have : calls w m m' ≤ (n / 2 + n) * (2 * (Nat.log2 n + 1)) := by unfold calls; omega
      rw [Nat.mul_comm 2, Nat.mul_assoc]; exact this
    · have : calls w m m' ≤ (n / 2 + n) * (2 * (Nat.log2 n + 1)) := by unfold calls; omega
      rw [← Nat.mul_assoc] at this
      exact this.trans (Nat.mul_le_mul_right _ (by omega))
  · obtain ⟨m1, h1, -⟩ := heap_all m b o sz 0 fuel cmp h hfu
    obtain ⟨m', h7, h8⟩ := heap_sim (Q := fun _ => True) (P := Priv.none) (p := ptr b o)
      (logged_sim (w := w) (cmp := cmp) (sz := sz)) trivial id ((0 : Nat) : Int) fuel m m () m1
      (AgreeOff.refl trivial) (by rw [← heapSort_eq]; exact h1)
    have h9 := heap_calls (w := w) (fun p q => logged_calls (cmp := cmp) (sz := (sz : Int)) p q) 0 _ m () m' h7
    refine ⟨m', m1, h7, h1, funext fun c => h8.1 c id, ?_, ?_, ?_⟩ <;> unfold calls <;> simp at h9 ⊢ <;> omega

/-- The bytes of object 0 and the number of calls, for the examples. -/
def outCalls : Res Unit → Option (List Byte × Nat)
  | .ok _ m => some (m.bytes 0, calls 9 (mem1 []) m)
  | .ub _ => none

/-- Non-vacuity, and the bounds are met: three elements in reverse order, and in order. -/
example :
    ArraySetup (memI [9, 3, 2, 1]) 0 1 1 3 ∧ HeapSetup (mem1 [3, 1, 2, 0, 0, 0, 0]) 0 0 1 3 ∧
    outCalls (bubbleSortE 3 (ptr 0 0) 3 1 (logged 9 (compareFun byFirst 1)) (mem1 [3, 2, 1])) = some ([1, 2, 3], 3) ∧
    outCalls (insertionSortE (ptr 1 0) (ptr 0 1) 3 1 (logged 9 (compareFun byFirst 1)) (memI [9, 3, 2, 1])) =
      some ([9, 1, 2, 3], 5) ∧
    outCalls (insertionSortE (ptr 1 0) (ptr 0 0) 3 1 (logged 9 (compareFun byFirst 1)) (memI [1, 2, 3])) =
      some ([1, 2, 3], 2) ∧
    outCalls (heapSortE 2 (ptr 0 0) 3 1 (logged 9 (compareFun byFirst 1)) (mem1 [3, 1, 2, 0, 0, 0, 0])) =
      some ([1, 2, 3, 0, 0, 0, 0], 8) :=
  ⟨⟨by decide, by decide, by decide, by decide⟩, ⟨by decide, by decide, by decide, by decide⟩, by decide +kernel,
    by decide +kernel, by decide +kernel, by decide +kernel⟩

end IMU.Props
