import Verif.Proofs.SortGlue
import Verif.Proofs.SortSelection
import Verif.Props.Utils

/-!
# Properties C38 - C46: Src/sort

`elems bytes o sz n` are the `n` elements of `sz` bytes at byte `o`; `cmp a b` says that `a` is greater than `b`.
-/

namespace IMU.Props
open Spec Utils IMU.Sort

/-- An array of `n` elements of `sz` bytes at byte `o` of object `b`, with sizes that fit `int32_t`. -/
structure ArraySetup (m : Mem) (b o sz n : Nat) : Prop where
  sz_lt : sz < 2 ^ 31
  n_lt : n < 2 ^ 31
  lim : (n - 1) * sz < 2 ^ 31
  room : o + n * sz ≤ (m.bytes b).length

/-- The bytes of an object after a run, for examples. -/
def outBytes : Res Unit → Nat → Option (List Byte)
  | .ok _ m, b => some (m.bytes b)
  | .ub _, _ => none

/-! ### Bubble sort -/

theorem bubble_all (m : Mem) (b o sz n fuel : Nat) (cmp : Cmp) (h : ArraySetup m b o sz n) (hfu : n ≤ fuel)
    (hfu1 : 1 ≤ fuel) :
    ∃ m', bubbleSort fuel (ptr b o) n sz cmp m = .ok () m' ∧ OnlyChanged m m' b o (n * sz) ∧
      (elems (m.bytes b) o sz n).Perm (elems (m'.bytes b) o sz n) ∧
      (StrictWeak cmp → Sorted cmp (elems (m'.bytes b) o sz n) ∧
        SameTies cmp (elems (m.bytes b) o sz n) (elems (m'.bytes b) o sz n)) := by
  have hl := elems_length (m.bytes b) o sz n
  have hf := elems_fits (sz := sz) (n := n) h.room
  obtain ⟨l, h1, h2, h3⟩ := bubbleLoop_run cmp (m0 := m) (b := b) (o := o) h.sz_lt fuel (elems (m.bytes b) o sz n) []
    (by omega) hfu1 (by rw [List.append_nil, hl]; exact h.n_lt) (by simp) (by rw [List.append_nil]; exact hf)
    (by rw [List.append_nil, hl]; exact h.lim)
  rw [List.append_nil, hl, arr_elems h.room] at h1
  rw [List.append_nil] at h2 h3
  have hf' := hf.perm h2
  have hll : l.length = n := by rw [← h2.length_eq, hl]
  have he : elems ((arr m b o l).bytes b) o sz n = l := by
    rw [elems_arr hf' n (by omega), List.take_of_length_le (by omega)]
  refine ⟨_, h1, by rw [← hll]; exact arr_onlyChanged' hf', by rw [he]; exact h2, ?_⟩
  intro hw
  obtain ⟨h4, h5⟩ := h3 hw
  rw [he]
  exact ⟨h5 (by simp [Sorted]) (by simp), h4⟩

/-- C38: bubble sort sorts, on an exactly sized buffer, and changes nothing else; the outer loop ends within
`n` rounds. -/
theorem C38_bubble_sorts (m : Mem) (b o sz n fuel : Nat) (cmp : Cmp) (hw : StrictWeak cmp)
    (h : ArraySetup m b o sz n) (hfu : n ≤ fuel) (hfu1 : 1 ≤ fuel) :
    ∃ m', bubbleSort fuel (ptr b o) n sz cmp m = .ok () m' ∧ OnlyChanged m m' b o (n * sz) ∧
      (elems (m.bytes b) o sz n).Perm (elems (m'.bytes b) o sz n) ∧ Sorted cmp (elems (m'.bytes b) o sz n) := by
  obtain ⟨m', h1, h2, h3, h4⟩ := bubble_all m b o sz n fuel cmp h hfu hfu1
  exact ⟨m', h1, h2, h3, (h4 hw).1⟩

/-- C43: with any comparator bubble sort ends, permutes the elements and changes nothing else. -/
theorem C43_bubble_any (m : Mem) (b o sz n fuel : Nat) (cmp : Cmp) (h : ArraySetup m b o sz n) (hfu : n ≤ fuel)
    (hfu1 : 1 ≤ fuel) :
    ∃ m', bubbleSort fuel (ptr b o) n sz cmp m = .ok () m' ∧ OnlyChanged m m' b o (n * sz) ∧
      (elems (m.bytes b) o sz n).Perm (elems (m'.bytes b) o sz n) := by
  obtain ⟨m', h1, h2, h3, -⟩ := bubble_all m b o sz n fuel cmp h hfu hfu1
  exact ⟨m', h1, h2, h3⟩

/-- C42: bubble sort is stable. -/
theorem C42_bubble_stable (m : Mem) (b o sz n fuel : Nat) (cmp : Cmp) (hw : StrictWeak cmp)
    (h : ArraySetup m b o sz n) (hfu : n ≤ fuel) (hfu1 : 1 ≤ fuel) :
    ∃ m', bubbleSort fuel (ptr b o) n sz cmp m = .ok () m' ∧
      SameTies cmp (elems (m.bytes b) o sz n) (elems (m'.bytes b) o sz n) := by
  obtain ⟨m', h1, -, -, h4⟩ := bubble_all m b o sz n fuel cmp h hfu hfu1
  exact ⟨m', h1, (h4 hw).2⟩

/-- A comparator by the first byte. -/
def byFirst : Cmp := fun a b => decide ((b.headD 0).toNat < (a.headD 0).toNat)

theorem byFirst_strictWeak : StrictWeak byFirst := by
  constructor
  · intro a b h; simp only [byFirst, decide_eq_true_eq, decide_eq_false_iff_not] at *; omega
  · intro a b c h1 h2; simp only [byFirst, decide_eq_false_iff_not] at *; omega

/-- Non-vacuity: three two-byte elements, two of them tied, in the middle of an object. -/
example : StrictWeak byFirst ∧ ArraySetup (mem1 [7, 2, 1, 1, 8, 2, 0, 9]) 0 1 2 3 ∧
    ∃ m', bubbleSort 3 (ptr 0 1) 3 2 byFirst (mem1 [7, 2, 1, 1, 8, 2, 0, 9]) = .ok () m' ∧
      m'.bytes 0 = [7, 1, 8, 2, 1, 2, 0, 9] :=
  ⟨byFirst_strictWeak, ⟨by decide, by decide, by decide, by decide⟩, _, rfl, by decide⟩

/-! ### Selection sort -/

theorem selection_all (m : Mem) (b o sz n : Nat) (cmp : Cmp) (h : ArraySetup m b o sz n) :
    ∃ m', selectionSort (ptr b o) n sz cmp m = .ok () m' ∧ OnlyChanged m m' b o (n * sz) ∧
      (elems (m.bytes b) o sz n).Perm (elems (m'.bytes b) o sz n) ∧
      (StrictWeak cmp → Sorted cmp (elems (m'.bytes b) o sz n)) ∧
      (Sorted cmp (elems (m.bytes b) o sz n) → m' = m) := by
  have hl := elems_length (m.bytes b) o sz n
  have hf := elems_fits (sz := sz) (n := n) h.room
  obtain ⟨l, h1, h2, h3, h4⟩ := selectionSort_run cmp (m0 := m) (b := b) (o := o) h.sz_lt hf
    (by rw [hl]; exact h.lim) (by rw [hl]; exact h.n_lt)
  rw [hl, arr_elems h.room] at h1
  have hf' := hf.perm h2
  have hll : l.length = n := by rw [← h2.length_eq, hl]
  have he : elems ((arr m b o l).bytes b) o sz n = l := by
    rw [elems_arr hf' n (by omega), List.take_of_length_le (by omega)]
  refine ⟨_, h1, by rw [← hll]; exact arr_onlyChanged' hf', by rw [he]; exact h2, ?_, ?_⟩
  · intro hw; rw [he]; exact h3 hw
  · intro hs; rw [h4 hs, arr_elems h.room]

/-- C39: selection sort sorts, on an exactly sized buffer, and changes nothing else. -/
theorem C39_selection_sorts (m : Mem) (b o sz n : Nat) (cmp : Cmp) (hw : StrictWeak cmp)
    (h : ArraySetup m b o sz n) :
    ∃ m', selectionSort (ptr b o) n sz cmp m = .ok () m' ∧ OnlyChanged m m' b o (n * sz) ∧
      (elems (m.bytes b) o sz n).Perm (elems (m'.bytes b) o sz n) ∧ Sorted cmp (elems (m'.bytes b) o sz n) := by
  obtain ⟨m', h1, h2, h3, h4, -⟩ := selection_all m b o sz n cmp h
  exact ⟨m', h1, h2, h3, h4 hw⟩

/-- C43: with any comparator selection sort ends, permutes the elements and changes nothing else. -/
theorem C43_selection_any (m : Mem) (b o sz n : Nat) (cmp : Cmp) (h : ArraySetup m b o sz n) :
    ∃ m', selectionSort (ptr b o) n sz cmp m = .ok () m' ∧ OnlyChanged m m' b o (n * sz) ∧
      (elems (m.bytes b) o sz n).Perm (elems (m'.bytes b) o sz n) := by
  obtain ⟨m', h1, h2, h3, -⟩ := selection_all m b o sz n cmp h
  exact ⟨m', h1, h2, h3⟩

/-- C42, the other side: selection sort is not stable. -/
theorem C42_selection_unstable : ∃ m', selectionSort (ptr 0 0) 3 2 byFirst (mem1 [2, 0, 2, 1, 1, 0]) = .ok () m' ∧
    m'.bytes 0 = [1, 0, 2, 1, 2, 0] ∧
    ¬ SameTies byFirst (elems [2, 0, 2, 1, 1, 0] 0 2 3) (elems (m'.bytes 0) 0 2 3) := by
  refine ⟨_, rfl, by decide, ?_⟩
  intro h
  have := h [2, 0]
  revert this
  decide

example : ArraySetup (mem1 [7, 2, 1, 1, 8, 2, 0, 9]) 0 1 2 3 ∧
    ∃ m', selectionSort (ptr 0 1) 3 2 byFirst (mem1 [7, 2, 1, 1, 8, 2, 0, 9]) = .ok () m' ∧
      m'.bytes 0 = [7, 1, 8, 2, 1, 2, 0, 9] :=
  ⟨⟨by decide, by decide, by decide, by decide⟩, _, rfl, by decide⟩

/-! ### Insertion sort -/

/-- Some element is smaller than all elements before it. -/
def HasNewMinimum (cmp : Cmp) (l : List (List Byte)) : Prop :=
  ∃ k, 0 < k ∧ k < l.length ∧ ∀ j, j < k → cmp (l.getD j []) (l.getD k []) = true

theorem newMin_iff (cmp : Cmp) (x : List Byte) (t : List (List Byte)) :
    NewMin cmp [x] t ↔ HasNewMinimum cmp (x :: t) := by
  constructor
  · rintro ⟨A, e, B, rfl, h⟩
    refine ⟨A.length + 1, by omega, by simp, ?_⟩
    intro j hj
    have he : (x :: (A ++ e :: B)).getD (A.length + 1) [] = e := by simp
    rw [he]
    apply h
    have hj' : (x :: (A ++ e :: B)).getD j [] = (x :: A).getD j [] := by
      rw [← List.cons_append, List.getD_eq_getElem?_getD, List.getD_eq_getElem?_getD,
        List.getElem?_append_left (by simpa using hj)]
    rw [hj']
    have hj2 := getElem?_getD (l := x :: A) [] (k := j) (by simpa using hj)
    exact List.mem_of_getElem? hj2
  · rintro ⟨k, h1, h2, h3⟩
    simp only [List.length_cons] at h2
    refine ⟨t.take (k - 1), t.getD (k - 1) [], t.drop k, ?_, ?_⟩
    · have hd : t.drop (k - 1) = t.getD (k - 1) [] :: t.drop k := by
        have h5 := getElem?_getD (l := t) [] (k := k - 1) (by omega)
        rw [List.getElem?_eq_getElem (by omega), Option.some.injEq] at h5
        rw [← h5, ← List.getElem_cons_drop (i := k - 1) (by omega), show k - 1 + 1 = k by omega]
      rw [← hd, List.take_append_drop]
    · have hk : (x :: t).getD k [] = t.getD (k - 1) [] := by
        obtain ⟨k, rfl⟩ : ∃ k', k = k' + 1 := ⟨k - 1, by omega⟩
        simp
      intro a ha
      rw [List.singleton_append, List.mem_cons] at ha
      rcases ha with rfl | ha
      · have := h3 0 h1
        rw [hk] at this
        simpa using this
      · obtain ⟨j, hj, rfl⟩ := List.mem_iff_getElem.mp ha
        rw [List.length_take] at hj
        have := h3 (j + 1) (by omega)
        rw [hk] at this
        rw [List.getElem_take]
        have hj2 : (x :: t).getD (j + 1) [] = t[j] := by simp [show j < t.length by omega]
        rw [hj2] at this
        exact this

theorem insertion_all (m : Mem) (st b o sz n : Nat) (cmp : Cmp) (h : ArraySetup m b o sz n) (hst : st ≠ b)
    (hst64 : (m.bytes st).length = 64) (h64 : sz ≤ 64) :
    ((sz ≤ o ∨ ¬ HasNewMinimum cmp (elems (m.bytes b) o sz n)) →
      ∃ m' X, insertionSort (ptr st 0) (ptr b o) n sz cmp m = .ok () m' ∧
        X.length = 64 ∧ (X.drop sz = (m.bytes st).drop sz ∧
          (2 ≤ n → slice X 0 sz = slice (m.bytes b) (o + (n - 1) * sz) sz)) ∧ OnlyChanged (m.upd st X) m' b o (n * sz) ∧
        (elems (m.bytes b) o sz n).Perm (elems (m'.bytes b) o sz n) ∧
        (StrictWeak cmp → Sorted cmp (elems (m'.bytes b) o sz n) ∧
          SameTies cmp (elems (m.bytes b) o sz n) (elems (m'.bytes b) o sz n))) ∧
    (o < sz → HasNewMinimum cmp (elems (m.bytes b) o sz n) →
      insertionSort (ptr st 0) (ptr b o) n sz cmp m = .ub .oobRead) := by
  have hl := elems_length (m.bytes b) o sz n
  have hf := elems_fits (sz := sz) (n := n) h.room
  have hun : ∀ m, insertionSort (ptr st 0) (ptr b o) n sz cmp m =
      forN (n - 1) 1 (insertionBody cmp st b o sz) () m := by
    intro m
    unfold insertionSort insertionBody
    rw [show ((n : Int) - 1).toNat = n - 1 by omega]
  rw [hun]
  cases hE : elems (m.bytes b) o sz n with
  | nil =>
    have hn : n = 0 := by rw [← hl, hE]; rfl
    subst hn
    constructor
    · intro _
      have ho : OnlyChanged (m.upd st (m.bytes st)) m b o (0 * sz) := by
        rw [Mem.upd_self]
        exact ⟨rfl, fun _ _ => rfl, rfl, fun _ _ => rfl⟩
      refine ⟨m, m.bytes st, rfl, hst64, ⟨rfl, by omega⟩, ho, by rw [hE], ?_⟩
      intro _
      rw [hE]
      exact ⟨by simp [Sorted], fun _ => rfl⟩
    · rintro _ ⟨k, _, hk, _⟩; simp at hk
  | cons x t =>
    have hn : n = t.length + 1 := by rw [← hl, hE]; rfl
    rw [hE] at hf
    have him : imem m st b o (m.bytes st) ([x] ++ t) = m := by
      unfold imem
      rw [Mem.upd_self, List.singleton_append, ← hE, arr_elems h.room]
    obtain ⟨k1, k2⟩ := insertion_loop cmp (m0 := m) (st := st) (b := b) (o := o) h.sz_lt t [x] (m.bytes st) (by simp)
      ⟨by simpa using hf, hst, by omega⟩ (by simp only [List.singleton_append, List.length_cons]; rw [← hn]; exact h.lim)
    rw [newMin_iff] at k1 k2
    rw [him] at k1 k2
    simp only [List.length_singleton] at k1 k2
    rw [show n - 1 = t.length by omega]
    constructor
    · intro hro
      obtain ⟨l, X, i1, i2, i2', i3, i4⟩ := k1 hro
      simp only [List.singleton_append] at i3 i4
      have hll : l.length = n := by rw [← i3.length_eq, hn]; rfl
      have hf2 : Fits (m.upd st X) b o sz l := by
        refine ⟨hf.chunks.perm i3, ?_⟩
        rw [Mem.upd_bytes, if_neg (Ne.symm hst), hll]
        exact h.room
      have he : elems ((imem m st b o X l).bytes b) o sz n = l := by
        unfold imem
        rw [elems_arr hf2 n (by omega), List.take_of_length_le (by omega)]
      have hoc := arr_onlyChanged' hf2
      rw [hll] at hoc
      have hlast : 2 ≤ n → slice X 0 sz = slice (m.bytes b) (o + (n - 1) * sz) sz := by
        intro h2
        have hg := elems_get (B := m.bytes b) (o := o) (sz := sz) (show n - 1 < n by omega)
        rw [hE, show n - 1 = (t.length - 1) + 1 by omega, List.getElem?_cons_succ] at hg
        rw [show n - 1 = (t.length - 1) + 1 by omega]
        exact i2'.2 _ (by rw [List.getLast?_eq_getElem?]; exact hg)
      refine ⟨_, X, i1, by omega, ⟨i2'.1, (by rw [show t.length = n - 1 by omega]; exact hlast)⟩, hoc, by rw [he]; exact i3, ?_⟩
      intro hw
      obtain ⟨i5, i6⟩ := i4 hw
      rw [he]
      exact ⟨i6 (by simp [Sorted]), i5⟩
    · intro ho hnm
      exact k2 ho hnm

/-- C40: insertion sort sorts if the `sz` bytes before the array are readable; it changes nothing but the
array and the first `sz` bytes of its static 64-byte object `st`. -/
theorem C40_insertion_sorts (m : Mem) (st b o sz n : Nat) (cmp : Cmp) (hw : StrictWeak cmp)
    (h : ArraySetup m b o sz n) (hst : st ≠ b) (hst64 : (m.bytes st).length = 64) (h64 : sz ≤ 64) (ho : sz ≤ o) :
    ∃ m' X, insertionSort (ptr st 0) (ptr b o) n sz cmp m = .ok () m' ∧
      X.length = 64 ∧ X.drop sz = (m.bytes st).drop sz ∧ OnlyChanged (m.upd st X) m' b o (n * sz) ∧
      (elems (m.bytes b) o sz n).Perm (elems (m'.bytes b) o sz n) ∧ Sorted cmp (elems (m'.bytes b) o sz n) := by
  obtain ⟨m', X, h1, h2, h3, h4, h5, h6⟩ := (insertion_all m st b o sz n cmp h hst hst64 h64).1 (.inl ho)
  exact ⟨m', X, h1, h2, h3.1, h4, h5, (h6 hw).1⟩

/-- C40: an element larger than the static object overflows it. -/
theorem C40_too_large (m : Mem) (st b o sz n : Nat) (cmp : Cmp) (h : ArraySetup m b o sz n) (hn : 2 ≤ n)
    (hst : st ≠ b) (hst64 : (m.bytes st).length = 64) (h64 : 64 < sz) :
    insertionSort (ptr st 0) (ptr b o) n sz cmp m = .ub .oobWrite := by
  have hl1 : 1 * sz < 2 ^ 31 := by rw [Nat.one_mul]; exact h.sz_lt
  have hr : o + 1 * sz + sz ≤ (m.bytes b).length := by
    have h1 : 2 * sz ≤ n * sz := Nat.mul_le_mul_right _ hn
    have := h.room
    omega
  have hl := slice_length _ _ _ hr
  unfold insertionSort
  obtain ⟨k, hk⟩ : ∃ k, ((n : Int) - 1).toNat = k + 1 := ⟨n - 2, by omega⟩
  have hcp : memcpy (ptr st 0) (ptr b (o + 1 * sz)) sz m = .ub .oobWrite := by
    unfold memcpy
    rw [overlaps_blk _ (by exact hst), if_neg (by simp), C.bind_ok (loadN_ok hr)]
    exact storeN_oob (by intro h0; rw [h0] at hl; simp at hl; omega) (by omega)
  rw [hk, forN_succ]
  have e1 : elemAt (ptr b o) (sz : Int) ((1 : Nat) : Int) m = .ok (ptr b (o + 1 * sz)) m := elemAt_ok hl1 m
  rw [C.bind_ok e1, szt_eq h.sz_lt, C.bind_ub hcp]

/-- C42: insertion sort is stable. -/
theorem C42_insertion_stable (m : Mem) (st b o sz n : Nat) (cmp : Cmp) (hw : StrictWeak cmp)
    (h : ArraySetup m b o sz n) (hst : st ≠ b) (hst64 : (m.bytes st).length = 64) (h64 : sz ≤ 64) (ho : sz ≤ o) :
    ∃ m', insertionSort (ptr st 0) (ptr b o) n sz cmp m = .ok () m' ∧
      SameTies cmp (elems (m.bytes b) o sz n) (elems (m'.bytes b) o sz n) := by
  obtain ⟨m', X, h1, h2, h3, h4, h5, h6⟩ := (insertion_all m st b o sz n cmp h hst hst64 h64).1 (.inl ho)
  exact ⟨m', h1, (h6 hw).2⟩

/-- C43: with any comparator insertion sort ends, permutes the elements and changes nothing else. -/
theorem C43_insertion_any (m : Mem) (st b o sz n : Nat) (cmp : Cmp)
    (h : ArraySetup m b o sz n) (hst : st ≠ b) (hst64 : (m.bytes st).length = 64) (h64 : sz ≤ 64) (ho : sz ≤ o) :
    ∃ m' X, insertionSort (ptr st 0) (ptr b o) n sz cmp m = .ok () m' ∧
      X.length = 64 ∧ X.drop sz = (m.bytes st).drop sz ∧ OnlyChanged (m.upd st X) m' b o (n * sz) ∧
      (elems (m.bytes b) o sz n).Perm (elems (m'.bytes b) o sz n) := by
  obtain ⟨m', X, h1, h2, h3, h4, h5, h6⟩ := (insertion_all m st b o sz n cmp h hst hst64 h64).1 (.inl ho)
  exact ⟨m', X, h1, h2, h3.1, h4, h5⟩

/-- C45: with an array at the start of its object, insertion sort reads before the object exactly if some
element is smaller than all elements before it, whatever the comparator; otherwise it sorts. -/
theorem C45_insertion_oob (m : Mem) (st b sz n : Nat) (cmp : Cmp) (h : ArraySetup m b 0 sz n) (hsz : 0 < sz)
    (hst : st ≠ b) (hst64 : (m.bytes st).length = 64) (h64 : sz ≤ 64) :
    (insertionSort (ptr st 0) (ptr b 0) n sz cmp m = .ub .oobRead ↔
      HasNewMinimum cmp (elems (m.bytes b) 0 sz n)) ∧
    (¬ HasNewMinimum cmp (elems (m.bytes b) 0 sz n) → StrictWeak cmp →
      ∃ m', insertionSort (ptr st 0) (ptr b 0) n sz cmp m = .ok () m' ∧
        (elems (m.bytes b) 0 sz n).Perm (elems (m'.bytes b) 0 sz n) ∧ Sorted cmp (elems (m'.bytes b) 0 sz n)) := by
  obtain ⟨k1, k2⟩ := insertion_all m st b 0 sz n cmp h hst hst64 h64
  refine ⟨⟨?_, k2 hsz⟩, ?_⟩
  · intro hub
    by_cases hnm : HasNewMinimum cmp (elems (m.bytes b) 0 sz n)
    · exact hnm
    · obtain ⟨m', X, h1, -⟩ := k1 (.inr hnm)
      rw [h1] at hub
      simp at hub
  · intro hnm hw
    obtain ⟨m', X, h1, -, -, -, h5, h6⟩ := k1 (.inr hnm)
    exact ⟨m', h1, h5, (h6 hw).1⟩

/-- Memory for the examples: the array object 0 and the static object 1. -/
def memI (l : List Byte) : Mem := mem2 l (List.replicate 64 0)

/-- Non-vacuity: the array behind a readable element; at the start of the object with and without a new
minimum. -/
example : ArraySetup (memI [7, 7, 2, 1, 1, 8, 2, 0, 9]) 0 2 2 3 ∧
    (∃ m', insertionSort (ptr 1 0) (ptr 0 2) 3 2 byFirst (memI [7, 7, 2, 1, 1, 8, 2, 0, 9]) = .ok () m' ∧
      m'.bytes 0 = [7, 7, 1, 8, 2, 1, 2, 0, 9]) ∧
    insertionSort (ptr 1 0) (ptr 0 0) 3 2 byFirst (memI [2, 1, 1, 8, 2, 0]) = .ub .oobRead ∧
    ∃ m', insertionSort (ptr 1 0) (ptr 0 0) 3 2 byFirst (memI [1, 1, 3, 8, 2, 0]) = .ok () m' ∧
      m'.bytes 0 = [1, 1, 2, 0, 3, 8] :=
  ⟨⟨by decide, by decide, by decide, by decide⟩, ⟨_, rfl, by decide⟩, rfl, _, rfl, by decide⟩

/-! ### Heap sort -/

/-- An array of `n` elements with readable memory up to element index `2n`. -/
structure HeapSetup (m : Mem) (b o sz n : Nat) : Prop where
  sz_lt : sz < 2 ^ 31
  n_lt : 2 * n + 1 < 2 ^ 31
  lim : 2 * n * sz < 2 ^ 31
  room : o + (2 * n + 1) * sz ≤ (m.bytes b).length

theorem heap_all (m : Mem) (b o sz n fuel : Nat) (cmp : Cmp) (h : HeapSetup m b o sz n) (hfu : n < 2 ^ fuel) :
    ∃ m', heapSort fuel (ptr b o) n sz cmp m = .ok () m' ∧ OnlyChanged m m' b o (n * sz) ∧
      (elems (m.bytes b) o sz n).Perm (elems (m'.bytes b) o sz n) ∧
      (StrictWeak cmp → Sorted cmp (elems (m'.bytes b) o sz n)) := by
  have hl := elems_length (m.bytes b) o sz (2 * n + 1)
  have hf := elems_fits (sz := sz) (n := 2 * n + 1) h.room
  obtain ⟨l, h1, h2, h3, h4⟩ := heapSort_run cmp (m0 := m) (b := b) (o := o) h.sz_lt hf
    (by rw [hl]; exact h.lim) (by rw [hl]; exact h.n_lt) n fuel (by rw [hl]; omega) hfu
  rw [arr_elems h.room] at h1
  have hf' := hf.perm h2
  have hll : l.length = 2 * n + 1 := by rw [← h2.length_eq, hl]
  have he : elems ((arr m b o l).bytes b) o sz n = l.take n := elems_arr hf' n (by omega)
  have he0 : elems (m.bytes b) o sz n = (elems (m.bytes b) o sz (2 * n + 1)).take n := by
    have := elems_arr hf n (by rw [hl]; omega)
    rw [arr_elems h.room] at this
    exact this
  refine ⟨_, h1, arr_onlyChanged h.room hf' n hll (by omega) h3.2, ?_, ?_⟩
  · rw [he, he0]
    have hd : l.drop n = (elems (m.bytes b) o sz (2 * n + 1)).drop n := by
      apply List.ext_getElem?
      intro k
      rw [List.getElem?_drop, List.getElem?_drop]
      by_cases hk : n + k < 2 * n + 1
      · rw [getElem?_getD [] (by omega), getElem?_getD [] (by rw [hl]; omega), h3.2 _ (by omega)]
      · rw [List.getElem?_eq_none (by omega), List.getElem?_eq_none (by rw [hl]; omega)]
    have hp := h2
    rw [← List.take_append_drop n (elems (m.bytes b) o sz (2 * n + 1)), ← List.take_append_drop n l, hd] at hp
    exact (List.perm_append_right_iff _).mp hp
  · intro hw
    rw [he, sorted_iff]
    intro p q hpq hq
    rw [List.length_take, hll] at hq
    have := h4 hw p q hpq (by omega)
    have e : ∀ k, k < n → (l.take n).getD k [] = l.getD k [] := by
      intro k hk
      simp only [List.getD_eq_getElem?_getD, List.getElem?_take, if_pos hk]
    rw [e p (by omega), e q (by omega)]
    exact this

/-- C41: heap sort sorts if the memory up to element index `2n` is readable, and changes only the array; every
`Heapify` ends within `⌊log2 n⌋ + 1` rounds. -/
theorem C41_heap_sorts (m : Mem) (b o sz n fuel : Nat) (cmp : Cmp) (hw : StrictWeak cmp)
    (h : HeapSetup m b o sz n) (hfu : n < 2 ^ fuel) :
    ∃ m', heapSort fuel (ptr b o) n sz cmp m = .ok () m' ∧ OnlyChanged m m' b o (n * sz) ∧
      (elems (m.bytes b) o sz n).Perm (elems (m'.bytes b) o sz n) ∧ Sorted cmp (elems (m'.bytes b) o sz n) := by
  obtain ⟨m', h1, h2, h3, h4⟩ := heap_all m b o sz n fuel cmp h hfu
  exact ⟨m', h1, h2, h3, h4 hw⟩

/-- C43: with any comparator heap sort ends, permutes the elements and changes nothing else. -/
theorem C43_heap_any (m : Mem) (b o sz n fuel : Nat) (cmp : Cmp) (h : HeapSetup m b o sz n) (hfu : n < 2 ^ fuel) :
    ∃ m', heapSort fuel (ptr b o) n sz cmp m = .ok () m' ∧ OnlyChanged m m' b o (n * sz) ∧
      (elems (m.bytes b) o sz n).Perm (elems (m'.bytes b) o sz n) := by
  obtain ⟨m', h1, h2, h3, -⟩ := heap_all m b o sz n fuel cmp h hfu
  exact ⟨m', h1, h2, h3⟩

theorem compareAt_oob_left (cmp : Cmp) {b o sz i j : Nat} {m : Mem} (hsz : 0 < sz) (hi : i * sz < 2 ^ 31)
    (hj : j * sz < 2 ^ 31) (h : (m.bytes b).length < o + i * sz + sz) :
    compareAt cmp (ptr b o) sz i j m = .ub .oobRead := by
  unfold compareAt
  rw [C.bind_ok (elemAt_ok hi _), C.bind_ok (elemAt_ok hj _)]
  unfold compareFun
  rw [Int.toNat_natCast, C.bind_ub (loadN_oob hsz h)]

/-- C44: on an exactly sized buffer of one element heap sort reads behind the buffer. -/
theorem C44_heap_oob_one (m : Mem) (b o sz fuel : Nat) (cmp : Cmp) (hsz : 0 < sz) (hlt : sz < 2 ^ 31)
    (hlen : (m.bytes b).length = o + sz) (hfu : 1 ≤ fuel) :
    heapSort fuel (ptr b o) 1 sz cmp m = .ub .oobRead := by
  have hf := elems_fits (m := m) (b := b) (o := o) (sz := sz) (n := 1) (by omega)
  have he := arr_elems (m := m) (b := b) (o := o) (sz := sz) (n := 1) (by omega)
  have hl := elems_length (m.bytes b) o sz 1
  obtain ⟨fuel, rfl⟩ : ∃ f, fuel = f + 1 := ⟨fuel - 1, by omega⟩
  have hsw := swapElems_ok hf hlt (i := 0) (j := 0) (by simp) (by simp) (by omega) (by omega)
  have hlen' : ((arr m b o (swapAt (elems (m.bytes b) o sz 1) 0 0)).bytes b).length = o + sz := by
    rw [arr_length (hf.perm (swapAt_perm _ 0 0)), hlen]
  rw [he, Int.natCast_zero] at hsw
  have hub := compareAt_oob_left cmp (b := b) (o := o) (i := 1) (j := 0) (m := arr m b o (swapAt (elems (m.bytes b) o sz 1) 0 0))
    hsz (by omega) (by omega) (by omega)
  unfold heapSort
  rw [C.bind_ok (i32_ok (by decide) (by decide) _)]
  have h0 : (Int.tdiv 1 2 - 1 + 1).toNat = 0 := by decide
  have h1 : ((1 : Int) - 1 + 1).toNat = 0 + 1 := by decide
  rw [h0, C.bind_ok (forDown_zero _ _ _), C.bind_ok (i32_ok (by decide) (by decide) _), h1, forDown_succ,
    Int.natCast_zero, C.bind_ok hsw, heapifyLoop, C.bind_ok (i32_ok (by decide) (by decide) _),
    C.bind_ok (i32_ok (by decide) (by decide) _), C.bind_ok (i32_ok (by decide) (by decide) _)]
  have e1 : ((2 : Int) * 0 + 1) = ((1 : Nat) : Int) := by decide
  rw [e1]
  rw [Int.natCast_zero] at hub
  rw [C.bind_ub hub]

/-- C44: on an exactly sized buffer of an even number of elements heap sort reads behind the buffer. -/
theorem C44_heap_oob_even (m : Mem) (b o sz k fuel : Nat) (cmp : Cmp) (hsz : 0 < sz) (hk : 1 ≤ k)
    (hn : 2 * k < 2 ^ 31) (hlim : 2 * k * sz < 2 ^ 31) (hlen : (m.bytes b).length = o + 2 * k * sz) (hfu : 1 ≤ fuel) :
    heapSort fuel (ptr b o) (2 * k : Nat) sz cmp m = .ub .oobRead := by
  have hf := elems_fits (m := m) (b := b) (o := o) (sz := sz) (n := 2 * k) (by omega)
  have he := arr_elems (m := m) (b := b) (o := o) (sz := sz) (n := 2 * k) (by omega)
  have hl := elems_length (m.bytes b) o sz (2 * k)
  have lim : ∀ i, i ≤ 2 * k → i * sz < 2 ^ 31 := fun i hi =>
    Nat.lt_of_le_of_lt (Nat.mul_le_mul_right _ hi) hlim
  obtain ⟨fuel, rfl⟩ : ∃ f, fuel = f + 1 := ⟨fuel - 1, by omega⟩
  unfold heapSort
  have hd : (((2 * k : Nat) : Int).tdiv 2) = (k : Int) := by
    rw [Int.tdiv_eq_ediv_of_nonneg (by omega)]; omega
  rw [hd, C.bind_ok (i32_ok (by omega) (by omega) _)]
  obtain ⟨q, rfl⟩ : ∃ q, k = q + 1 := ⟨k - 1, by omega⟩
  have h0 : (((q + 1 : Nat) : Int) - 1 + 1).toNat = q + 1 := by omega
  have hbody : heapifyLoop cmp (ptr b o) ((2 * (q + 1) : Nat) : Int) sz (fuel + 1) (q : Int) m = .ub .oobRead := by
    rw [heapifyLoop, C.bind_ok (i32_ok (by omega) (by omega) _), C.bind_ok (i32_ok (by omega) (by omega) _),
      C.bind_ok (i32_ok (by omega) (by omega) _)]
    have eL : ((2 : Int) * (q : Int) + 1) = ((2 * q + 1 : Nat) : Int) := by omega
    have eR : ((2 : Int) * (q : Int) + 2) = ((2 * q + 2 : Nat) : Int) := by omega
    rw [eL, eR]
    have gx := getElem?_getD (l := elems (m.bytes b) o sz (2 * (q + 1))) [] (show q < _ by omega)
    have gl := getElem?_getD (l := elems (m.bytes b) o sz (2 * (q + 1))) [] (show 2 * q + 1 < _ by omega)
    have hc := compareAt_ok cmp hf (lim _ (by omega)) (lim _ (by omega)) gl gx
    rw [he] at hc
    rw [C.bind_ok hc]
    have hub : ∀ j, j ≤ 2 * (q + 1) → compareAt cmp (ptr b o) sz ((2 * q + 2 : Nat) : Int) ((j : Nat) : Int) m = .ub .oobRead :=
      fun j hj => compareAt_oob_left cmp hsz (lim _ (by omega)) (lim j hj) (by
        rw [hlen, show 2 * (q + 1) = 2 * q + 2 by omega]; omega)
    by_cases hb : ((2 * q + 1 : Nat) : Int) < ((2 * (q + 1) : Nat) : Int) ∧
        cmp ((elems (m.bytes b) o sz (2 * (q + 1))).getD (2 * q + 1) [])
          ((elems (m.bytes b) o sz (2 * (q + 1))).getD q []) = true
    · rw [if_pos hb]; exact C.bind_ub (hub _ (by omega))
    · rw [if_neg hb]; exact C.bind_ub (hub _ (by omega))
  rw [h0]
  apply C.bind_ub
  rw [forDown_succ, hbody]

/-- C44: for three or more elements, an odd number of them, this depends on the contents: [1, 2, 3] is
undefined, three tied elements are sorted. -/
theorem C44_heap_odd_depends :
    heapSort 9 (ptr 0 0) 3 1 byFirst (mem1 [1, 2, 3]) = .ub .oobRead ∧
    ∃ m', heapSort 9 (ptr 0 0) 3 1 byFirst (mem1 [5, 5, 5]) = .ok () m' ∧ m'.bytes 0 = [5, 5, 5] :=
  ⟨rfl, _, rfl, by decide⟩

/-- C42, the other side: heap sort is not stable. -/
theorem C42_heap_unstable : ∃ m', heapSort 2 (ptr 0 0) 2 2 byFirst (mem1 [2, 0, 2, 1, 0, 0, 0, 0, 0, 0]) = .ok () m' ∧
    ¬ SameTies byFirst (elems [2, 0, 2, 1, 0, 0, 0, 0, 0, 0] 0 2 2) (elems (m'.bytes 0) 0 2 2) := by
  refine ⟨_, rfl, ?_⟩
  intro h
  have := h [2, 0]
  revert this
  decide

/-- Non-vacuity: three elements with four readable elements behind them. -/
example : HeapSetup (mem1 [2, 1, 1, 8, 0, 0, 9, 9, 9, 9, 9, 9, 9, 9]) 0 0 2 3 ∧
    outBytes (heapSort 3 (ptr 0 0) 3 2 byFirst (mem1 [2, 1, 1, 8, 0, 0, 9, 9, 9, 9, 9, 9, 9, 9])) 0 =
      some [0, 0, 1, 8, 2, 1, 9, 9, 9, 9, 9, 9, 9, 9] :=
  ⟨⟨by decide, by decide, by decide, by decide⟩, by decide +kernel⟩

/-! ### C46 -/

/-- C46: bubble sort leaves a sorted array unchanged. -/
theorem C46_bubble_idempotent (m : Mem) (b o sz n fuel : Nat) (cmp : Cmp) (hw : StrictWeak cmp)
    (h : ArraySetup m b o sz n) (hfu : n ≤ fuel) (hfu1 : 1 ≤ fuel) (hs : Sorted cmp (elems (m.bytes b) o sz n)) :
    ∃ m', bubbleSort fuel (ptr b o) n sz cmp m = .ok () m' ∧
      elems (m'.bytes b) o sz n = elems (m.bytes b) o sz n := by
  obtain ⟨m', h1, -, -, h4⟩ := bubble_all m b o sz n fuel cmp h hfu hfu1
  obtain ⟨h5, h6⟩ := h4 hw
  exact ⟨m', h1, (sorted_ties_unique hw _ _ hs h5 h6).symm⟩

/-- C46: selection sort leaves a sorted array, and all memory, unchanged. -/
theorem C46_selection_idempotent (m : Mem) (b o sz n : Nat) (cmp : Cmp) (h : ArraySetup m b o sz n)
    (hs : Sorted cmp (elems (m.bytes b) o sz n)) : selectionSort (ptr b o) n sz cmp m = .ok () m := by
  obtain ⟨m', h1, -, -, -, h4⟩ := selection_all m b o sz n cmp h
  rw [h1, h4 hs]

/-- C46: insertion sort leaves a sorted array unchanged; nothing before it is read. -/
theorem C46_insertion_idempotent (m : Mem) (st b o sz n : Nat) (cmp : Cmp) (hw : StrictWeak cmp)
    (h : ArraySetup m b o sz n) (hst : st ≠ b) (hst64 : (m.bytes st).length = 64) (h64 : sz ≤ 64)
    (hs : Sorted cmp (elems (m.bytes b) o sz n)) :
    ∃ m', insertionSort (ptr st 0) (ptr b o) n sz cmp m = .ok () m' ∧
      elems (m'.bytes b) o sz n = elems (m.bytes b) o sz n := by
  have hnm : ¬ HasNewMinimum cmp (elems (m.bytes b) o sz n) := by
    rintro ⟨k, h1, h2, h3⟩
    have := sorted_iff.mp hs 0 k h1 h2
    rw [h3 0 h1] at this
    exact absurd this (by simp)
  obtain ⟨m', X, h1, h2, h3, h4, h5, h6⟩ := (insertion_all m st b o sz n cmp h hst hst64 h64).1 (.inr hnm)
  obtain ⟨h7, h8⟩ := h6 hw
  exact ⟨m', h1, (sorted_ties_unique hw _ _ hs h7 h8).symm⟩

/-- C46: the two stable sorts always agree. -/
theorem C46_stable_agree (m : Mem) (st b o sz n fuel : Nat) (cmp : Cmp) (hw : StrictWeak cmp)
    (h : ArraySetup m b o sz n) (hfu : n ≤ fuel) (hfu1 : 1 ≤ fuel) (hst : st ≠ b) (hst64 : (m.bytes st).length = 64)
    (h64 : sz ≤ 64) (ho : sz ≤ o) :
    ∃ m1 m2, bubbleSort fuel (ptr b o) n sz cmp m = .ok () m1 ∧
      insertionSort (ptr st 0) (ptr b o) n sz cmp m = .ok () m2 ∧
      elems (m1.bytes b) o sz n = elems (m2.bytes b) o sz n := by
  obtain ⟨m1, h1, -, -, h4⟩ := bubble_all m b o sz n fuel cmp h hfu hfu1
  obtain ⟨m2, X, g1, -, -, -, -, g6⟩ := (insertion_all m st b o sz n cmp h hst hst64 h64).1 (.inl ho)
  refine ⟨m1, m2, h1, g1, sorted_ties_unique hw _ _ (h4 hw).1 (g6 hw).1 ?_⟩
  intro x
  exact ((h4 hw).2 x).symm.trans ((g6 hw).2 x)

/-- C46: if tied elements are identical, all four sorts produce the same array. -/
theorem C46_all_agree (m : Mem) (st b o sz n fuel : Nat) (cmp : Cmp) (hw : StrictWeak cmp)
    (hid : ∀ x y, tied cmp x y = true → x = y)
    (h : HeapSetup m b o sz n) (hfu : n ≤ fuel) (hfu1 : 1 ≤ fuel) (hst : st ≠ b) (hst64 : (m.bytes st).length = 64)
    (h64 : sz ≤ 64) (ho : sz ≤ o) :
    ∃ m1 m2 m3 m4, bubbleSort fuel (ptr b o) n sz cmp m = .ok () m1 ∧
      selectionSort (ptr b o) n sz cmp m = .ok () m2 ∧
      insertionSort (ptr st 0) (ptr b o) n sz cmp m = .ok () m3 ∧
      heapSort fuel (ptr b o) n sz cmp m = .ok () m4 ∧
      elems (m2.bytes b) o sz n = elems (m1.bytes b) o sz n ∧
      elems (m3.bytes b) o sz n = elems (m1.bytes b) o sz n ∧
      elems (m4.bytes b) o sz n = elems (m1.bytes b) o sz n := by
  have ha : ArraySetup m b o sz n := by
    refine ⟨h.sz_lt, ?_, ?_, ?_⟩
    · have := h.n_lt; omega
    · exact Nat.lt_of_le_of_lt (Nat.mul_le_mul_right _ (by omega)) h.lim
    · have h1 : n * sz ≤ (2 * n + 1) * sz := Nat.mul_le_mul_right _ (by omega)
      have := h.room
      omega
  obtain ⟨m1, a1, -, a2, a3⟩ := bubble_all m b o sz n fuel cmp ha hfu hfu1
  obtain ⟨m2, b1, -, b2, b3, -⟩ := selection_all m b o sz n cmp ha
  obtain ⟨m3, X, c1, -, -, -, c2, c3⟩ := (insertion_all m st b o sz n cmp ha hst hst64 h64).1 (.inl ho)
  obtain ⟨m4, d1, -, d2, d3⟩ := heap_all m b o sz n fuel cmp h (Nat.lt_of_le_of_lt hfu Nat.lt_two_pow_self)
  exact ⟨m1, m2, m3, m4, a1, b1, c1, d1,
    sorted_perm_unique hid (b3 hw) (a3 hw).1 (b2.symm.trans a2),
    sorted_perm_unique hid (c3 hw).1 (a3 hw).1 (c2.symm.trans a2),
    sorted_perm_unique hid (d3 hw) (a3 hw).1 (d2.symm.trans a2)⟩

/-- Lexicographic order: a comparator whose ties are identical. -/
def lexGt : Cmp
  | [], _ => false
  | _ :: _, [] => true
  | x :: a, y :: b => decide (y.toNat < x.toNat) || (x == y && lexGt a b)

/-- Non-vacuity of the hypotheses of `C46_all_agree`. -/
theorem lexGt_ok : StrictWeak lexGt ∧ ∀ x y, tied lexGt x y = true → x = y := by
  have key : ∀ a b, lexGt a b = false → lexGt b a = false → a = b := by
    intro a
    induction a with
    | nil => intro b _ h; cases b with
      | nil => rfl
      | cons y b => simp [lexGt] at h
    | cons x a ih => intro b h1 h2; cases b with
      | nil => simp [lexGt] at h1
      | cons y b =>
        simp only [lexGt, Bool.or_eq_false_iff, decide_eq_false_iff_not] at h1 h2
        have hxy : x = y := BitVec.eq_of_toNat_eq (by omega)
        subst hxy
        simp only [beq_self_eq_true, Bool.true_and] at h1 h2
        rw [ih b h1.2 h2.2]
  refine ⟨⟨?_, ?_⟩, ?_⟩
  · intro a
    induction a with
    | nil => intro b h; simp [lexGt] at h
    | cons x a ih => intro b h; cases b with
      | nil => rfl
      | cons y b =>
        simp only [lexGt, Bool.or_eq_true, decide_eq_true_eq, Bool.and_eq_true, beq_iff_eq] at h
        simp only [lexGt, Bool.or_eq_false_iff, decide_eq_false_iff_not, Bool.and_eq_false_iff]
        rcases h with h | ⟨rfl, h⟩
        · exact ⟨by omega, .inl (by simp; intro e; subst e; omega)⟩
        · exact ⟨by omega, .inr (ih b h)⟩
  · intro a
    induction a with
    | nil => intro b c _ _; rfl
    | cons x a ih =>
      intro b c h1 h2
      cases b with
      | nil => simp [lexGt] at h1
      | cons y b => cases c with
        | nil => simp [lexGt] at h2
        | cons z c =>
          simp only [lexGt, Bool.or_eq_false_iff, decide_eq_false_iff_not, Bool.and_eq_false_iff] at *
          refine ⟨by omega, ?_⟩
          by_cases hxz : x = z
          · subst hxz
            right
            have hxy : x = y := BitVec.eq_of_toNat_eq (by omega)
            subst hxy
            simp only [beq_self_eq_true, Bool.true_eq_false, false_or] at h1 h2
            exact ih b c h1.2 h2.2
          · left; simpa using hxz
  · intro x y h
    simp only [tied, Bool.and_eq_true, Bool.not_eq_true'] at h
    exact key x y h.1 h.2

end IMU.Props
