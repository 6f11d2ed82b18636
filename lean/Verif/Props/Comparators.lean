import Verif.Proofs.Comparators
import Verif.Props.SortElems

/-!
# Property C87: sorting numbers with the comparators of the tests
-/

namespace IMU.Props
open Spec Utils IMU.Sort

/-- The four sorts with comparator `cmp` on `n` elements of `sz` bytes at byte `o` of object `b`: each leaves
the elements by ascending `value`.  (Insertion sort with its static object `st`.) -/
def AllSortNumbers (cmp : Cmp) (value : List Byte → Int) (m : Mem) (b o sz n : Nat) : Prop :=
  (ArraySetup m b o sz n → ∀ fuel, n ≤ fuel → 1 ≤ fuel → ∃ m', bubbleSort fuel (ptr b o) n sz cmp m = .ok () m' ∧
    OnlyChanged m m' b o (n * sz) ∧ SortedNumbers value (elems (m.bytes b) o sz n) (elems (m'.bytes b) o sz n)) ∧
  (ArraySetup m b o sz n → ∃ m', selectionSort (ptr b o) n sz cmp m = .ok () m' ∧
    OnlyChanged m m' b o (n * sz) ∧ SortedNumbers value (elems (m.bytes b) o sz n) (elems (m'.bytes b) o sz n)) ∧
  (ArraySetup m b o sz n → ∀ st, st ≠ b → (m.bytes st).length = 64 → sz ≤ o →
    ∃ m' X, insertionSort (ptr st 0) (ptr b o) n sz cmp m = .ok () m' ∧ OnlyChanged (m.upd st X) m' b o (n * sz) ∧
      SortedNumbers value (elems (m.bytes b) o sz n) (elems (m'.bytes b) o sz n)) ∧
  (HeapSetup m b o sz n → ∀ fuel, n < 2 ^ fuel → ∃ m', heapSort fuel (ptr b o) n sz cmp m = .ok () m' ∧
    OnlyChanged m m' b o (n * sz) ∧ SortedNumbers value (elems (m.bytes b) o sz n) (elems (m'.bytes b) o sz n))

theorem allSortNumbers {cmp : Cmp} {value : List Byte → Int} {m : Mem} {b o sz n : Nat} (h64 : sz ≤ 64)
    (h : o + n * sz ≤ (m.bytes b).length → ∀ x ∈ elems (m.bytes b) o sz n, ∀ y ∈ elems (m.bytes b) o sz n,
      cmp x y = decide (value y < value x)) : AllSortNumbers cmp value m b o sz n := by
  refine ⟨?_, ?_, ?_, ?_⟩
  · intro hs fuel hf hf1
    have hv := h hs.room
    obtain ⟨m', h1, h2, h3, h4, -⟩ := C86_bubble_elements m b o sz n fuel cmp (strictWeakOn_value hv) hs hf hf1
    exact ⟨m', h1, h2, sortedNumbers_of hv h3 h4⟩
  · intro hs
    have hv := h hs.room
    obtain ⟨m', h1, h2, h3, h4⟩ := C86_selection_elements m b o sz n cmp (strictWeakOn_value hv) hs
    exact ⟨m', h1, h2, sortedNumbers_of hv h3 h4⟩
  · intro hs st hst hl ho
    have hv := h hs.room
    obtain ⟨m', X, h1, -, -, h2, h3, h4, -⟩ :=
      C86_insertion_elements m st b o sz n cmp (strictWeakOn_value hv) hs hst hl h64 ho
    exact ⟨m', X, h1, h2, sortedNumbers_of hv h3 h4⟩
  · intro hs fuel hf
    have hr : n * sz ≤ (2 * n + 1) * sz := Nat.mul_le_mul_right _ (by omega)
    have hv := h (by have := hs.room; omega)
    obtain ⟨m', h1, h2, h3, h4⟩ := C86_heap_elements m b o sz n fuel cmp (strictWeakOn_value hv) hs hf
    exact ⟨m', h1, h2, sortedNumbers_of hv h3 h4⟩

/-- C87: with `CompareInt32` the four sorts put `int32_t` numbers into ascending order. -/
theorem C87_int32_sorted (m : Mem) (b o n : Nat) : AllSortNumbers compareInt32 int32Value m b o 4 n :=
  allSortNumbers (by omega) fun hr x hx y hy =>
    compareInt32_eq x y ((elems_fits hr).chunks x hx) ((elems_fits hr).chunks y hy)

/-- C87: with `CompareUint64` the four sorts put `uint64_t` numbers into ascending order. -/
theorem C87_uint64_sorted (m : Mem) (b o n : Nat) : AllSortNumbers compareUint64 uint64Value m b o 8 n :=
  allSortNumbers (by omega) fun hr x hx y hy =>
    compareUint64_eq x y ((elems_fits hr).chunks x hx) ((elems_fits hr).chunks y hy)

/-- C87: with `CompareFloat64` the four sorts put `double`s none of which is a NaN into ascending order; the
bytes around the array, which heap sort and insertion sort hand to the comparator as well, may be NaNs. -/
theorem C87_float64_sorted (m : Mem) (b o n : Nat) (hn : ∀ x ∈ elems (m.bytes b) o 8 n, ¬ f64NaN x) :
    AllSortNumbers compareFloat64 f64Value m b o 8 n :=
  allSortNumbers (by omega) fun hr x hx y hy =>
    compareFloat64_eq x y ((elems_fits hr).chunks x hx) ((elems_fits hr).chunks y hy) (hn x hx) (hn y hy)

/-- C87: the sorted array is determined, byte for byte, by the integers sorted: no two of the sorts can
disagree. -/
theorem C87_integers_unique (sz : Nat) (before after after' : List (List Byte)) (hc : ∀ x ∈ before, x.length = sz) :
    (sz = 4 → SortedNumbers int32Value before after → SortedNumbers int32Value before after' → after = after') ∧
    (SortedNumbers uint64Value before after → SortedNumbers uint64Value before after' → after = after') := by
  constructor
  · intro hsz
    apply sortedNumbers_unique
    intro a ha b hb hv
    have la := valueLE_lt a
    have lb := valueLE_lt b
    rw [hc a ha, hsz] at la
    rw [hc b hb, hsz] at lb
    apply Utils.valueLE_inj a b (by rw [hc a ha, hc b hb])
    unfold int32Value at hv
    split at hv <;> split at hv <;> omega
  · apply sortedNumbers_unique
    intro a ha b hb hv
    apply Utils.valueLE_inj a b (by rw [hc a ha, hc b hb])
    unfold uint64Value at hv
    omega

/-- Bubble sort leaves memory unchanged if no element is greater than the next one, whatever the comparator. -/
theorem bubble_unchanged (m : Mem) (b o sz n fuel : Nat) (cmp : Cmp) (h : ArraySetup m b o sz n) (hfu1 : 1 ≤ fuel)
    (hc : (elems (m.bytes b) o sz n).IsChain fun x y => cmp x y = false) :
    bubbleSort fuel (ptr b o) n sz cmp m = .ok () m := by
  have hl := elems_length (m.bytes b) o sz n
  have hf := elems_fits (sz := sz) (n := n) h.room
  have hn := h.n_lt
  obtain ⟨fuel, rfl⟩ : ∃ f, fuel = f + 1 := ⟨fuel - 1, by omega⟩
  unfold bubbleSort
  rw [bubbleLoop, C.bind_ok (i32_ok (by omega) (by omega) _), C.bind_ok (i32_ok (by omega) (by omega) _)]
  have hp : bubblePass cmp (ptr b o) sz ((n : Int) - 0 - 1) m = .ok false m := by
    unfold bubblePass
    rw [show ((n : Int) - 0 - 1).toNat = n - 1 by omega]
    cases hE : elems (m.bytes b) o sz n with
    | nil =>
      have hn0 : n = 0 := by rw [← hl, hE]; rfl
      subst hn0
      rfl
    | cons x B =>
      have hn1 : n = B.length + 1 := by rw [← hl, hE]; rfl
      have h1 := bubblePass_run cmp (m0 := m) (b := b) (o := o) h.sz_lt (n - 1) [] x B false (by omega)
        (by rw [List.nil_append, ← hE]; exact hf) (by rw [List.nil_append, ← hE, hl]; exact h.lim)
      rw [hE] at hc
      rw [bpass_id _ x B hc] at h1
      simp only [List.length_nil, List.nil_append, Bool.or_false] at h1
      rw [← hE, arr_elems h.room] at h1
      exact h1
  rw [C.bind_ok hp, C.bind_ok (i32_ok (by omega) (by omega) _)]
  rfl

/-- C87, where it ends: NaNs keep bubble sort from comparing what they separate.  If of any two neighbours one
is a NaN, the array stays as it is, whatever the other elements are. -/
theorem C87_float64_nan (m : Mem) (b o n fuel : Nat) (h : ArraySetup m b o 8 n) (hfu1 : 1 ≤ fuel)
    (hn : (elems (m.bytes b) o 8 n).IsChain fun x y => f64NaN x ∨ f64NaN y) :
    bubbleSort fuel (ptr b o) n 8 compareFloat64 m = .ok () m := by
  have hch := (elems_fits (m := m) (b := b) (o := o) (sz := 8) (n := n) h.room).chunks
  apply bubble_unchanged m b o 8 n fuel compareFloat64 h hfu1
  revert hn hch
  generalize elems (m.bytes b) o 8 n = l
  intro hn hch
  induction l with
  | nil => exact .nil
  | cons x l ih =>
    cases l with
    | nil => exact .singleton _
    | cons y l =>
      rw [List.isChain_cons_cons] at hn ⊢
      exact ⟨compareFloat64_nan x y (hch x (by simp)) (hch y (by simp)) hn.1,
        ih hn.2 (fun z hz => hch z (by simp [hz]))⟩

/-- -5, 7, -6 as `int32_t`. -/
def threeInts : List Byte := [0xfb, 0xff, 0xff, 0xff, 7, 0, 0, 0, 0xfa, 0xff, 0xff, 0xff]

example : ArraySetup (mem1 threeInts) 0 0 4 3 ∧
    (elems threeInts 0 4 3).map int32Value = [-5, 7, -6] ∧
    (match bubbleSort 3 (ptr 0 0) 3 4 compareInt32 (mem1 threeInts) with
      | .ok _ m' => (elems (m'.bytes 0) 0 4 3).map int32Value
      | .ub _ => []) = [-6, -5, 7] :=
  ⟨⟨by decide, by decide, by decide, by decide⟩, by decide, by decide +kernel⟩

/-- 2.0, NaN, 1.0 as `double`. -/
def twoNanOne : List Byte :=
  [0, 0, 0, 0, 0, 0, 0, 0x40, 1, 0, 0, 0, 0, 0, 0xf0, 0x7f, 0, 0, 0, 0, 0, 0, 0xf0, 0x3f]

/-- The case `2.0, NaN, 1.0`: left unsorted. -/
example : ArraySetup (mem1 twoNanOne) 0 0 8 3 ∧
    ((elems twoNanOne 0 8 3).IsChain fun x y => f64NaN x ∨ f64NaN y) ∧
    f64Value (slice twoNanOne 16 8) < f64Value (slice twoNanOne 0 8) := by
  have hv : f64Value ([0, 0, 0, 0, 0, 0, 0xf0, 0x3f] : List Byte) < f64Value ([0, 0, 0, 0, 0, 0, 0, 0x40] : List Byte) := by
    decide +kernel
  refine ⟨⟨by decide, by decide, by decide, by decide⟩, ?_, hv⟩
  have hn : f64NaN (slice twoNanOne 8 8) := by unfold f64NaN; decide +kernel
  have he : elems twoNanOne 0 8 3 = [slice twoNanOne 0 8, slice twoNanOne 8 8, slice twoNanOne 16 8] := by rfl
  rw [he, List.isChain_cons_cons, List.isChain_cons_cons]
  exact ⟨.inr hn, .inl hn, .singleton _⟩

/-- -0.0, 1.5, -infinity, 5e-324: no NaN; in the order of their values. -/
example :
    let zero : List Byte := [0, 0, 0, 0, 0, 0, 0, 0x80]
    let oneAndHalf : List Byte := [0, 0, 0, 0, 0, 0, 0xf8, 0x3f]
    let minusInf : List Byte := [0, 0, 0, 0, 0, 0, 0xf0, 0xff]
    let tiny : List Byte := [1, 0, 0, 0, 0, 0, 0, 0]
    ¬ f64NaN zero ∧ ¬ f64NaN oneAndHalf ∧ ¬ f64NaN minusInf ∧ ¬ f64NaN tiny ∧
    f64Value zero = 0 ∧ f64Value tiny = 1 ∧ f64Value oneAndHalf = 3 * 2 ^ 1073 ∧ f64Value minusInf = - 2 ^ 2098 := by
  unfold f64NaN
  decide +kernel

end IMU.Props
