import Verif.Proofs.SortInsertion
import Verif.Proofs.SortHeap
import Verif.Spec.Frame

namespace IMU.Sort
open Spec Utils

theorem elems_length (B : List Byte) (o sz n : Nat) : (elems B o sz n).length = n := by simp [elems]

theorem elems_get {B : List Byte} {o sz n k : Nat} (hk : k < n) :
    (elems B o sz n)[k]? = some (slice B (o + k * sz) sz) := by simp [elems, hk]

theorem elems_fits {m : Mem} {b o sz n : Nat} (h : o + n * sz ≤ (m.bytes b).length) :
    Fits m b o sz (elems (m.bytes b) o sz n) := by
  refine ⟨?_, by rw [elems_length]; exact h⟩
  intro x hx
  simp only [elems, List.mem_map, List.mem_range] at hx
  obtain ⟨k, hk, rfl⟩ := hx
  have : k * sz + sz ≤ n * sz := by rw [← Nat.succ_mul]; exact Nat.mul_le_mul_right _ hk
  exact slice_length _ _ _ (by omega)

theorem elems_succ (B : List Byte) (o sz n : Nat) :
    elems B o sz (n + 1) = elems B o sz n ++ [slice B (o + n * sz) sz] := by
  simp [elems, List.range_succ]

theorem slice_add {α} (l : List α) (o n k : Nat) : slice l o (n + k) = slice l o n ++ slice l (o + n) k := by
  simp [slice, List.take_add]

theorem elems_flatten (B : List Byte) (o sz n : Nat) : (elems B o sz n).flatten = slice B o (n * sz) := by
  induction n with
  | zero => simp [elems, slice]
  | succ n ih =>
    rw [elems_succ, List.flatten_append, ih, Nat.succ_mul, slice_add]
    simp

theorem splice_self {α} (l : List α) (o n : Nat) (h : o + n ≤ l.length) : splice l o (slice l o n) = l := by
  apply List.ext_getElem?; intro k
  have hl := slice_length l o n h
  rw [getElem?_splice _ _ _ (by omega), getElem?_slice, hl]
  split
  · rfl
  · split
    · rw [if_pos (by omega)]; congr 1; omega
    · rfl

theorem arr_elems {m : Mem} {b o sz n : Nat} (h : o + n * sz ≤ (m.bytes b).length) :
    arr m b o (elems (m.bytes b) o sz n) = m := by
  unfold arr
  rw [elems_flatten, splice_self _ _ _ h]
  simp

theorem elems_arr {m : Mem} {b o sz : Nat} {l : List (List Byte)} (h : Fits m b o sz l) (n : Nat) (hn : n ≤ l.length) :
    elems ((arr m b o l).bytes b) o sz n = l.take n := by
  apply List.ext_getElem?
  intro k
  by_cases hk : k < n
  · rw [elems_get hk, List.getElem?_take, if_pos hk, List.getElem?_eq_getElem (by omega)]
    congr 1
    exact arr_slice h (List.getElem?_eq_getElem (by omega))
  · rw [List.getElem?_eq_none (by rw [elems_length]; omega), List.getElem?_eq_none (by rw [List.length_take]; omega)]

/-- Only the bytes of items that differ change. -/
theorem arr_onlyChanged {m : Mem} {b o sz N : Nat} {l : List (List Byte)} (hr : o + N * sz ≤ (m.bytes b).length)
    (hf : Fits m b o sz l) (n : Nat) (hl : l.length = N) (hnN : n ≤ N)
    (h : ∀ p, n ≤ p → l.getD p [] = (elems (m.bytes b) o sz N).getD p []) :
    OnlyChanged m (arr m b o l) b o (n * sz) := by
  have hd : l.drop n = (elems (m.bytes b) o sz N).drop n := by
    apply List.ext_getElem?
    intro k
    rw [List.getElem?_drop, List.getElem?_drop]
    by_cases hk : n + k < N
    · rw [getElem?_getD [] (by omega), getElem?_getD [] (by rw [elems_length]; omega), h _ (by omega)]
    · rw [List.getElem?_eq_none (by omega), List.getElem?_eq_none (by rw [elems_length]; omega)]
  have hlen := arr_length hf b
  refine ⟨rfl, ?_, hlen, ?_⟩
  · intro x hx; simp [arr, hx]
  · intro i hi
    rw [arr_bytes, getElem?_splice _ _ _ hf.flat, hf.chunks.length_flatten]
    split
    · rfl
    · split
      · rename_i h1 h2
        have hi' : o + n * sz ≤ i := by omega
        have hsplit : l.flatten = (l.take n).flatten ++ (l.drop n).flatten := by
          rw [← List.flatten_append, List.take_append_drop]
        have hct : Chunks sz (l.take n) := fun x hx => hf.chunks x (List.mem_of_mem_take hx)
        have htl : (l.take n).flatten.length = n * sz := by
          rw [hct.length_flatten, List.length_take, hl, Nat.min_eq_left hnN]
        have he := elems_fits (sz := sz) (n := N) hr
        have hce : Chunks sz ((elems (m.bytes b) o sz N).take n) := fun x hx => he.chunks x (List.mem_of_mem_take hx)
        have hel : ((elems (m.bytes b) o sz N).take n).flatten.length = n * sz := by
          rw [hce.length_flatten, List.length_take, elems_length, Nat.min_eq_left hnN]
        rw [hsplit, List.getElem?_append_right (by omega), htl, hd]
        have hs2 : slice (m.bytes b) o (N * sz) = ((elems (m.bytes b) o sz N).take n).flatten ++
            ((elems (m.bytes b) o sz N).drop n).flatten := by
          rw [← List.flatten_append, List.take_append_drop, elems_flatten]
        have h3 : (slice (m.bytes b) o (N * sz))[i - o]? = (m.bytes b)[i]? := by
          rw [getElem?_slice, if_pos (by rw [hl] at h2; omega)]; congr 1; omega
        rw [← h3, hs2, List.getElem?_append_right (by omega), hel]
      · rfl

theorem arr_onlyChanged' {m : Mem} {b o sz : Nat} {l : List (List Byte)}
    (hf : Fits m b o sz l) : OnlyChanged m (arr m b o l) b o (l.length * sz) := by
  refine ⟨rfl, ?_, arr_length hf b, ?_⟩
  · intro x hx; simp [arr, hx]
  · intro i hi
    rw [arr_bytes, getElem?_splice _ _ _ hf.flat, hf.chunks.length_flatten]
    split
    · rfl
    · rw [if_neg (by omega)]

/-- Two sorted lists with the same tied elements in the same order are equal. -/
theorem sorted_ties_unique {gt : Cmp} (hw : StrictWeak gt) : ∀ (l l' : List (List Byte)), Sorted gt l →
    Sorted gt l' → SameTies gt l l' → l = l' := by
  have refl : ∀ x, tied gt x x = true := fun x => by simp [tied, hw.irrefl x]
  have hmem : ∀ (l l' : List (List Byte)), SameTies gt l l' → ∀ x ∈ l, x ∈ l' := by
    intro l l' h x hx
    have : x ∈ l.filter (tied gt x) := List.mem_filter.mpr ⟨hx, refl x⟩
    rw [h x] at this
    exact (List.mem_filter.mp this).1
  intro l
  induction l with
  | nil =>
    intro l' _ _ h
    cases l' with
    | nil => rfl
    | cons y t =>
      have := hmem (y :: t) [] (fun x => (h x).symm) y (by simp)
      simp at this
  | cons x t ih =>
    intro l' h1 h2 h
    cases l' with
    | nil =>
      have := hmem _ _ h x (by simp)
      simp at this
    | cons y t' =>
      have hx : x ∈ y :: t' := hmem _ _ h x (by simp)
      have hy : y ∈ x :: t := hmem _ _ (fun x => (h x).symm) y (by simp)
      unfold Sorted at h1 h2
      rw [List.pairwise_cons] at h1 h2
      have hyx : gt y x = false := by
        rcases List.mem_cons.mp hx with rfl | hx
        · exact hw.irrefl _
        · exact h2.1 x hx
      have hxy : gt x y = false := by
        rcases List.mem_cons.mp hy with rfl | hy
        · exact hw.irrefl _
        · exact h1.1 y hy
      have hh := h x
      simp only [List.filter_cons, refl, if_true] at hh
      have ht : tied gt x y = true := by simp [tied, hxy, hyx]
      rw [ht] at hh
      simp only [if_true, List.cons.injEq] at hh
      obtain ⟨rfl, -⟩ := hh
      congr 1
      apply ih t' h1.2 h2.2
      intro z
      have hz := h z
      simp only [List.filter_cons] at hz
      split at hz
      · simpa using hz
      · exact hz

/-- Two sorted permutations are equal if ties are identical. -/
theorem sorted_perm_unique {gt : Cmp} (hid : ∀ a b, tied gt a b = true → a = b) {l l' : List (List Byte)}
    (h1 : Sorted gt l) (h2 : Sorted gt l') (hp : l.Perm l') : l = l' := by
  refine List.Perm.eq_of_pairwise ?_ h1 h2 hp
  intro a b _ _ hab hba
  apply hid
  simp [tied, hab, hba]

end IMU.Sort
