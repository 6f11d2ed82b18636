import Verif.Proofs.Blob

/-!
# Arrays of equally sized elements in memory
-/

namespace IMU

theorem slice_splice_inner {α} (B s : List α) (o i n : Nat) (h : o + s.length ≤ B.length) (hi : i + n ≤ s.length) :
    slice (splice B o s) (o + i) n = slice s i n := by
  apply List.ext_getElem?; intro k
  rw [getElem?_slice, getElem?_slice, getElem?_splice _ _ _ h]
  split
  · rw [if_neg (by omega), if_pos (by omega)]; congr 1; omega
  · rfl

theorem splice_splice_inner {α} (B s x : List α) (o i : Nat) (h : o + s.length ≤ B.length)
    (hi : i + x.length ≤ s.length) :
    splice (splice B o s) (o + i) x = splice B o (splice s i x) := by
  have hl : (splice s i x).length = s.length := splice_length _ _ _ hi
  apply List.ext_getElem?; intro k
  rw [getElem?_splice _ _ _ (by rw [splice_length _ _ _ h]; omega), getElem?_splice _ _ _ h,
    getElem?_splice _ _ _ (by omega), getElem?_splice _ _ _ hi, hl]
  by_cases h1 : k < o
  · rw [if_pos (by omega), if_pos h1, if_pos h1]
  · by_cases h2 : k < o + i
    · rw [if_pos h2, if_neg h1, if_neg h1, if_pos (by omega), if_pos (by omega), if_pos (by omega)]
    · by_cases h3 : k < o + i + x.length
      · rw [if_neg h2, if_pos h3, if_neg h1, if_pos (by omega), if_neg (by omega), if_pos (by omega)]
        congr 1; omega
      · rw [if_neg h2, if_neg h3]
        by_cases h4 : k < o + s.length
        · rw [if_neg h1, if_pos h4, if_neg h1, if_pos h4, if_neg (by omega), if_neg (by omega)]
        · rw [if_neg h1, if_neg h4, if_neg h1, if_neg h4]

/-- Every element has `sz` items. -/
def Chunks {α} (sz : Nat) (l : List (List α)) : Prop := ∀ x ∈ l, x.length = sz

theorem Chunks.cons {α} {sz : Nat} {x : List α} {l : List (List α)} (h : Chunks sz (x :: l)) :
    x.length = sz ∧ Chunks sz l := ⟨h x (by simp), fun y hy => h y (by simp [hy])⟩

theorem Chunks.set {α} {sz : Nat} {l : List (List α)} (h : Chunks sz l) {k : Nat} {x : List α}
    (hx : x.length = sz) : Chunks sz (l.set k x) := by
  intro y hy
  rcases List.mem_or_eq_of_mem_set hy with h1 | h1
  · exact h y h1
  · rw [h1]; exact hx

theorem Chunks.perm {α} {sz : Nat} {l l' : List (List α)} (h : Chunks sz l) (hp : l.Perm l') : Chunks sz l' :=
  fun x hx => h x (hp.mem_iff.mpr hx)

theorem Chunks.length_flatten {α} {sz : Nat} {l : List (List α)} (h : Chunks sz l) :
    l.flatten.length = l.length * sz := by
  induction l with
  | nil => simp
  | cons x l ih =>
    obtain ⟨h1, h2⟩ := h.cons
    simp only [List.flatten_cons, List.length_append, List.length_cons, ih h2, h1, Nat.succ_mul]
    omega

theorem slice_append_left {α} (x l : List α) (n : Nat) (h : x.length = n) : slice (x ++ l) 0 n = x := by
  subst h; simp [slice]
theorem slice_append_skip {α} (x l : List α) (i n : Nat) : slice (x ++ l) (x.length + i) n = slice l i n := by
  simp [slice]
theorem splice_append_left {α} (x y l : List α) (h : x.length = y.length) : splice (x ++ l) 0 y = y ++ l := by
  simp [splice, ← h]
theorem splice_append_skip {α} (x l y : List α) (i : Nat) :
    splice (x ++ l) (x.length + i) y = x ++ splice l i y := by
  simp [splice, Nat.add_assoc, List.take_append, List.take_of_length_le]

theorem slice_flatten {α} {sz : Nat} {l : List (List α)} (h : Chunks sz l) {k : Nat} {x : List α}
    (hk : l[k]? = some x) : slice l.flatten (k * sz) sz = x := by
  induction l generalizing k with
  | nil => simp at hk
  | cons y l ih =>
    obtain ⟨h1, h2⟩ := h.cons
    cases k with
    | zero =>
      simp only [List.getElem?_cons_zero, Option.some.injEq] at hk
      subst hk
      rw [Nat.zero_mul, List.flatten_cons, slice_append_left _ _ _ h1]
    | succ k =>
      rw [List.getElem?_cons_succ] at hk
      rw [Nat.succ_mul, Nat.add_comm, List.flatten_cons]
      conv => lhs; arg 2; rw [← h1]
      rw [slice_append_skip, h1]
      exact ih h2 hk

theorem splice_flatten {α} {sz : Nat} {l : List (List α)} (h : Chunks sz l) {k : Nat} {x : List α}
    (hk : k < l.length) (hx : x.length = sz) : splice l.flatten (k * sz) x = (l.set k x).flatten := by
  induction l generalizing k with
  | nil => simp at hk
  | cons y l ih =>
    obtain ⟨h1, h2⟩ := h.cons
    cases k with
    | zero =>
      rw [Nat.zero_mul, List.flatten_cons, splice_append_left _ _ _ (by omega)]
      simp
    | succ k =>
      rw [Nat.succ_mul, Nat.add_comm, List.flatten_cons]
      conv => lhs; arg 2; rw [← h1]
      rw [splice_append_skip, h1, ih h2 (by simpa using hk)]
      simp

/-- Memory `m0` with the array `l` at byte `o` of object `b`. -/
def arr (m0 : Mem) (b o : Nat) (l : List (List Byte)) : Mem :=
  m0.upd b (splice (m0.bytes b) o l.flatten)

/-- The array `l` of `sz`-byte elements has room at byte `o` of object `b`. -/
structure Fits (m0 : Mem) (b o sz : Nat) (l : List (List Byte)) : Prop where
  chunks : Chunks sz l
  room : o + l.length * sz ≤ (m0.bytes b).length

theorem Fits.perm {m0 : Mem} {b o sz : Nat} {l l' : List (List Byte)} (h : Fits m0 b o sz l) (hp : l.Perm l') :
    Fits m0 b o sz l' := ⟨h.chunks.perm hp, by rw [← hp.length_eq]; exact h.room⟩

theorem Fits.set {m0 : Mem} {b o sz : Nat} {l : List (List Byte)} (h : Fits m0 b o sz l) {k : Nat} {x : List Byte}
    (hx : x.length = sz) : Fits m0 b o sz (l.set k x) :=
  ⟨h.chunks.set hx, by rw [List.length_set]; exact h.room⟩

theorem Fits.flat {m0 : Mem} {b o sz : Nat} {l : List (List Byte)} (h : Fits m0 b o sz l) :
    o + l.flatten.length ≤ (m0.bytes b).length := by rw [h.chunks.length_flatten]; exact h.room

theorem arr_bytes (m0 : Mem) (b o : Nat) (l : List (List Byte)) :
    (arr m0 b o l).bytes b = splice (m0.bytes b) o l.flatten := by simp [arr]

theorem arr_length {m0 : Mem} {b o sz : Nat} {l : List (List Byte)} (h : Fits m0 b o sz l) (x : Nat) :
    ((arr m0 b o l).bytes x).length = (m0.bytes x).length := by
  simp only [arr, Mem.upd_bytes]
  split
  · rename_i hx; subst hx; exact splice_length _ _ _ h.flat
  · rfl

theorem elem_room {m0 : Mem} {b o sz : Nat} {l : List (List Byte)} (h : Fits m0 b o sz l) {k : Nat}
    (hk : k < l.length) : o + k * sz + sz ≤ (m0.bytes b).length := by
  have h1 : k * sz + sz ≤ l.length * sz := by rw [← Nat.succ_mul]; exact Nat.mul_le_mul_right _ hk
  have := h.room
  omega

theorem arr_slice {m0 : Mem} {b o sz : Nat} {l : List (List Byte)} (h : Fits m0 b o sz l) {k : Nat} {x : List Byte}
    (hk : l[k]? = some x) : slice ((arr m0 b o l).bytes b) (o + k * sz) sz = x := by
  have hk' : k < l.length := (List.getElem?_eq_some_iff.mp hk).1
  have h1 : k * sz + sz ≤ l.length * sz := by rw [← Nat.succ_mul]; exact Nat.mul_le_mul_right _ hk'
  rw [arr_bytes, slice_splice_inner _ _ _ _ _ h.flat (by rw [h.chunks.length_flatten]; exact h1),
    slice_flatten h.chunks hk]

theorem arr_loadN {m0 : Mem} {b o sz : Nat} {l : List (List Byte)} (h : Fits m0 b o sz l) {k : Nat} {x : List Byte}
    (hk : l[k]? = some x) : loadN (ptr b (o + k * sz)) sz (arr m0 b o l) = .ok x (arr m0 b o l) := by
  have hk' : k < l.length := (List.getElem?_eq_some_iff.mp hk).1
  rw [loadN_ok (by rw [arr_length h]; exact elem_room h hk'), arr_slice h hk]

theorem arr_set {m0 : Mem} {b o sz : Nat} {l : List (List Byte)} (h : Fits m0 b o sz l) {k : Nat} {x : List Byte}
    (hk : k < l.length) (hx : x.length = sz) :
    (arr m0 b o l).upd b (splice ((arr m0 b o l).bytes b) (o + k * sz) x) = arr m0 b o (l.set k x) := by
  have h1 : k * sz + sz ≤ l.length * sz := by rw [← Nat.succ_mul]; exact Nat.mul_le_mul_right _ hk
  rw [arr_bytes, splice_splice_inner _ _ _ _ _ h.flat (by rw [h.chunks.length_flatten, hx]; exact h1),
    splice_flatten h.chunks hk hx]
  simp [arr]

theorem arr_storeN {m0 : Mem} {b o sz : Nat} {l : List (List Byte)} (h : Fits m0 b o sz l) {k : Nat} {x : List Byte}
    (hk : k < l.length) (hx : x.length = sz) :
    storeN (ptr b (o + k * sz)) x (arr m0 b o l) = .ok () (arr m0 b o (l.set k x)) := by
  rw [storeN_ok (by rw [arr_length h, hx]; exact elem_room h hk), arr_set h hk hx]

/-- Exchange of items `i` and `j`. -/
def swapAt {α} (l : List α) (i j : Nat) : List α :=
  match l[i]?, l[j]? with
  | some x, some y => (l.set i y).set j x
  | _, _ => l

open Utils in
theorem swapElements_same_block (b o1 o2 : Nat) (size : U32) (m : Mem)
    (h1 : o1 + size.toNat ≤ (m.bytes b).length) (h2 : o2 + size.toNat ≤ (m.bytes b).length)
    (hno : o1 + size.toNat ≤ o2 ∨ o2 + size.toNat ≤ o1 ∨ o1 = o2) :
    swapElements (ptr b o1) (ptr b o2) size m =
      .ok () (m.upd b (splice (splice (m.bytes b) o1 (slice (m.bytes b) o2 size.toNat)) o2
        (slice (m.bytes b) o1 size.toNat))) := by
  obtain ⟨m', h3, h4, h5⟩ := swapElements_spec b o1 b o2 size m h1 h2 (.inr hno)
  rw [h3]
  congr 1
  have l1 := slice_length _ _ _ h1
  have l2 := slice_length _ _ _ h2
  refine Mem.ext' ?_ (fun x => by rw [h4]; rfl)
  intro x
  apply List.ext_getElem?; intro k
  rw [h5, Mem.upd_bytes]
  unfold swapped
  by_cases hx : x = b
  · subst hx
    rw [if_pos rfl, getElem?_splice _ _ _ (by rw [splice_length _ _ _ (by omega)]; omega),
      getElem?_splice _ _ _ (by omega), getElem?_slice, getElem?_slice, l1, l2]
    by_cases c1 : o1 + 0 ≤ k ∧ k < o1 + size.toNat
    · rw [if_pos (by omega)]
      by_cases c2 : k < o2
      · rw [if_pos c2, if_neg (by omega), if_pos c1.2, if_pos (by omega), Nat.add_comm]
      · by_cases c3 : k < o2 + size.toNat
        · rw [if_neg c2, if_pos c3, if_pos (by omega)]; congr 1; omega
        · rw [if_neg c2, if_neg c3, if_neg (by omega), if_pos c1.2, if_pos (by omega), Nat.add_comm]
    · rw [if_neg (by omega)]
      by_cases c2 : o2 ≤ k ∧ k < o2 + size.toNat
      · rw [if_pos (by omega), if_neg (by omega), if_pos c2.2, if_pos (by omega), Nat.add_comm]
      · rw [if_neg (by omega)]
        split_ifs <;> first | rfl | (exfalso; omega)
  · rw [if_neg (by simp [hx]), if_neg (by simp [hx]), if_neg hx]

open Utils in
theorem arr_swap {m0 : Mem} {b o : Nat} {size : U32} {l : List (List Byte)} (h : Fits m0 b o size.toNat l)
    {i j : Nat} (hi : i < l.length) (hj : j < l.length) :
    swapElements (ptr b (o + i * size.toNat)) (ptr b (o + j * size.toNat)) size (arr m0 b o l) =
      .ok () (arr m0 b o (swapAt l i j)) := by
  have hgi := List.getElem?_eq_getElem hi
  have hgj := List.getElem?_eq_getElem hj
  have ci := h.chunks _ (List.getElem_mem hi)
  have cj := h.chunks _ (List.getElem_mem hj)
  rw [swapElements_same_block _ _ _ _ _ (by rw [arr_length h]; exact elem_room h hi)
    (by rw [arr_length h]; exact elem_room h hj), arr_slice h hgi, arr_slice h hgj]
  · congr 1
    have e1 := arr_set h hi cj
    have e2 := arr_set (h.set (k := i) cj) (k := j) (x := l[i]) (by simpa using hj) ci
    rw [← e1] at e2
    rw [Mem.upd_bytes, if_pos rfl, Mem.upd_upd] at e2
    rw [e2]
    unfold swapAt
    rw [hgi, hgj]
  · rcases Nat.lt_trichotomy i j with hlt | heq | hgt
    · left
      have : i * size.toNat + size.toNat ≤ j * size.toNat := by
        rw [← Nat.succ_mul]; exact Nat.mul_le_mul_right _ hlt
      omega
    · right; right; rw [heq]
    · right; left
      have : j * size.toNat + size.toNat ≤ i * size.toNat := by
        rw [← Nat.succ_mul]; exact Nat.mul_le_mul_right _ hgt
      omega

end IMU
