import Verif.Proofs.SortTwins
import Verif.Spec.SortTwins
import Verif.Props.SortNested

/-!
# Property C125: the sorts rearrange by comparisons only
-/

namespace IMU.Props
open Spec Utils IMU.Sort

theorem perm_map_exists {α β} (f : α → β) {l l' : List β} (h : l.Perm l') :
    ∀ a : List α, l = a.map f → ∃ σ, a.Perm σ ∧ l' = σ.map f := by
  induction h with
  | nil => intro a ha; exact ⟨a, .refl _, ha⟩
  | cons x _ ih =>
    intro a ha
    obtain ⟨y, t, rfl, rfl, ht⟩ := List.map_eq_cons_iff.1 ha.symm
    obtain ⟨σ, h1, h2⟩ := ih t ht.symm
    exact ⟨y :: σ, h1.cons _, by rw [h2]; rfl⟩
  | swap x y l =>
    intro a ha
    obtain ⟨u, t, rfl, rfl, ht⟩ := List.map_eq_cons_iff.1 ha.symm
    obtain ⟨v, t, rfl, rfl, rfl⟩ := List.map_eq_cons_iff.1 ht
    exact ⟨v :: u :: t, .swap _ _ _, rfl⟩
  | trans _ _ ih1 ih2 =>
    intro a ha
    obtain ⟨σ, h1, h2⟩ := ih1 a ha
    obtain ⟨τ, h3, h4⟩ := ih2 σ h2
    exact ⟨τ, h1.trans h3, h4⟩

/-- The twins of two arrays of `n` elements. -/
def twins (n : Nat) (x y : List (List Byte)) : List Twin := (List.range n).map fun i => (x.getD i [], y.getD i [])

theorem range_getD (l : List (List Byte)) : (List.range l.length).map (l.getD · []) = l := by
  apply List.ext_getElem
  · simp
  · intro i h1 h2
    have : i < l.length := h2
    simp [this]

theorem twins_fst {n : Nat} {x y : List (List Byte)} (hx : x.length = n) : (twins n x y).map Prod.fst = x := by
  subst hx
  unfold twins
  rw [List.map_map]
  exact range_getD x

theorem twins_snd {n : Nat} {x y : List (List Byte)} (hy : y.length = n) : (twins n x y).map Prod.snd = y := by
  subst hy
  unfold twins
  rw [List.map_map]
  exact range_getD y

theorem twins_alike {g g' : Cmp} {n : Nat} {x y : List (List Byte)} (h : CompareAlike g g' n x y) :
    Alike g g' (twins n x y) := by
  intro p hp q hq
  simp only [twins, List.mem_map, List.mem_range] at hp hq
  obtain ⟨i, hi, rfl⟩ := hp
  obtain ⟨j, hj, rfl⟩ := hq
  exact h i j hi hj

theorem twins_moves {n : Nat} {x y : List (List Byte)} {Z : List Twin} (h : (twins n x y).Perm Z) :
    SameMoves n x (Z.map Prod.fst) y (Z.map Prod.snd) := by
  obtain ⟨σ, h1, h2⟩ := perm_map_exists (fun i => (x.getD i [], y.getD i [])) h (List.range n) rfl
  refine ⟨σ, h1.symm, ?_, ?_⟩ <;> rw [h2, List.map_map] <;> rfl

/-- One array of C38 - C43. -/
def sideOf (m : Mem) (b o sz : Nat) (T : List (List Byte)) : Side := ⟨m, b, o, sz, T⟩

theorem sideOf_ok {m : Mem} {b o sz n : Nat} (h : ArraySetup m b o sz n) :
    (sideOf m b o sz []).Ok (elems (m.bytes b) o sz n) := by
  have hl := elems_length (m.bytes b) o sz n
  refine ⟨h.sz_lt, ?_, ?_, ?_⟩ <;> simp only [sideOf, List.append_nil]
  · exact elems_fits h.room
  · rw [hl]; exact h.lim
  · rw [hl]; exact h.n_lt

theorem sideOf_mem {m : Mem} {b o sz n : Nat} (h : ArraySetup m b o sz n) :
    (sideOf m b o sz []).mem (elems (m.bytes b) o sz n) = m := by
  unfold Side.mem sideOf
  rw [List.append_nil]
  exact arr_elems h.room

theorem two_elems {m m' : Mem} {b o sz b' o' sz' n : Nat} {x y : List (List Byte)} {r r' : Mem}
    (h : ArraySetup m b o sz n) (h' : ArraySetup m' b' o' sz' n)
    (hx : x = elems (m.bytes b) o sz n) (hy : y = elems (m'.bytes b') o' sz' n)
    (ht : Two (sideOf m b o sz []) (sideOf m' b' o' sz' []) (twins n x y) r r') :
    SameMoves n x (elems (r.bytes b) o sz n) y (elems (r'.bytes b') o' sz' n) := by
  have lx : x.length = n := by rw [hx, elems_length]
  have ly : y.length = n := by rw [hy, elems_length]
  obtain ⟨Z, hp, rfl, rfl⟩ := ht
  have hlZ : Z.length = n := by rw [← hp.length_eq]; simp [twins]
  have p1 := hp.map Prod.fst
  have p2 := hp.map Prod.snd
  rw [twins_fst lx, hx] at p1
  rw [twins_snd ly, hy] at p2
  have e1 : elems (((sideOf m b o sz []).mem (Z.map Prod.fst)).bytes b) o sz n = Z.map Prod.fst := by
    have := elems_arr ((elems_fits h.room).perm p1) n (by simp [hlZ])
    rw [List.take_of_length_le (by simp [hlZ])] at this
    unfold Side.mem sideOf; rw [List.append_nil]; exact this
  have e2 : elems (((sideOf m' b' o' sz' []).mem (Z.map Prod.snd)).bytes b') o' sz' n = Z.map Prod.snd := by
    have := elems_arr ((elems_fits h'.room).perm p2) n (by simp [hlZ])
    rw [List.take_of_length_le (by simp [hlZ])] at this
    unfold Side.mem sideOf; rw [List.append_nil]; exact this
  rw [e1, e2]
  exact twins_moves hp

theorem setup_twins {m m' : Mem} {b o sz b' o' sz' n : Nat} {cmp cmp' : Cmp}
    (h : ArraySetup m b o sz n) (h' : ArraySetup m' b' o' sz' n)
    (hc : CompareAlike cmp cmp' n (elems (m.bytes b) o sz n) (elems (m'.bytes b') o' sz' n)) :
    Twins (sideOf m b o sz []) (sideOf m' b' o' sz' []) cmp cmp'
      (twins n (elems (m.bytes b) o sz n) (elems (m'.bytes b') o' sz' n)) :=
  ⟨by rw [twins_fst (elems_length _ _ _ _)]; exact sideOf_ok h, by rw [twins_snd (elems_length _ _ _ _)]; exact sideOf_ok h',
    twins_alike hc⟩

/-- C125: two arrays of the same number of elements - of any sizes, with any comparators - whose elements compare alike
place by place are rearranged in the same way by bubble sort. -/
theorem C125_bubble (m m' : Mem) (b o sz b' o' sz' n fuel fuel' : Nat) (cmp cmp' : Cmp)
    (h : ArraySetup m b o sz n) (h' : ArraySetup m' b' o' sz' n)
    (hf : n ≤ fuel) (hf1 : 1 ≤ fuel) (hf' : n ≤ fuel') (hf1' : 1 ≤ fuel')
    (hc : CompareAlike cmp cmp' n (elems (m.bytes b) o sz n) (elems (m'.bytes b') o' sz' n)) :
    ∃ r r', bubbleSort fuel (ptr b o) n sz cmp m = .ok () r ∧ bubbleSort fuel' (ptr b' o') n sz' cmp' m' = .ok () r' ∧
      SameMoves n (elems (m.bytes b) o sz n) (elems (r.bytes b) o sz n)
        (elems (m'.bytes b') o' sz' n) (elems (r'.bytes b') o' sz' n) := by
  obtain ⟨r, r', h1, h2, h3⟩ := bubbleLoop_two n h.n_lt fuel fuel' 0 _ (setup_twins h h' hc) (by simp [twins]) (.inr rfl)
    (by omega) (by omega) hf1 hf1'
  rw [twins_fst (elems_length _ _ _ _), sideOf_mem h] at h1
  rw [twins_snd (elems_length _ _ _ _), sideOf_mem h'] at h2
  exact ⟨r, r', h1, h2, two_elems h h' rfl rfl h3⟩

/-- C125: selection sort. -/
theorem C125_selection (m m' : Mem) (b o sz b' o' sz' n : Nat) (cmp cmp' : Cmp)
    (h : ArraySetup m b o sz n) (h' : ArraySetup m' b' o' sz' n)
    (hc : CompareAlike cmp cmp' n (elems (m.bytes b) o sz n) (elems (m'.bytes b') o' sz' n)) :
    ∃ r r', selectionSort (ptr b o) n sz cmp m = .ok () r ∧ selectionSort (ptr b' o') n sz' cmp' m' = .ok () r' ∧
      SameMoves n (elems (m.bytes b) o sz n) (elems (r.bytes b) o sz n)
        (elems (m'.bytes b') o' sz' n) (elems (r'.bytes b') o' sz' n) := by
  obtain ⟨r, r', h1, h2, h3⟩ := selectionSort_two (setup_twins h h' hc) (by simp [twins]) h.n_lt
  rw [twins_fst (elems_length _ _ _ _), sideOf_mem h] at h1
  rw [twins_snd (elems_length _ _ _ _), sideOf_mem h'] at h2
  exact ⟨r, r', h1, h2, two_elems h h' rfl rfl h3⟩

/-- C125: insertion sort. -/
theorem C125_insertion (m m' : Mem) (st b o sz st' b' o' sz' n : Nat) (cmp cmp' : Cmp)
    (h : ArraySetup m b o sz n) (h' : ArraySetup m' b' o' sz' n)
    (hst : st ≠ b) (hl : (m.bytes st).length = 64) (h64 : sz ≤ 64) (ho : sz ≤ o)
    (hst' : st' ≠ b') (hl' : (m'.bytes st').length = 64) (h64' : sz' ≤ 64) (ho' : sz' ≤ o')
    (hc : CompareAlike cmp cmp' n (elems (m.bytes b) o sz n) (elems (m'.bytes b') o' sz' n)) :
    ∃ r r', insertionSort (ptr st 0) (ptr b o) n sz cmp m = .ok () r ∧
      insertionSort (ptr st' 0) (ptr b' o') n sz' cmp' m' = .ok () r' ∧
      SameMoves n (elems (m.bytes b) o sz n) (elems (r.bytes b) o sz n)
        (elems (m'.bytes b') o' sz' n) (elems (r'.bytes b') o' sz' n) := by
  have hlx := elems_length (m.bytes b) o sz n
  have hly := elems_length (m'.bytes b') o' sz' n
  have hlz : (twins n (elems (m.bytes b) o sz n) (elems (m'.bytes b') o' sz' n)).length = n := by simp [twins]
  have hz1 := twins_fst (y := elems (m'.bytes b') o' sz' n) hlx
  have hz2 := twins_snd (x := elems (m.bytes b) o sz n) hly
  have hal := twins_alike hc
  generalize hZ : twins n (elems (m.bytes b) o sz n) (elems (m'.bytes b') o' sz' n) = Z0 at hlz hz1 hz2 hal
  have him : ∀ {m : Mem} {st b o sz : Nat}, ArraySetup m b o sz n →
      imem m st b o (m.bytes st) (elems (m.bytes b) o sz n) = m := by
    intro m st b o sz h
    unfold imem; rw [Mem.upd_self, arr_elems h.room]
  have fin : ∀ {m : Mem} {st b o sz : Nat} {Y : List Byte} {l : List (List Byte)}, ArraySetup m b o sz n → st ≠ b →
      (elems (m.bytes b) o sz n).Perm l → elems ((imem m st b o Y l).bytes b) o sz n = l := by
    intro m st b o sz Y l h hst hp
    have hll : l.length = n := by rw [← hp.length_eq, elems_length]
    have hf := (elems_fits h.room).perm hp
    have hf2 : Fits (m.upd st Y) b o sz l := ⟨hf.chunks, by rw [Mem.upd_bytes, if_neg (Ne.symm hst)]; exact hf.room⟩
    unfold imem
    rw [elems_arr hf2 n (by omega), List.take_of_length_le (by omega)]
  cases Z0 with
  | nil =>
    have hn : n = 0 := by simpa using hlz.symm
    subst hn
    exact ⟨m, m', rfl, rfl, [], .refl _, rfl, rfl⟩
  | cons z t =>
    have ht : t.length = n - 1 := by simp at hlz; omega
    have s1 : ISide m st b o sz (m.bytes st) (([z] ++ t).map Prod.fst) :=
      ⟨h.sz_lt, ⟨by rw [List.singleton_append, hz1]; exact elems_fits h.room, hst, by omega⟩,
        by rw [List.singleton_append, hz1, hlx]; exact h.lim, ho⟩
    have s2 : ISide m' st' b' o' sz' (m'.bytes st') (([z] ++ t).map Prod.snd) :=
      ⟨h'.sz_lt, ⟨by rw [List.singleton_append, hz2]; exact elems_fits h'.room, hst', by omega⟩,
        by rw [List.singleton_append, hz2, hly]; exact h'.lim, ho'⟩
    obtain ⟨Z, Y, Y', k1, k2, k3, k4, k5⟩ := insertion_two (g := cmp) (g' := cmp') t [z] _ _ (by simp) s1 s2 hal
    rw [List.singleton_append, hz1, him h] at k4
    rw [List.singleton_append, hz2, him h'] at k5
    rw [List.singleton_append] at k1
    refine ⟨imem m st b o Y (Z.map Prod.fst), imem m' st' b' o' Y' (Z.map Prod.snd), ?_, ?_, ?_⟩
    · unfold insertionSort
      rw [show ((n : Int) - 1).toNat = t.length by omega]
      exact k4
    · unfold insertionSort
      rw [show ((n : Int) - 1).toNat = t.length by omega]
      exact k5
    · have p1 := k1.map Prod.fst
      have p2 := k1.map Prod.snd
      rw [hz1] at p1
      rw [hz2] at p2
      rw [fin h hst p1, fin h' hst' p2]
      rw [← hZ] at k1
      exact twins_moves k1

/-- C125: heap sort, with readable memory behind both arrays (C44); what stands there does not matter. -/
theorem C125_heap (m m' : Mem) (b o sz b' o' sz' n fuel fuel' : Nat) (cmp cmp' : Cmp)
    (h : HeapSetup m b o sz n) (h' : HeapSetup m' b' o' sz' n) (hf : n < 2 ^ fuel) (hf' : n < 2 ^ fuel')
    (hc : CompareAlike cmp cmp' n (elems (m.bytes b) o sz n) (elems (m'.bytes b') o' sz' n)) :
    ∃ r r', heapSort fuel (ptr b o) n sz cmp m = .ok () r ∧ heapSort fuel' (ptr b' o') n sz' cmp' m' = .ok () r' ∧
      SameMoves n (elems (m.bytes b) o sz n) (elems (r.bytes b) o sz n)
        (elems (m'.bytes b') o' sz' n) (elems (r'.bytes b') o' sz' n) := by
  have hlx := elems_length (m.bytes b) o sz n
  have hly := elems_length (m'.bytes b') o' sz' n
  have cut : ∀ {m : Mem} {b o sz : Nat}, HeapSetup m b o sz n →
      elems (m.bytes b) o sz n ++ (elems (m.bytes b) o sz (2 * n + 1)).drop n = elems (m.bytes b) o sz (2 * n + 1) := by
    intro m b o sz h
    have hl := elems_length (m.bytes b) o sz (2 * n + 1)
    have := elems_arr (elems_fits h.room) n (by rw [hl]; omega)
    rw [arr_elems h.room] at this
    rw [this, List.take_append_drop]
  have ok : ∀ {m : Mem} {b o sz : Nat}, HeapSetup m b o sz n →
      (sideOf m b o sz ((elems (m.bytes b) o sz (2 * n + 1)).drop n)).Ok (elems (m.bytes b) o sz n) := by
    intro m b o sz h
    have hl := elems_length (m.bytes b) o sz (2 * n + 1)
    have e := cut h
    refine ⟨h.sz_lt, ?_, ?_, ?_⟩ <;> simp only [sideOf] <;> rw [e]
    · exact elems_fits h.room
    · rw [hl]; exact h.lim
    · rw [hl]; exact h.n_lt
  have hmem : ∀ {m : Mem} {b o sz : Nat}, HeapSetup m b o sz n →
      (sideOf m b o sz ((elems (m.bytes b) o sz (2 * n + 1)).drop n)).mem (elems (m.bytes b) o sz n) = m := by
    intro m b o sz h
    unfold Side.mem sideOf
    simp only
    rw [cut h, arr_elems h.room]
  have hT : ∀ {m : Mem} {b o sz : Nat}, n < ((elems (m.bytes b) o sz (2 * n + 1)).drop n).length := by
    intro m b o sz
    rw [List.length_drop, elems_length]; omega
  obtain ⟨r, r', h1, h2, Z, hp, rfl, rfl⟩ := heapSort_two (s := sideOf m b o sz ((elems (m.bytes b) o sz (2 * n + 1)).drop n))
    (s' := sideOf m' b' o' sz' ((elems (m'.bytes b') o' sz' (2 * n + 1)).drop n)) (g := cmp) (g' := cmp') (n := n) hT hT hf hf'
    (Z := twins n (elems (m.bytes b) o sz n) (elems (m'.bytes b') o' sz' n))
    ⟨by rw [twins_fst hlx]; exact ok h, by rw [twins_snd hly]; exact ok h', twins_alike hc⟩ (by simp [twins])
  rw [twins_fst hlx, hmem h] at h1
  rw [twins_snd hly, hmem h'] at h2
  refine ⟨_, _, h1, h2, ?_⟩
  have hlZ : Z.length = n := by rw [← hp.length_eq]; simp [twins]
  have fin : ∀ {m : Mem} {b o sz : Nat} {l : List (List Byte)}, HeapSetup m b o sz n → (elems (m.bytes b) o sz n).Perm l →
      elems (((sideOf m b o sz ((elems (m.bytes b) o sz (2 * n + 1)).drop n)).mem l).bytes b) o sz n = l := by
    intro m b o sz l h hp
    have hll : l.length = n := by rw [← hp.length_eq, elems_length]
    have := elems_arr ((ok h).perm hp).fits n (by rw [List.length_append]; omega)
    rw [List.take_left' hll] at this
    exact this
  have p1 := hp.map Prod.fst
  have p2 := hp.map Prod.snd
  rw [twins_fst hlx] at p1
  rw [twins_snd hly] at p2
  rw [fin h p1, fin h' p2]
  exact twins_moves hp

/-- C125: any of the four sorts. -/
theorem C125_all (a : Alg) (m m' : Mem) (st b o sz st' b' o' sz' n fuel fuel' : Nat) (cmp cmp' : Cmp)
    (h : a.Setup m st b o sz n fuel) (hst : st ≠ b) (h' : a.Setup m' st' b' o' sz' n fuel') (hst' : st' ≠ b')
    (hc : CompareAlike cmp cmp' n (elems (m.bytes b) o sz n) (elems (m'.bytes b') o' sz' n)) :
    ∃ r r', a.run fuel (ptr st 0) (ptr b o) n sz (compareFun cmp sz) m = .ok () r ∧
      a.run fuel' (ptr st' 0) (ptr b' o') n sz' (compareFun cmp' sz') m' = .ok () r' ∧
      SameMoves n (elems (m.bytes b) o sz n) (elems (r.bytes b) o sz n)
        (elems (m'.bytes b') o' sz' n) (elems (r'.bytes b') o' sz' n) := by
  obtain ⟨hsz, hn, h⟩ := h
  obtain ⟨hsz', hn', h'⟩ := h'
  cases a with
  | bubble =>
    obtain ⟨h1, h2, h3, h4⟩ := h
    obtain ⟨h1', h2', h3', h4'⟩ := h'
    have := C125_bubble m m' b o sz b' o' sz' n fuel fuel' cmp cmp' ⟨hsz, hn, h1, h2⟩ ⟨hsz', hn', h1', h2'⟩ h3 h4 h3' h4' hc
    rw [bubbleSort_eq, bubbleSort_eq] at this
    exact this
  | selection =>
    obtain ⟨h1, h2⟩ := h
    obtain ⟨h1', h2'⟩ := h'
    have := C125_selection m m' b o sz b' o' sz' n cmp cmp' ⟨hsz, hn, h1, h2⟩ ⟨hsz', hn', h1', h2'⟩ hc
    rw [selectionSort_eq, selectionSort_eq] at this
    exact this
  | insertion =>
    obtain ⟨h1, h2, h3, h4, h5⟩ := h
    obtain ⟨h1', h2', h3', h4', h5'⟩ := h'
    have := C125_insertion m m' st b o sz st' b' o' sz' n cmp cmp' ⟨hsz, hn, h1, h2⟩ ⟨hsz', hn', h1', h2'⟩ hst h3 h4 h5
      hst' h3' h4' h5' hc
    rw [insertionSort_eq, insertionSort_eq] at this
    exact this
  | heap =>
    obtain ⟨h1, h2, h3, h4⟩ := h
    obtain ⟨h1', h2', h3', h4'⟩ := h'
    have := C125_heap m m' b o sz b' o' sz' n fuel fuel' cmp cmp' ⟨hsz, h1, h2, h3⟩ ⟨hsz', h1', h2', h3'⟩ h4 h4' hc
    rw [heapSort_eq, heapSort_eq] at this
    exact this

/-- C125: so sorting records by a key and then taking the keys gives the same as taking the keys and sorting them. -/
theorem C125_keys (a : Alg) (m m' : Mem) (st b o sz st' b' o' sz' n fuel fuel' : Nat) (cmp cmp' : Cmp)
    (key : List Byte → List Byte)
    (h : a.Setup m st b o sz n fuel) (hst : st ≠ b) (h' : a.Setup m' st' b' o' sz' n fuel') (hst' : st' ≠ b')
    (hk : elems (m'.bytes b') o' sz' n = (elems (m.bytes b) o sz n).map key)
    (hc : ∀ x ∈ elems (m.bytes b) o sz n, ∀ y ∈ elems (m.bytes b) o sz n, cmp x y = cmp' (key x) (key y)) :
    ∃ r r', a.run fuel (ptr st 0) (ptr b o) n sz (compareFun cmp sz) m = .ok () r ∧
      a.run fuel' (ptr st' 0) (ptr b' o') n sz' (compareFun cmp' sz') m' = .ok () r' ∧
      elems (r'.bytes b') o' sz' n = (elems (r.bytes b) o sz n).map key := by
  have hl := elems_length (m.bytes b) o sz n
  have hg : ∀ i, i < n → (elems (m'.bytes b') o' sz' n).getD i [] = key ((elems (m.bytes b) o sz n).getD i []) := by
    intro i hi
    rw [hk]
    have : i < (elems (m.bytes b) o sz n).length := by omega
    simp [this]
  have hm : ∀ i, i < n → (elems (m.bytes b) o sz n).getD i [] ∈ elems (m.bytes b) o sz n := fun i hi => mem_getD (by omega)
  obtain ⟨r, r', h1, h2, σ, h3, h4, h5⟩ := C125_all a m m' st b o sz st' b' o' sz' n fuel fuel' cmp cmp' h hst h' hst' (by
    intro i j hi hj
    rw [hg i hi, hg j hj]
    exact hc _ (hm i hi) _ (hm j hj))
  refine ⟨r, r', h1, h2, ?_⟩
  rw [h4, h5, List.map_map]
  apply List.map_congr_left
  intro i hi
  exact hg i (by simpa using h3.mem_iff.1 hi)

/-- Non-vacuity: an array of two-byte records compared by their first byte, with payload, and the array of the first
bytes alone, compared as numbers. -/
example : ArraySetup (mem1 [2, 0, 2, 1, 1, 7]) 0 0 2 3 ∧ ArraySetup (mem1 [2, 2, 1]) 0 0 1 3 ∧
    CompareAlike byFirst byFirst 3 (elems [2, 0, 2, 1, 1, 7] 0 2 3) (elems [2, 2, 1] 0 1 3) := by
  refine ⟨⟨?_, ?_, ?_, ?_⟩, ⟨?_, ?_, ?_, ?_⟩, ?_⟩ <;> try decide
  intro i j hi hj
  rcases i with _ | _ | _ | i <;> rcases j with _ | _ | _ | j <;> first | omega | decide

/-- ... and selection sort, which is not stable, moves both in the same way. -/
example : (outBytes (selectionSort (ptr 0 0) 3 2 byFirst (mem1 [2, 0, 2, 1, 1, 7])) 0) = some [1, 7, 2, 1, 2, 0] ∧
    (outBytes (selectionSort (ptr 0 0) 3 1 byFirst (mem1 [2, 2, 1])) 0) = some [1, 2, 2] := by decide

end IMU.Props
