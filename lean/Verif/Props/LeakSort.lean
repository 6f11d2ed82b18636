import Verif.Proofs.LeakSortLoops
import Verif.Proofs.LeakInsertion
import Verif.Spec.LeakSort
import Verif.Props.SortTwins

/-!
# Property C147: what the sorts show

To an observer who sees all addresses and decisions (`Verif/C/Leak.lean`).
-/

namespace IMU.Props
open Spec Utils IMU.Sort T

/-- C147: what is observed is the code that the other properties are about. -/
theorem C147_same_code (fuel : Nat) (st e : Ptr) (n sz : Int) (cmp : Cmp) :
    erase (bubbleSortT fuel e n sz cmp) = bubbleSort fuel e n sz cmp ∧
    erase (selectionSortT e n sz cmp) = selectionSort e n sz cmp ∧
    erase (heapSortT fuel e n sz cmp) = heapSort fuel e n sz cmp ∧
    erase (insertionSortT st e n sz cmp) = insertionSort st e n sz cmp :=
  ⟨erase_bubbleSort fuel e n sz cmp, erase_selectionSort e n sz cmp, erase_heapSort fuel e n sz cmp,
    erase_insertionSort st e n sz cmp⟩

theorem alike_compare {g g' : Cmp} {n : Nat} {x y : List (List Byte)} :
    Alike g g' (twins n x y) ↔ CompareAlike g g' n x y := by
  refine ⟨fun h i j hi hj => ?_, twins_alike⟩
  exact h (x.getD i [], y.getD i []) (List.mem_map_of_mem (List.mem_range.2 hi)) (x.getD j [], y.getD j [])
    (List.mem_map_of_mem (List.mem_range.2 hj))

theorem lock_told {D : Prop} {x x' : T Unit} {m m' r r' : Mem} {Q : Unit → Unit → Mem → Mem → Prop} {t t' : List Leak}
    (h : Lock (¬ D) x x' m m' Q) (h1 : x m = .ok ((), t) r) (h2 : x' m' = .ok ((), t') r') :
    (D → t = t') ∧ (t = t' → Q () () r r') := by
  rcases h _ _ _ _ _ _ h1 h2 with ⟨e, hq⟩ | ⟨ha, hd⟩
  · exact ⟨fun _ => e, fun _ => hq⟩
  · exact ⟨fun k => absurd k hd, fun e => absurd e ha.ne⟩

/-- C147: two bubble sorts of arrays at the same place, with elements of the same size.  If the elements compare alike
place by place, both show the same; and if both show the same, they have moved the elements in the same way. -/
theorem C147_bubble (m m' : Mem) (b o sz n fuel : Nat) (cmp cmp' : Cmp)
    (h : ArraySetup m b o sz n) (h' : ArraySetup m' b o sz n) (hf : n ≤ fuel) (hf1 : 1 ≤ fuel) :
    ∃ t r t' r', bubbleSortT fuel (ptr b o) n sz cmp m = .ok ((), t) r ∧
      bubbleSortT fuel (ptr b o) n sz cmp' m' = .ok ((), t') r' ∧
      (CompareAlike cmp cmp' n (elems (m.bytes b) o sz n) (elems (m'.bytes b) o sz n) → t = t') ∧
      (t = t' → SameMoves n (elems (m.bytes b) o sz n) (elems (r.bytes b) o sz n)
        (elems (m'.bytes b) o sz n) (elems (r'.bytes b) o sz n)) := by
  obtain ⟨r, h1, -⟩ := C43_bubble_any m b o sz n fuel cmp h hf hf1
  obtain ⟨r', h2, -⟩ := C43_bubble_any m' b o sz n fuel cmp' h' hf hf1
  rw [← (C147_same_code _ (ptr 0 0) _ _ _ _).1] at h1 h2
  obtain ⟨t, h1⟩ := erase_ok h1
  obtain ⟨t', h2⟩ := erase_ok h2
  refine ⟨t, r, t', r', h1, h2, ?_⟩
  have hl : (twins n (elems (m.bytes b) o sz n) (elems (m'.bytes b) o sz n)).length = n := by simp [twins]
  have key := lock_bubbleSort (m0 := m) (m0' := m') (b := b) (o := o) (sz := sz) (R := []) (R' := []) (g := cmp) (g' := cmp')
    (Z := twins n (elems (m.bytes b) o sz n) (elems (m'.bytes b) o sz n))
    ⟨by rw [twins_fst (elems_length _ _ _ _)]; exact sideOf_ok h, by rw [twins_snd (elems_length _ _ _ _)]; exact sideOf_ok h'⟩
    (by rw [hl]; exact h.n_lt) fuel
  rw [hl] at key
  unfold memL memR at key
  rw [twins_fst (elems_length _ _ _ _), twins_snd (elems_length _ _ _ _)] at key
  have e1 : (sideL m b o sz []).mem (elems (m.bytes b) o sz n) = m := sideOf_mem h
  have e2 : (sideL m' b o sz []).mem (elems (m'.bytes b) o sz n) = m' := sideOf_mem h'
  rw [e1, e2] at key
  obtain ⟨k1, k2⟩ := lock_told key h1 h2
  exact ⟨fun hc => k1 (alike_compare.2 hc), fun e => two_elems h h' rfl rfl (k2 e)⟩

/-- C147: selection sort. -/
theorem C147_selection (m m' : Mem) (b o sz n : Nat) (cmp cmp' : Cmp)
    (h : ArraySetup m b o sz n) (h' : ArraySetup m' b o sz n) :
    ∃ t r t' r', selectionSortT (ptr b o) n sz cmp m = .ok ((), t) r ∧
      selectionSortT (ptr b o) n sz cmp' m' = .ok ((), t') r' ∧
      (CompareAlike cmp cmp' n (elems (m.bytes b) o sz n) (elems (m'.bytes b) o sz n) → t = t') ∧
      (t = t' → SameMoves n (elems (m.bytes b) o sz n) (elems (r.bytes b) o sz n)
        (elems (m'.bytes b) o sz n) (elems (r'.bytes b) o sz n)) := by
  obtain ⟨r, h1, -⟩ := C43_selection_any m b o sz n cmp h
  obtain ⟨r', h2, -⟩ := C43_selection_any m' b o sz n cmp' h'
  rw [← (C147_same_code 0 (ptr 0 0) _ _ _ _).2.1] at h1 h2
  obtain ⟨t, h1⟩ := erase_ok h1
  obtain ⟨t', h2⟩ := erase_ok h2
  refine ⟨t, r, t', r', h1, h2, ?_⟩
  have hl : (twins n (elems (m.bytes b) o sz n) (elems (m'.bytes b) o sz n)).length = n := by simp [twins]
  have key := lock_selectionSort (m0 := m) (m0' := m') (b := b) (o := o) (sz := sz) (R := []) (R' := []) (g := cmp) (g' := cmp')
    (Z := twins n (elems (m.bytes b) o sz n) (elems (m'.bytes b) o sz n))
    ⟨by rw [twins_fst (elems_length _ _ _ _)]; exact sideOf_ok h, by rw [twins_snd (elems_length _ _ _ _)]; exact sideOf_ok h'⟩
    (by rw [hl]; exact h.n_lt)
  rw [hl] at key
  unfold memL memR at key
  rw [twins_fst (elems_length _ _ _ _), twins_snd (elems_length _ _ _ _)] at key
  have e1 : (sideL m b o sz []).mem (elems (m.bytes b) o sz n) = m := sideOf_mem h
  have e2 : (sideL m' b o sz []).mem (elems (m'.bytes b) o sz n) = m' := sideOf_mem h'
  rw [e1, e2] at key
  obtain ⟨k1, k2⟩ := lock_told key h1 h2
  exact ⟨fun hc => k1 (alike_compare.2 hc), fun e => two_elems h h' rfl rfl (k2 e)⟩

/-- C147: heap sort, with readable memory behind both arrays (C44); what stands there is compared, but the answer is not
shown. -/
theorem C147_heap (m m' : Mem) (b o sz n fuel : Nat) (cmp cmp' : Cmp)
    (h : HeapSetup m b o sz n) (h' : HeapSetup m' b o sz n) (hf : n < 2 ^ fuel) :
    ∃ t r t' r', heapSortT fuel (ptr b o) n sz cmp m = .ok ((), t) r ∧
      heapSortT fuel (ptr b o) n sz cmp' m' = .ok ((), t') r' ∧
      (CompareAlike cmp cmp' n (elems (m.bytes b) o sz n) (elems (m'.bytes b) o sz n) → t = t') ∧
      (t = t' → SameMoves n (elems (m.bytes b) o sz n) (elems (r.bytes b) o sz n)
        (elems (m'.bytes b) o sz n) (elems (r'.bytes b) o sz n)) := by
  obtain ⟨r, h1, -⟩ := C43_heap_any m b o sz n fuel cmp h hf
  obtain ⟨r', h2, -⟩ := C43_heap_any m' b o sz n fuel cmp' h' hf
  rw [← (C147_same_code _ (ptr 0 0) _ _ _ _).2.2.1] at h1 h2
  obtain ⟨t, h1⟩ := erase_ok h1
  obtain ⟨t', h2⟩ := erase_ok h2
  refine ⟨t, r, t', r', h1, h2, ?_⟩
  have hlx := elems_length (m.bytes b) o sz n
  have hly := elems_length (m'.bytes b) o sz n
  have cut : ∀ {m : Mem}, HeapSetup m b o sz n →
      elems (m.bytes b) o sz n ++ (elems (m.bytes b) o sz (2 * n + 1)).drop n = elems (m.bytes b) o sz (2 * n + 1) := by
    intro m h
    have hl := elems_length (m.bytes b) o sz (2 * n + 1)
    have := elems_arr (elems_fits h.room) n (by rw [hl]; omega)
    rw [arr_elems h.room] at this
    rw [this, List.take_append_drop]
  have ok : ∀ {m : Mem}, HeapSetup m b o sz n →
      (sideL m b o sz ((elems (m.bytes b) o sz (2 * n + 1)).drop n)).Ok (elems (m.bytes b) o sz n) := by
    intro m h
    have hl := elems_length (m.bytes b) o sz (2 * n + 1)
    have e := cut h
    refine ⟨h.sz_lt, ?_, ?_, ?_⟩ <;> simp only [sideL] <;> rw [e]
    · exact elems_fits h.room
    · rw [hl]; exact h.lim
    · rw [hl]; exact h.n_lt
  have hmem : ∀ {m : Mem}, HeapSetup m b o sz n →
      (sideL m b o sz ((elems (m.bytes b) o sz (2 * n + 1)).drop n)).mem (elems (m.bytes b) o sz n) = m := by
    intro m h
    unfold Side.mem sideL
    simp only
    rw [cut h, arr_elems h.room]
  have hT : ∀ {m : Mem}, n < ((elems (m.bytes b) o sz (2 * n + 1)).drop n).length := by
    intro m
    rw [List.length_drop, elems_length]; omega
  have hl : (twins n (elems (m.bytes b) o sz n) (elems (m'.bytes b) o sz n)).length = n := by simp [twins]
  have key := lock_heapSort (m0 := m) (m0' := m') (b := b) (o := o) (sz := sz)
    (R := (elems (m.bytes b) o sz (2 * n + 1)).drop n) (R' := (elems (m'.bytes b) o sz (2 * n + 1)).drop n)
    (g := cmp) (g' := cmp') (Z := twins n (elems (m.bytes b) o sz n) (elems (m'.bytes b) o sz n))
    (by rw [hl]; exact hT) (by rw [hl]; exact hT)
    ⟨by rw [twins_fst hlx]; exact ok h, by rw [twins_snd hly]; exact ok h'⟩ fuel
  rw [hl] at key
  unfold memL memR at key
  rw [twins_fst hlx, twins_snd hly, hmem h, hmem h'] at key
  obtain ⟨k1, k2⟩ := lock_told key h1 h2
  refine ⟨fun hc => k1 (alike_compare.2 hc), fun e => ?_⟩
  obtain ⟨Z, hp, rfl, rfl⟩ := k2 e
  have fin : ∀ {m : Mem} {l : List (List Byte)}, HeapSetup m b o sz n → (elems (m.bytes b) o sz n).Perm l →
      elems (((sideL m b o sz ((elems (m.bytes b) o sz (2 * n + 1)).drop n)).mem l).bytes b) o sz n = l := by
    intro m l h hp
    have hll : l.length = n := by rw [← hp.length_eq, elems_length]
    have := elems_arr ((ok h).perm hp).fits n (by rw [List.length_append]; omega)
    rw [List.take_left' hll] at this
    exact this
  have p1 := hp.map Prod.fst
  have p2 := hp.map Prod.snd
  rw [twins_fst hlx] at p1
  rw [twins_snd hly] at p2
  rw [fin h p1, fin h' p2]
  exact twins_moves hp

/-- C147: insertion sort, with room for an element before both arrays (C45). -/
theorem C147_insertion (m m' : Mem) (st b o sz n : Nat) (cmp cmp' : Cmp)
    (h : ArraySetup m b o sz n) (h' : ArraySetup m' b o sz n) (hst : st ≠ b)
    (hl : (m.bytes st).length = 64) (hl' : (m'.bytes st).length = 64) (h64 : sz ≤ 64) (ho : sz ≤ o) :
    ∃ t r t' r', insertionSortT (ptr st 0) (ptr b o) n sz cmp m = .ok ((), t) r ∧
      insertionSortT (ptr st 0) (ptr b o) n sz cmp' m' = .ok ((), t') r' ∧
      (CompareAlike cmp cmp' n (elems (m.bytes b) o sz n) (elems (m'.bytes b) o sz n) → t = t') ∧
      (t = t' → SameMoves n (elems (m.bytes b) o sz n) (elems (r.bytes b) o sz n)
        (elems (m'.bytes b) o sz n) (elems (r'.bytes b) o sz n)) := by
  obtain ⟨r, _, h1, -⟩ := C43_insertion_any m st b o sz n cmp h hst hl h64 ho
  obtain ⟨r', _, h2, -⟩ := C43_insertion_any m' st b o sz n cmp' h' hst hl' h64 ho
  rw [← (C147_same_code 0 _ _ _ _ _).2.2.2] at h1 h2
  obtain ⟨t, h1⟩ := erase_ok h1
  obtain ⟨t', h2⟩ := erase_ok h2
  refine ⟨t, r, t', r', h1, h2, ?_⟩
  have hlx := elems_length (m.bytes b) o sz n
  have hly := elems_length (m'.bytes b) o sz n
  have hlz : (twins n (elems (m.bytes b) o sz n) (elems (m'.bytes b) o sz n)).length = n := by simp [twins]
  by_cases hn : n = 0
  · subst hn
    cases h1; cases h2
    exact ⟨fun _ => rfl, fun _ => ⟨[], .refl _, rfl, rfl⟩⟩
  have him : ∀ {m : Mem}, ArraySetup m b o sz n → imem m st b o (m.bytes st) (elems (m.bytes b) o sz n) = m := by
    intro m h
    unfold imem; rw [Mem.upd_self, arr_elems h.room]
  have fin : ∀ {m : Mem} {Y : List Byte} {l : List (List Byte)}, ArraySetup m b o sz n →
      (elems (m.bytes b) o sz n).Perm l → elems ((imem m st b o Y l).bytes b) o sz n = l := by
    intro m Y l h hp
    have hll : l.length = n := by rw [← hp.length_eq, elems_length]
    have hf := (elems_fits h.room).perm hp
    have hf2 : Fits (m.upd st Y) b o sz l := ⟨hf.chunks, by rw [Mem.upd_bytes, if_neg (Ne.symm hst)]; exact hf.room⟩
    unfold imem
    rw [elems_arr hf2 n (by omega), List.take_of_length_le (by omega)]
  have side : ∀ {m : Mem}, ArraySetup m b o sz n → (m.bytes st).length = 64 →
      ISide m st b o sz (m.bytes st) (elems (m.bytes b) o sz n) := fun h hl =>
    ⟨h.sz_lt, ⟨elems_fits h.room, hst, by omega⟩, by rw [elems_length]; exact h.lim, ho⟩
  have key := lock_insertionSort (g := cmp) (g' := cmp')
    (Z := twins n (elems (m.bytes b) o sz n) (elems (m'.bytes b) o sz n))
    (by intro e; rw [e] at hlz; exact hn hlz.symm)
    (by rw [twins_fst hlx]; exact side h hl) (by rw [twins_snd hly]; exact side h' hl')
  rw [hlz, twins_fst hlx, twins_snd hly, him h, him h'] at key
  obtain ⟨k1, k2⟩ := lock_told key h1 h2
  refine ⟨fun hc => k1 (alike_compare.2 hc), fun e => ?_⟩
  obtain ⟨Z, Y, Y', hp, rfl, rfl⟩ := k2 e
  have p1 := hp.map Prod.fst
  have p2 := hp.map Prod.snd
  rw [twins_fst hlx] at p1
  rw [twins_snd hly] at p2
  rw [fin h p1, fin h' p2]
  exact twins_moves hp

/-- Arrays without ties that are sorted by the same moves compare alike. -/
theorem moves_alike {g g' : Cmp} (hw : StrictWeak g) (hw' : StrictWeak g') {n : Nat} {x x' y y' : List (List Byte)}
    (hx : NoTies g n x) (hy : NoTies g' n y) (hm : SameMoves n x x' y y') (hs : Sorted g x') (hs' : Sorted g' y') :
    CompareAlike g g' n x y := by
  obtain ⟨σ, hp, rfl, rfl⟩ := hm
  have irr : ∀ {f : Cmp}, StrictWeak f → ∀ a, f a a = false := by
    intro f hf a
    cases e : f a a
    · rfl
    · have := hf.asymm a a e; rw [e] at this; cases this
  unfold Sorted at hs hs'
  rw [List.pairwise_map, List.pairwise_iff_getElem] at hs hs'
  intro i j hi hj
  by_cases hij : i = j
  · subst hij; rw [irr hw, irr hw']
  obtain ⟨p, hpl, rfl⟩ := List.getElem_of_mem (hp.mem_iff.2 (List.mem_range.2 hi))
  obtain ⟨q, hql, rfl⟩ := List.getElem_of_mem (hp.mem_iff.2 (List.mem_range.2 hj))
  rcases Nat.lt_trichotomy p q with hlt | rfl | hgt
  · rw [hs p q hpl hql hlt, hs' p q hpl hql hlt]
  · exact absurd rfl hij
  · have e1 := hs q p hql hpl hgt
    have e2 := hs' q p hql hpl hgt
    rcases hx _ _ hi hj hij with a | a
    · rcases hy _ _ hi hj hij with c | c
      · rw [a, c]
      · rw [e2] at c; cases c
    · rw [e1] at a; cases a

/-- C147: of arrays without ties, an observer of bubble sort learns the order of the elements, and nothing else. -/
theorem C147_bubble_order (m m' : Mem) (b o sz n fuel : Nat) (cmp cmp' : Cmp) (hw : StrictWeak cmp) (hw' : StrictWeak cmp')
    (h : ArraySetup m b o sz n) (h' : ArraySetup m' b o sz n) (hf : n ≤ fuel) (hf1 : 1 ≤ fuel)
    (hn : NoTies cmp n (elems (m.bytes b) o sz n)) (hn' : NoTies cmp' n (elems (m'.bytes b) o sz n)) :
    ∃ t r t' r', bubbleSortT fuel (ptr b o) n sz cmp m = .ok ((), t) r ∧
      bubbleSortT fuel (ptr b o) n sz cmp' m' = .ok ((), t') r' ∧
      (t = t' ↔ CompareAlike cmp cmp' n (elems (m.bytes b) o sz n) (elems (m'.bytes b) o sz n)) := by
  obtain ⟨t, r, t', r', h1, h2, k1, k2⟩ := C147_bubble m m' b o sz n fuel cmp cmp' h h' hf hf1
  refine ⟨t, r, t', r', h1, h2, fun e => ?_, k1⟩
  obtain ⟨q, g1, -, -, s1⟩ := C38_bubble_sorts m b o sz n fuel cmp hw h hf hf1
  obtain ⟨q', g2, -, -, s2⟩ := C38_bubble_sorts m' b o sz n fuel cmp' hw' h' hf hf1
  rw [← (C147_same_code _ (ptr 0 0) _ _ _ _).1] at g1 g2
  unfold erase at g1 g2
  rw [h1] at g1
  rw [h2] at g2
  cases g1; cases g2
  exact moves_alike hw hw' hn hn' (k2 e) s1 s2

/-- C147: of arrays without ties, an observer of selection sort learns the order of the elements, and nothing else. -/
theorem C147_selection_order (m m' : Mem) (b o sz n : Nat) (cmp cmp' : Cmp) (hw : StrictWeak cmp) (hw' : StrictWeak cmp')
    (h : ArraySetup m b o sz n) (h' : ArraySetup m' b o sz n)
    (hn : NoTies cmp n (elems (m.bytes b) o sz n)) (hn' : NoTies cmp' n (elems (m'.bytes b) o sz n)) :
    ∃ t r t' r', selectionSortT (ptr b o) n sz cmp m = .ok ((), t) r ∧
      selectionSortT (ptr b o) n sz cmp' m' = .ok ((), t') r' ∧
      (t = t' ↔ CompareAlike cmp cmp' n (elems (m.bytes b) o sz n) (elems (m'.bytes b) o sz n)) := by
  obtain ⟨t, r, t', r', h1, h2, k1, k2⟩ := C147_selection m m' b o sz n cmp cmp' h h'
  refine ⟨t, r, t', r', h1, h2, fun e => ?_, k1⟩
  obtain ⟨q, g1, -, -, s1⟩ := C39_selection_sorts m b o sz n cmp hw h
  obtain ⟨q', g2, -, -, s2⟩ := C39_selection_sorts m' b o sz n cmp' hw' h'
  rw [← (C147_same_code 0 (ptr 0 0) _ _ _ _).2.1] at g1 g2
  unfold erase at g1 g2
  rw [h1] at g1
  rw [h2] at g2
  cases g1; cases g2
  exact moves_alike hw hw' hn hn' (k2 e) s1 s2

/-- C147: of arrays without ties, an observer of heap sort learns the order of the elements, and nothing else. -/
theorem C147_heap_order (m m' : Mem) (b o sz n fuel : Nat) (cmp cmp' : Cmp) (hw : StrictWeak cmp) (hw' : StrictWeak cmp')
    (h : HeapSetup m b o sz n) (h' : HeapSetup m' b o sz n) (hf : n < 2 ^ fuel)
    (hn : NoTies cmp n (elems (m.bytes b) o sz n)) (hn' : NoTies cmp' n (elems (m'.bytes b) o sz n)) :
    ∃ t r t' r', heapSortT fuel (ptr b o) n sz cmp m = .ok ((), t) r ∧
      heapSortT fuel (ptr b o) n sz cmp' m' = .ok ((), t') r' ∧
      (t = t' ↔ CompareAlike cmp cmp' n (elems (m.bytes b) o sz n) (elems (m'.bytes b) o sz n)) := by
  obtain ⟨t, r, t', r', h1, h2, k1, k2⟩ := C147_heap m m' b o sz n fuel cmp cmp' h h' hf
  refine ⟨t, r, t', r', h1, h2, fun e => ?_, k1⟩
  obtain ⟨q, g1, -, -, s1⟩ := C41_heap_sorts m b o sz n fuel cmp hw h hf
  obtain ⟨q', g2, -, -, s2⟩ := C41_heap_sorts m' b o sz n fuel cmp' hw' h' hf
  rw [← (C147_same_code _ (ptr 0 0) _ _ _ _).2.2.1] at g1 g2
  unfold erase at g1 g2
  rw [h1] at g1
  rw [h2] at g2
  cases g1; cases g2
  exact moves_alike hw hw' hn hn' (k2 e) s1 s2

/-- C147: of arrays without ties, an observer of insertion sort learns the order of the elements, and nothing else. -/
theorem C147_insertion_order (m m' : Mem) (st b o sz n : Nat) (cmp cmp' : Cmp) (hw : StrictWeak cmp) (hw' : StrictWeak cmp')
    (h : ArraySetup m b o sz n) (h' : ArraySetup m' b o sz n) (hst : st ≠ b)
    (hl : (m.bytes st).length = 64) (hl' : (m'.bytes st).length = 64) (h64 : sz ≤ 64) (ho : sz ≤ o)
    (hn : NoTies cmp n (elems (m.bytes b) o sz n)) (hn' : NoTies cmp' n (elems (m'.bytes b) o sz n)) :
    ∃ t r t' r', insertionSortT (ptr st 0) (ptr b o) n sz cmp m = .ok ((), t) r ∧
      insertionSortT (ptr st 0) (ptr b o) n sz cmp' m' = .ok ((), t') r' ∧
      (t = t' ↔ CompareAlike cmp cmp' n (elems (m.bytes b) o sz n) (elems (m'.bytes b) o sz n)) := by
  obtain ⟨t, r, t', r', h1, h2, k1, k2⟩ := C147_insertion m m' st b o sz n cmp cmp' h h' hst hl hl' h64 ho
  refine ⟨t, r, t', r', h1, h2, fun e => ?_, k1⟩
  obtain ⟨q, _, g1, -, -, -, -, s1⟩ := C40_insertion_sorts m st b o sz n cmp hw h hst hl h64 ho
  obtain ⟨q', _, g2, -, -, -, -, s2⟩ := C40_insertion_sorts m' st b o sz n cmp' hw' h' hst hl' h64 ho
  rw [← (C147_same_code 0 _ _ _ _ _).2.2.2] at g1 g2
  unfold erase at g1 g2
  rw [h1] at g1
  rw [h2] at g2
  cases g1; cases g2
  exact moves_alike hw hw' hn hn' (k2 e) s1 s2

/-- What a run shows. -/
def shownOf (x : Res (Unit × List Leak)) : List Leak :=
  match x with
  | .ok (_, t) _ => t
  | .ub _ => []

/-- Non-vacuity: the arrays 2 1 3 and 9 0 200 have no ties and compare alike; 1 2 3 does not compare like them. -/
example : ArraySetup (mem1 [2, 1, 3]) 0 0 1 3 ∧ ArraySetup (mem1 [9, 0, 200]) 0 0 1 3 ∧
    HeapSetup (mem1 [2, 1, 3, 7, 7, 7, 7]) 0 0 1 3 ∧
    NoTies byFirst 3 (elems [2, 1, 3] 0 1 3) ∧ NoTies byFirst 3 (elems [9, 0, 200] 0 1 3) ∧
    CompareAlike byFirst byFirst 3 (elems [2, 1, 3] 0 1 3) (elems [9, 0, 200] 0 1 3) ∧
    ¬ CompareAlike byFirst byFirst 3 (elems [2, 1, 3] 0 1 3) (elems [1, 2, 3] 0 1 3) := by
  refine ⟨⟨?_, ?_, ?_, ?_⟩, ⟨?_, ?_, ?_, ?_⟩, ⟨?_, ?_, ?_, ?_⟩, ?_, ?_, ?_, ?_⟩ <;> try decide
  · intro i j hi hj hij
    rcases i with _ | _ | _ | i <;> rcases j with _ | _ | _ | j <;> first | omega | decide
  · intro i j hi hj hij
    rcases i with _ | _ | _ | i <;> rcases j with _ | _ | _ | j <;> first | omega | decide
  · intro i j hi hj
    rcases i with _ | _ | _ | i <;> rcases j with _ | _ | _ | j <;> first | omega | decide
  · intro h
    have := h 0 1 (by decide) (by decide)
    revert this
    decide

/-- ... what bubble sort shows of two elements in the wrong order: a pass with a comparison, a swap of one byte, and a
pass without elements. -/
example : shownOf (bubbleSortT 2 (ptr 0 0) 2 1 byFirst (mem1 [2, 1])) =
    [.branch true, .branch true, .read (ptr 0 0), .read (ptr 0 1), .branch true, .branch true,
      .read (ptr 0 0), .read (ptr 0 1), .write (ptr 0 0), .write (ptr 0 1), .branch false,
      .branch false, .branch true, .branch false, .branch false] := by decide

/-- ... and heap sort shows the same whatever stands behind the array. -/
example : shownOf (heapSortT 2 (ptr 0 0) 3 1 byFirst (mem1 [2, 1, 3, 7, 7, 7, 7])) =
    shownOf (heapSortT 2 (ptr 0 0) 3 1 byFirst (mem1 [9, 0, 200, 0, 0, 0, 0])) ∧
    shownOf (heapSortT 2 (ptr 0 0) 3 1 byFirst (mem1 [2, 1, 3, 7, 7, 7, 7])) ≠
    shownOf (heapSortT 2 (ptr 0 0) 3 1 byFirst (mem1 [1, 2, 3, 7, 7, 7, 7])) := by decide +kernel

/-- ... insertion sort of two elements in the wrong order, behind one byte: the byte before the array is read. -/
example : shownOf (insertionSortT (ptr 1 0) (ptr 0 1) 2 1 byFirst ((mem1 [7, 2, 1]).upd 1 (List.replicate 64 0))) =
    [.branch true, .read (ptr 0 2), .write (ptr 1 0), .read (ptr 0 1), .read (ptr 1 0), .branch true, .branch true,
      .read (ptr 0 1), .write (ptr 0 2), .read (ptr 0 0), .read (ptr 1 0), .branch false, .read (ptr 1 0), .write (ptr 0 1),
      .branch false] := by decide +kernel

/-- ... which meets the hypotheses. -/
example : ArraySetup ((mem1 [7, 2, 1]).upd 1 (List.replicate 64 0)) 0 1 1 2 ∧
    (((mem1 [7, 2, 1]).upd 1 (List.replicate 64 0)).bytes 1).length = 64 ∧
    NoTies byFirst 2 (elems (((mem1 [7, 2, 1]).upd 1 (List.replicate 64 0)).bytes 0) 1 1 2) := by
  refine ⟨⟨?_, ?_, ?_, ?_⟩, ?_, ?_⟩ <;> try decide +kernel
  intro i j hi hj hij
  rcases i with _ | _ | i <;> rcases j with _ | _ | j <;> first | omega | decide +kernel

/-- ... with ties the order of the elements is not shown completely: bubble sort shows the same of 1 1 and of 1 2. -/
example : shownOf (bubbleSortT 2 (ptr 0 0) 2 1 byFirst (mem1 [1, 1])) =
    shownOf (bubbleSortT 2 (ptr 0 0) 2 1 byFirst (mem1 [1, 2])) ∧
    ¬ CompareAlike byFirst byFirst 2 (elems [1, 1] 0 1 2) (elems [1, 2] 0 1 2) := by
  refine ⟨by decide +kernel, fun h => ?_⟩
  have := h 1 0 (by decide) (by decide)
  revert this
  decide

end IMU.Props
