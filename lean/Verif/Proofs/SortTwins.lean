import Verif.Proofs.SortCongr
import Verif.Proofs.SortGlue

/-!
# Two runs of a sort on arrays whose elements compare alike
-/

namespace IMU.Sort
open Spec Utils

/-- Elements of the two arrays at the same place. -/
abbrev Twin := List Byte × List Byte

/-- The comparators see no difference between the first and the second components. -/
def Alike (g g' : Cmp) (Z : List Twin) : Prop := ∀ p ∈ Z, ∀ q ∈ Z, g p.1 q.1 = g' p.2 q.2

theorem Alike.perm {g g' : Cmp} {Z Z' : List Twin} (h : Alike g g' Z) (hp : Z.Perm Z') : Alike g g' Z' :=
  fun p hpm q hq => h p (hp.mem_iff.2 hpm) q (hp.mem_iff.2 hq)

/-- An array of `sz`-byte elements at byte `o` of object `b`, with the elements `T` behind it. -/
structure Side where
  m0 : Mem
  b : Nat
  o : Nat
  sz : Nat
  T : List (List Byte)

def Side.mem (s : Side) (l : List (List Byte)) : Mem := arr s.m0 s.b s.o (l ++ s.T)

structure Side.Ok (s : Side) (l : List (List Byte)) : Prop where
  sz_lt : s.sz < 2 ^ 31
  fits : Fits s.m0 s.b s.o s.sz (l ++ s.T)
  lim : ((l ++ s.T).length - 1) * s.sz < 2 ^ 31
  n_lt : (l ++ s.T).length < 2 ^ 31

theorem Side.Ok.perm {s : Side} {l l' : List (List Byte)} (h : s.Ok l) (hp : l.Perm l') : s.Ok l' := by
  have hp' : (l ++ s.T).Perm (l' ++ s.T) := hp.append_right _
  exact ⟨h.sz_lt, h.fits.perm hp', by rw [← hp'.length_eq]; exact h.lim, by rw [← hp'.length_eq]; exact h.n_lt⟩

theorem Side.Ok.mul {s : Side} {l : List (List Byte)} (h : s.Ok l) {i : Nat} (hi : i < l.length) : i * s.sz < 2 ^ 31 :=
  mul_lim h.lim (by rw [List.length_append]; omega)

theorem Side.compare {s : Side} {l : List (List Byte)} (h : s.Ok l) (g : Cmp) {i j : Nat} {x y : List Byte}
    (hx : l[i]? = some x) (hy : l[j]? = some y) :
    compareAt g (ptr s.b s.o) s.sz i j (s.mem l) = .ok (g x y) (s.mem l) := by
  have hi := (List.getElem?_eq_some_iff.mp hx).1
  have hj := (List.getElem?_eq_some_iff.mp hy).1
  exact compareAt_ok g h.fits (h.mul hi) (h.mul hj) (by rw [List.getElem?_append_left hi, hx])
    (by rw [List.getElem?_append_left hj, hy])

theorem swapAt_append {α} (l T : List α) {i j : Nat} (hi : i < l.length) (hj : j < l.length) :
    swapAt (l ++ T) i j = swapAt l i j ++ T := by
  unfold swapAt
  rw [List.getElem?_append_left hi, List.getElem?_append_left hj, List.getElem?_eq_getElem hi, List.getElem?_eq_getElem hj]
  simp only
  rw [List.set_append_left _ _ hi, List.set_append_left _ _ (by simpa using hj)]

theorem swapAt_map {α β} (f : α → β) (l : List α) (i j : Nat) : swapAt (l.map f) i j = (swapAt l i j).map f := by
  unfold swapAt
  rw [List.getElem?_map, List.getElem?_map]
  cases l[i]? <;> cases l[j]? <;> simp [List.map_set]

theorem Side.swap {s : Side} {l : List (List Byte)} (h : s.Ok l) {i j : Nat} (hi : i < l.length) (hj : j < l.length) :
    swapElems (ptr s.b s.o) s.sz i j (s.mem l) = .ok () (s.mem (swapAt l i j)) := by
  unfold Side.mem
  rw [swapElems_ok h.fits h.sz_lt (h.mul hi) (h.mul hj) (by rw [List.length_append]; omega)
    (by rw [List.length_append]; omega), swapAt_append _ _ hi hj]

/-- Both memories hold the twins in the same order. -/
def Two (s s' : Side) (Z0 : List Twin) (m m' : Mem) : Prop :=
  ∃ Z, Z0.Perm Z ∧ m = s.mem (Z.map Prod.fst) ∧ m' = s'.mem (Z.map Prod.snd)

/-- What is assumed of the two arrays. -/
structure Twins (s s' : Side) (g g' : Cmp) (Z : List Twin) : Prop where
  ok : s.Ok (Z.map Prod.fst)
  ok' : s'.Ok (Z.map Prod.snd)
  alike : Alike g g' Z

theorem Twins.perm {s s' : Side} {g g' : Cmp} {Z Z' : List Twin} (h : Twins s s' g g' Z) (hp : Z.Perm Z') :
    Twins s s' g g' Z' := ⟨h.ok.perm (hp.map _), h.ok'.perm (hp.map _), h.alike.perm hp⟩

theorem Twins.compare {s s' : Side} {g g' : Cmp} {Z : List Twin} (h : Twins s s' g g' Z) {i j : Nat}
    (hi : i < Z.length) (hj : j < Z.length) :
    ∃ c, compareAt g (ptr s.b s.o) s.sz i j (s.mem (Z.map Prod.fst)) = .ok c (s.mem (Z.map Prod.fst)) ∧
      compareAt g' (ptr s'.b s'.o) s'.sz i j (s'.mem (Z.map Prod.snd)) = .ok c (s'.mem (Z.map Prod.snd)) := by
  have e : ∀ {k} (hk : k < Z.length) (β) (f : Twin → β), (Z.map f)[k]? = some (f Z[k]) := by
    intro k hk β f
    rw [List.getElem?_map, List.getElem?_eq_getElem hk]; rfl
  refine ⟨g Z[i].1 Z[j].1, Side.compare h.ok g (e hi _ _) (e hj _ _), ?_⟩
  rw [h.alike _ (List.getElem_mem hi) _ (List.getElem_mem hj)]
  exact Side.compare h.ok' g' (e hi _ _) (e hj _ _)

theorem Twins.swap {s s' : Side} {g g' : Cmp} {Z : List Twin} (h : Twins s s' g g' Z) {i j : Nat}
    (hi : i < Z.length) (hj : j < Z.length) :
    swapElems (ptr s.b s.o) s.sz i j (s.mem (Z.map Prod.fst)) = .ok () (s.mem ((swapAt Z i j).map Prod.fst)) ∧
      swapElems (ptr s'.b s'.o) s'.sz i j (s'.mem (Z.map Prod.snd)) = .ok () (s'.mem ((swapAt Z i j).map Prod.snd)) := by
  rw [← swapAt_map, ← swapAt_map]
  exact ⟨Side.swap h.ok (by simpa using hi) (by simpa using hj), Side.swap h.ok' (by simpa using hi) (by simpa using hj)⟩

theorem forN_two {σ} (I : Nat → σ → Mem → Mem → Prop) (f f' : Nat → σ → C σ) (n : Nat) : ∀ (i : Nat) (s : σ) (m m' : Mem),
    I i s m m' →
    (∀ k s m m', i ≤ k → k < i + n → I k s m m' →
      ∃ t r r', f k s m = .ok t r ∧ f' k s m' = .ok t r' ∧ I (k + 1) t r r') →
    ∃ t r r', forN n i f s m = .ok t r ∧ forN n i f' s m' = .ok t r' ∧ I (i + n) t r r' := by
  induction n with
  | zero => intro i s m m' h _; exact ⟨s, m, m', rfl, rfl, h⟩
  | succ n ih =>
    intro i s m m' h hs
    obtain ⟨t, r, r', h1, h2, h3⟩ := hs i s m m' (by omega) (by omega) h
    obtain ⟨u, q, q', k1, k2, k3⟩ := ih (i + 1) t r r' h3 (fun k s m m' a b => hs k s m m' (by omega) (by omega))
    refine ⟨u, q, q', ?_, ?_, ?_⟩
    · rw [forN_succ, h1]; exact k1
    · rw [forN_succ, h2]; exact k2
    · rw [show i + (n + 1) = i + 1 + n by omega]; exact k3

theorem forDown_two {σ} (I : σ → Mem → Mem → Prop) (f f' : Nat → σ → C σ) (n : Nat) : ∀ (s : σ) (m m' : Mem),
    I s m m' → (∀ k s m m', k < n → I s m m' → ∃ t r r', f k s m = .ok t r ∧ f' k s m' = .ok t r' ∧ I t r r') →
    ∃ t r r', forDown n f s m = .ok t r ∧ forDown n f' s m' = .ok t r' ∧ I t r r' := by
  induction n with
  | zero => intro s m m' h _; exact ⟨s, m, m', rfl, rfl, h⟩
  | succ n ih =>
    intro s m m' h hs
    obtain ⟨t, r, r', h1, h2, h3⟩ := hs n s m m' (by omega) h
    obtain ⟨u, q, q', k1, k2, k3⟩ := ih t r r' h3 (fun k s m m' a => hs k s m m' (by omega))
    refine ⟨u, q, q', ?_, ?_, k3⟩
    · rw [forDown_succ, h1]; exact k1
    · rw [forDown_succ, h2]; exact k2

/-! ### Bubble sort -/

theorem bubblePass_two {s s' : Side} {g g' : Cmp} {Z : List Twin} (h : Twins s s' g g' Z) (c : Nat) (hc : c + 1 ≤ Z.length ∨ c = 0) :
    ∃ w r r', bubblePass g (ptr s.b s.o) s.sz c (s.mem (Z.map Prod.fst)) = .ok w r ∧
      bubblePass g' (ptr s'.b s'.o) s'.sz c (s'.mem (Z.map Prod.snd)) = .ok w r' ∧ Two s s' Z r r' ∧ (c = 0 → w = false) := by
  by_cases h0 : c = 0
  · subst h0
    exact ⟨false, _, _, rfl, rfl, ⟨Z, .refl _, rfl, rfl⟩, fun _ => rfl⟩
  have := forN_two (fun _ (_ : Bool) m m' => Two s s' Z m m')
    (fun j swapped => do
      let c ← compareAt g (ptr s.b s.o) s.sz j (j + 1)
      if c then do
        swapElems (ptr s.b s.o) s.sz j (j + 1)
        return true
      else return swapped)
    (fun j swapped => do
      let c ← compareAt g' (ptr s'.b s'.o) s'.sz j (j + 1)
      if c then do
        swapElems (ptr s'.b s'.o) s'.sz j (j + 1)
        return true
      else return swapped) c 0 false _ _ ⟨Z, .refl _, rfl, rfl⟩ (by
    rintro k w m m' - hk ⟨Z1, hp, rfl, rfl⟩
    have hl := hp.length_eq
    have ht := h.perm hp
    obtain ⟨d, c1, c2⟩ := ht.compare (i := k) (j := k + 1) (by omega) (by omega)
    have e : ((k + 1 : Nat) : Int) = (k : Int) + 1 := by simp
    rw [e] at c1 c2
    cases d with
    | false =>
      refine ⟨w, _, _, ?_, ?_, ⟨Z1, hp, rfl, rfl⟩⟩
      · rw [C.bind_ok c1]; rfl
      · rw [C.bind_ok c2]; rfl
    | true =>
      obtain ⟨w1, w2⟩ := ht.swap (i := k) (j := k + 1) (by omega) (by omega)
      rw [e] at w1 w2
      refine ⟨true, _, _, ?_, ?_, ⟨swapAt Z1 k (k + 1), hp.trans (swapAt_perm _ _ _), rfl, rfl⟩⟩
      · rw [C.bind_ok c1]; simp only [if_true]; rw [C.bind_ok w1]; rfl
      · rw [C.bind_ok c2]; simp only [if_true]; rw [C.bind_ok w2]; rfl)
  obtain ⟨w, r, r', h1, h2, h3⟩ := this
  exact ⟨w, r, r', h1, h2, h3, fun e => absurd e h0⟩

theorem bubbleLoop_two {s s' : Side} {g g' : Cmp} (n : Nat) (hn : n < 2 ^ 31) (fuel : Nat) :
    ∀ (fuel' i : Nat) (Z : List Twin), Twins s s' g g' Z → Z.length = n → i + 1 ≤ n ∨ i = 0 → n ≤ i + fuel → n ≤ i + fuel' →
      1 ≤ fuel → 1 ≤ fuel' →
    ∃ r r', bubbleLoop g (ptr s.b s.o) n s.sz fuel i (s.mem (Z.map Prod.fst)) = .ok () r ∧
      bubbleLoop g' (ptr s'.b s'.o) n s'.sz fuel' i (s'.mem (Z.map Prod.snd)) = .ok () r' ∧ Two s s' Z r r' := by
  induction fuel with
  | zero => intro fuel' i Z _ _ _ _ _ h; omega
  | succ fuel ih =>
    intro fuel' i Z h hl hi hf hf' _ h1'
    obtain ⟨fuel', rfl⟩ : ∃ k, fuel' = k + 1 := ⟨fuel' - 1, by omega⟩
    rw [bubbleLoop, bubbleLoop]
    obtain ⟨w, r, r', p1, p2, p3, p4⟩ := bubblePass_two h (n - i - 1) (by omega)
    have hb : ∀ (x : Cmp) (t : Side), bubblePass x (ptr t.b t.o) t.sz ((n : Int) - i - 1) =
        bubblePass x (ptr t.b t.o) t.sz ((n - i - 1 : Nat) : Int) := by
      intro x t
      unfold bubblePass
      rw [show ((n : Int) - i - 1).toNat = ((n - i - 1 : Nat) : Int).toNat by omega]
    rw [C.bind_ok (i32_ok (by omega) (by omega) _), C.bind_ok (i32_ok (by omega) (by omega) _), hb, C.bind_ok p1,
      C.bind_ok (i32_ok (by omega) (by omega) _), C.bind_ok (i32_ok (by omega) (by omega) _),
      C.bind_ok (i32_ok (by omega) (by omega) _), hb, C.bind_ok p2, C.bind_ok (i32_ok (by omega) (by omega) _)]
    cases w with
    | false => exact ⟨r, r', rfl, rfl, p3⟩
    | true =>
      have hc : n - i - 1 ≠ 0 := fun e => absurd (p4 e) (by simp)
      simp only [if_true]
      obtain ⟨Z1, hp, rfl, rfl⟩ := p3
      obtain ⟨q, q', k1, k2, Z2, hp2, k3, k4⟩ := ih fuel' (i + 1) Z1 (h.perm hp) (by rw [← hp.length_eq]; exact hl)
        (by omega) (by omega) (by omega) (by omega) (by omega)
      exact ⟨q, q', k1, k2, Z2, hp.trans hp2, k3, k4⟩

/-! ### Selection sort -/

theorem selectMin_two {s s' : Side} {g g' : Cmp} {Z : List Twin} (h : Twins s s' g g' Z) {n : Nat} (hl : Z.length = n)
    (hn : n < 2 ^ 31) {i : Nat} (hi : i < n) :
    ∃ k, k < n ∧ selectMin g (ptr s.b s.o) n s.sz i (s.mem (Z.map Prod.fst)) = .ok k (s.mem (Z.map Prod.fst)) ∧
      selectMin g' (ptr s'.b s'.o) n s'.sz i (s'.mem (Z.map Prod.snd)) = .ok k (s'.mem (Z.map Prod.snd)) := by
  have key := forN_two (fun _ (k : Nat) m m' => k < n ∧ m = s.mem (Z.map Prod.fst) ∧ m' = s'.mem (Z.map Prod.snd))
    (fun j min_index => do
      let c ← compareAt g (ptr s.b s.o) s.sz min_index j
      return if c then j else min_index)
    (fun j min_index => do
      let c ← compareAt g' (ptr s'.b s'.o) s'.sz min_index j
      return if c then j else min_index) (n - (i + 1)) (i + 1) i _ _ ⟨hi, rfl, rfl⟩ (by
    rintro j k m m' h1 h2 ⟨h3, rfl, rfl⟩
    obtain ⟨d, c1, c2⟩ := h.compare (i := k) (j := j) (by omega) (by omega)
    refine ⟨if d then j else k, _, _, ?_, ?_, ?_, rfl, rfl⟩
    · rw [C.bind_ok c1]; rfl
    · rw [C.bind_ok c2]; rfl
    · split <;> omega)
  obtain ⟨k, r, r', h1, h2, h3, rfl, rfl⟩ := key
  refine ⟨k, h3, ?_, ?_⟩
  · unfold selectMin
    rw [C.bind_ok (i32_ok (by omega) (by omega) _), show ((n : Int) - ((i : Int) + 1)).toNat = n - (i + 1) by omega]
    exact h1
  · unfold selectMin
    rw [C.bind_ok (i32_ok (by omega) (by omega) _), show ((n : Int) - ((i : Int) + 1)).toNat = n - (i + 1) by omega]
    exact h2

theorem selectionSort_two {s s' : Side} {g g' : Cmp} {Z : List Twin} (h : Twins s s' g g' Z) {n : Nat} (hl : Z.length = n)
    (hn : n < 2 ^ 31) :
    ∃ r r', selectionSort (ptr s.b s.o) n s.sz g (s.mem (Z.map Prod.fst)) = .ok () r ∧
      selectionSort (ptr s'.b s'.o) n s'.sz g' (s'.mem (Z.map Prod.snd)) = .ok () r' ∧ Two s s' Z r r' := by
  unfold selectionSort
  rw [C.bind_ok (i32_ok (by omega) (by omega) _), C.bind_ok (i32_ok (by omega) (by omega) _)]
  obtain ⟨⟨⟩, r, r', h1, h2, h3⟩ := forN_two (fun _ (_ : Unit) m m' => Two s s' Z m m')
    (fun i _ => do
      let min_index ← selectMin g (ptr s.b s.o) n s.sz i
      if min_index ≠ i then swapElems (ptr s.b s.o) s.sz min_index i else return ())
    (fun i _ => do
      let min_index ← selectMin g' (ptr s'.b s'.o) n s'.sz i
      if min_index ≠ i then swapElems (ptr s'.b s'.o) s'.sz min_index i else return ())
    ((n : Int) - 1).toNat 0 () _ _ ⟨Z, .refl _, rfl, rfl⟩ (by
    rintro i ⟨⟩ m m' - hi ⟨Z1, hp, rfl, rfl⟩
    have ht := h.perm hp
    have hl1 : Z1.length = n := by rw [← hp.length_eq, hl]
    obtain ⟨k, hk, c1, c2⟩ := selectMin_two ht hl1 hn (i := i) (by omega)
    by_cases hki : k = i
    · refine ⟨(), _, _, ?_, ?_, ⟨Z1, hp, rfl, rfl⟩⟩
      · rw [C.bind_ok c1, if_neg (by simp [hki])]; rfl
      · rw [C.bind_ok c2, if_neg (by simp [hki])]; rfl
    · obtain ⟨w1, w2⟩ := ht.swap (i := k) (j := i) (by omega) (by omega)
      refine ⟨(), _, _, ?_, ?_, ⟨swapAt Z1 k i, hp.trans (swapAt_perm _ _ _), rfl, rfl⟩⟩
      · rw [C.bind_ok c1, if_pos hki]; exact w1
      · rw [C.bind_ok c2, if_pos hki]; exact w2)
  exact ⟨r, r', h1, h2, h3⟩

/-! ### Heap sort -/

theorem pick_two {s s' : Side} {g g' : Cmp} {Z : List Twin} (h : Alike g g' Z) {k x : Nat} (hk : k ≤ Z.length)
    (hx : x < Z.length) :
    pick g (Z.map Prod.fst ++ s.T) k x = pick g' (Z.map Prod.snd ++ s'.T) k x := by
  have ha : ∀ p q, p < Z.length → q < Z.length →
      g ((Z.map Prod.fst ++ s.T).getD p []) ((Z.map Prod.fst ++ s.T).getD q []) =
      g' ((Z.map Prod.snd ++ s'.T).getD p []) ((Z.map Prod.snd ++ s'.T).getD q []) := by
    intro p q hp hq
    have e : ∀ (f : Twin → List Byte) (T : List (List Byte)) {i} (hi : i < Z.length),
        (Z.map f ++ T).getD i [] = f Z[i] := by
      intro f T i hi
      rw [List.getD_eq_getElem?_getD, List.getElem?_append_left (by simpa using hi), List.getElem?_map,
        List.getElem?_eq_getElem hi]; rfl
    rw [e _ _ hp, e _ _ hq, e _ _ hp, e _ _ hq]
    exact h _ (List.getElem_mem hp) _ (List.getElem_mem hq)
  have h1 : pickL g (Z.map Prod.fst ++ s.T) k x = pickL g' (Z.map Prod.snd ++ s'.T) k x := by
    unfold pickL
    by_cases hc : 2 * x + 1 < k
    · rw [ha _ _ (by omega) hx]
    · rw [if_neg (by omega), if_neg (by omega)]
  have h2 := pickL_cases g' (Z.map Prod.snd ++ s'.T) k x
  unfold pick
  rw [h1]
  by_cases hc : 2 * x + 2 < k
  · rw [ha _ _ (by omega) (by omega)]
  · rw [if_neg (by omega), if_neg (by omega)]

theorem heapify_two {s s' : Side} {g g' : Cmp} {n : Nat} (hT : n < s.T.length) (hT' : n < s'.T.length) (fuel : Nat) :
    ∀ (fuel' : Nat) (Z : List Twin) (k x : Nat), Twins s s' g g' Z → Z.length = n → k ≤ n → x < n →
    k < (x + 1) * 2 ^ fuel → k < (x + 1) * 2 ^ fuel' → 1 ≤ fuel → 1 ≤ fuel' →
    ∃ r r', heapifyLoop g (ptr s.b s.o) (k : Int) s.sz fuel (x : Int) (s.mem (Z.map Prod.fst)) = .ok () r ∧
      heapifyLoop g' (ptr s'.b s'.o) (k : Int) s'.sz fuel' (x : Int) (s'.mem (Z.map Prod.snd)) = .ok () r' ∧
      Two s s' Z r r' := by
  induction fuel with
  | zero => intro fuel' Z k x _ _ _ _ _ _ h; omega
  | succ fuel ih =>
    intro fuel' Z k x h hl hk hx hfu hfu' _ h1'
    obtain ⟨fuel', rfl⟩ : ∃ k, fuel' = k + 1 := ⟨fuel' - 1, by omega⟩
    have e1 := heapify_unfold g h.ok.fits h.ok.lim h.ok.n_lt fuel k x (by simp; omega)
    have e2 := heapify_unfold g' h.ok'.fits h.ok'.lim h.ok'.n_lt fuel' k x (by simp; omega)
    have hpk := pick_two (s := s) (s' := s') h.alike (k := k) (x := x) (by omega) (by omega)
    rw [← hpk] at e2
    have hcases := pick_cases g (Z.map Prod.fst ++ s.T) k x
    generalize pick g (Z.map Prod.fst ++ s.T) k x = y at *
    by_cases hp : y = x
    · rw [if_neg (by simp [hp]), C.pure_run] at e1 e2
      exact ⟨_, _, e1, e2, Z, .refl _, rfl, rfl⟩
    · rw [if_pos hp] at e1 e2
      obtain ⟨hc, hch⟩ := hcases.resolve_left hp
      have hxc : x < y := by unfold Child at hc; omega
      have hbd : ∀ f, k < (x + 1) * 2 ^ (f + 1) → k < (y + 1) * 2 ^ f := by
        intro f hf
        rw [Nat.pow_succ, ← Nat.mul_assoc, Nat.mul_right_comm] at hf
        exact Nat.lt_of_lt_of_le hf (Nat.mul_le_mul_right _ (by unfold Child at hc; omega))
      have hpos : ∀ f, k < (y + 1) * 2 ^ f → 1 ≤ f := by
        intro f hf
        rcases Nat.eq_zero_or_pos f with h0 | h0
        · rw [h0] at hf; omega
        · exact h0
      obtain ⟨w1, w2⟩ := h.swap (i := x) (j := y) (by omega) (by omega)
      unfold Side.mem at w1 w2
      rw [C.bind_ok w1] at e1
      rw [C.bind_ok w2] at e2
      have hsp := swapAt_perm Z x y
      obtain ⟨r, r', k1, k2, Z2, k3, k4, k5⟩ := ih fuel' (swapAt Z x y) k y (h.perm hsp)
        (by rw [swapAt_length]; exact hl) hk (by omega) (hbd _ hfu) (hbd _ hfu') (hpos _ (hbd _ hfu)) (hpos _ (hbd _ hfu'))
      exact ⟨r, r', e1.trans k1, e2.trans k2, Z2, hsp.trans k3, k4, k5⟩

theorem heapSort_two {s s' : Side} {g g' : Cmp} {n : Nat} (hT : n < s.T.length) (hT' : n < s'.T.length)
    {fuel fuel' : Nat} (hfu : n < 2 ^ fuel) (hfu' : n < 2 ^ fuel') {Z : List Twin} (h : Twins s s' g g' Z) (hl : Z.length = n) :
    ∃ r r', heapSort fuel (ptr s.b s.o) n s.sz g (s.mem (Z.map Prod.fst)) = .ok () r ∧
      heapSort fuel' (ptr s'.b s'.o) n s'.sz g' (s'.mem (Z.map Prod.snd)) = .ok () r' ∧ Two s s' Z r r' := by
  have hn : n < 2 ^ 31 := by have := h.ok.n_lt; simp at this; omega
  have hpos : ∀ f, n < 2 ^ f → 0 < n → 1 ≤ f := by
    intro f hf h0
    rcases Nat.eq_zero_or_pos f with h1 | h1
    · rw [h1] at hf; omega
    · exact h1
  have hbd : ∀ f k x, n < 2 ^ f → k ≤ n → k < (x + 1) * 2 ^ f := fun f k x hf hk =>
    Nat.lt_of_le_of_lt hk (Nat.lt_of_lt_of_le hf (Nat.le_mul_of_pos_left _ (by omega)))
  unfold heapSort
  have hd : ((n : Int).tdiv 2) = ((n / 2 : Nat) : Int) := by
    rw [Int.tdiv_eq_ediv_of_nonneg (by omega)]; omega
  rw [hd, C.bind_ok (i32_ok (by omega) (by omega) _), C.bind_ok (i32_ok (by omega) (by omega) _)]
  rw [show (((n / 2 : Nat) : Int) - 1 + 1).toNat = n / 2 by omega]
  obtain ⟨⟨⟩, r, r', a1, a2, Z1, hp1, rfl, rfl⟩ := forDown_two (fun (_ : Unit) m m' => Two s s' Z m m')
    (fun i _ => heapifyLoop g (ptr s.b s.o) n s.sz fuel (i : Int))
    (fun i _ => heapifyLoop g' (ptr s'.b s'.o) n s'.sz fuel' (i : Int)) (n / 2) () _ _ ⟨Z, .refl _, rfl, rfl⟩ (by
      rintro k ⟨⟩ m m' hk ⟨Z1, hp, rfl, rfl⟩
      obtain ⟨r, r', k1, k2, Z2, k3, k4, k5⟩ := heapify_two hT hT' fuel fuel' Z1 n k (h.perm hp)
        (by rw [← hp.length_eq]; exact hl) (by omega) (by omega) (hbd _ _ _ hfu (by omega)) (hbd _ _ _ hfu' (by omega))
        (hpos _ hfu (by omega)) (hpos _ hfu' (by omega))
      exact ⟨(), r, r', k1, k2, Z2, hp.trans k3, k4, k5⟩)
  rw [C.bind_ok a1, C.bind_ok a2, C.bind_ok (i32_ok (by omega) (by omega) _), C.bind_ok (i32_ok (by omega) (by omega) _)]
  rw [show ((n : Int) - 1 + 1).toNat = n by omega]
  obtain ⟨⟨⟩, r, r', b1, b2, b3⟩ := forDown_two (fun (_ : Unit) m m' => Two s s' Z m m')
    (fun i _ => do
        swapElems (ptr s.b s.o) s.sz 0 (i : Int)
        heapifyLoop g (ptr s.b s.o) (i : Int) s.sz fuel 0)
    (fun i _ => do
        swapElems (ptr s'.b s'.o) s'.sz 0 (i : Int)
        heapifyLoop g' (ptr s'.b s'.o) (i : Int) s'.sz fuel' 0) n () _ _ ⟨Z1, hp1, rfl, rfl⟩ (by
      rintro i ⟨⟩ m m' hi ⟨Z2, hp, rfl, rfl⟩
      have ht := h.perm hp
      have hl2 : Z2.length = n := by rw [← hp.length_eq, hl]
      obtain ⟨w1, w2⟩ := ht.swap (i := 0) (j := i) (by omega) (by omega)
      have hsp := swapAt_perm Z2 0 i
      obtain ⟨r, r', k1, k2, Z3, k3, k4, k5⟩ := heapify_two hT hT' fuel fuel' (swapAt Z2 0 i) i 0 (ht.perm hsp)
        (by rw [swapAt_length]; exact hl2) (by omega) (by omega) (hbd _ _ _ hfu (by omega)) (hbd _ _ _ hfu' (by omega))
        (hpos _ hfu (by omega)) (hpos _ hfu' (by omega))
      rw [Int.natCast_zero] at w1 w2 k1 k2
      refine ⟨(), r, r', ?_, ?_, Z3, (hp.trans hsp).trans k3, k4, k5⟩
      · rw [C.bind_ok w1]; exact k1
      · rw [C.bind_ok w2]; exact k2)
  exact ⟨r, r', b1, b2, b3⟩

/-! ### Insertion sort -/

/-- What is assumed of one side of insertion sort. -/
structure ISide (m0 : Mem) (st b o sz : Nat) (X : List Byte) (l : List (List Byte)) : Prop where
  sz_lt : sz < 2 ^ 31
  fits : IFits m0 st b o sz X l
  lim : (l.length - 1) * sz < 2 ^ 31
  before : sz ≤ o

theorem ISide.next {m0 : Mem} {st b o sz : Nat} {X : List Byte} {l l' : List (List Byte)} (h : ISide m0 st b o sz X l)
    (hp : l.Perm l') {e : List Byte} (he : e ∈ l) : ISide m0 st b o sz (splice X 0 e) l' := by
  have hr := h.fits.room
  have hel : e.length = sz := h.fits.fits.chunks e he
  exact ⟨h.sz_lt, ⟨h.fits.fits.perm hp, h.fits.apart, by rw [splice_length _ _ _ (by omega)]; exact hr⟩,
    by rw [← hp.length_eq]; exact h.lim, h.before⟩

theorem insertion_two {g g' : Cmp} {m0 m0' : Mem} {st b o sz st' b' o' sz' : Nat} (R : List Twin) :
    ∀ (P : List Twin) (X X' : List Byte), P ≠ [] → ISide m0 st b o sz X ((P ++ R).map Prod.fst) →
    ISide m0' st' b' o' sz' X' ((P ++ R).map Prod.snd) → Alike g g' (P ++ R) →
    ∃ Z Y Y', (P ++ R).Perm Z ∧ X.length = Y.length ∧ X'.length = Y'.length ∧
      forN R.length P.length (insertionBody g st b o sz) () (imem m0 st b o X ((P ++ R).map Prod.fst)) =
        .ok () (imem m0 st b o Y (Z.map Prod.fst)) ∧
      forN R.length P.length (insertionBody g' st' b' o' sz') () (imem m0' st' b' o' X' ((P ++ R).map Prod.snd)) =
        .ok () (imem m0' st' b' o' Y' (Z.map Prod.snd)) := by
  induction R with
  | nil => intro P X X' _ _ _ _; exact ⟨P, X, X', by simp, rfl, rfl, by simp, by simp⟩
  | cons e R ih =>
    intro P X X' hP h h' ha
    have hmap : ∀ f : Twin → List Byte, (P ++ e :: R).map f = P.map f ++ f e :: R.map f := by intro f; simp
    have hf := h.fits
    have hf' := h'.fits
    have hlim := h.lim
    have hlim' := h'.lim
    rw [hmap] at hf hf' hlim hlim'
    obtain ⟨A, B, i1, i2, i3, i4⟩ := (insertion_step g h.sz_lt (P := P.map Prod.fst) (by simpa using hP) hf hlim).1 (.inl h.before)
    obtain ⟨A', B', j1, j2, j3, j4⟩ := (insertion_step g' h'.sz_lt (P := P.map Prod.snd) (by simpa using hP) hf' hlim').1 (.inl h'.before)
    obtain ⟨C, D, rfl, rfl, rfl⟩ : ∃ C D, P = C ++ D ∧ C.map Prod.fst = A ∧ D.map Prod.fst = B := by
      obtain ⟨C, D, e1, e2, e3⟩ := List.map_eq_append_iff.1 i2
      exact ⟨C, D, e1, e2, e3⟩
    obtain ⟨C', D', e1, rfl, rfl⟩ := List.map_eq_append_iff.1 j2
    have hag : ∀ p ∈ C ++ D, g p.1 e.1 = g' p.2 e.2 := fun p hp => ha p (by simp at hp ⊢; tauto) e (by simp)
    obtain ⟨rfl, rfl⟩ := split_unique (p := fun p : Twin => g p.1 e.1) e1
      (fun x hx => i3 x.1 (List.mem_map_of_mem hx))
      (fun x hx => i4 x.1 (by rw [List.getLast?_map, hx]; rfl))
      (fun x hx => by
        have := j3 x.2 (List.mem_map_of_mem hx)
        rw [hag x (by rw [e1]; simp [hx])]; exact this)
      (fun x hx => by
        have := j4 x.2 (by rw [List.getLast?_map, hx]; rfl)
        rw [hag x (by rw [e1]; simp [List.mem_of_getLast? hx])]; exact this)
    have hp : ((C ++ D) ++ e :: R).Perm ((C ++ e :: D) ++ R) := by
      simp only [List.append_assoc, List.cons_append]
      exact List.Perm.append_left _ List.perm_middle
    have hl : (C ++ e :: D).length = (C ++ D).length + 1 := by simp; omega
    obtain ⟨Z, Y, Y', k1, k2, k3, k4, k5⟩ := ih (C ++ e :: D) (splice X 0 e.1) (splice X' 0 e.2) (by simp)
      (h.next (hp.map _) (by simp)) (h'.next (hp.map _) (by simp)) (ha.perm hp)
    rw [hl] at k4 k5
    have l1 : (splice X 0 e.1).length = X.length := splice_length _ _ _ (by
      have := hf.room; have := hf.fits.chunks e.1 (by simp); omega)
    have l2 : (splice X' 0 e.2).length = X'.length := splice_length _ _ _ (by
      have := hf'.room; have := hf'.fits.chunks e.2 (by simp); omega)
    refine ⟨Z, Y, Y', hp.trans k1, by omega, by omega, ?_, ?_⟩
    · rw [List.length_cons, forN_succ, hmap]
      rw [List.length_map] at i1
      rw [i1]
      simpa using k4
    · rw [List.length_cons, forN_succ, hmap]
      rw [List.length_map] at j1
      rw [j1]
      simpa using k5

end IMU.Sort
