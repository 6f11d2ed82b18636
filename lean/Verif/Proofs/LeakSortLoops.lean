import Verif.Proofs.LeakSort

/-!
# Two observed runs of bubble sort, selection sort and heap sort
-/

namespace IMU.Sort
open T Spec Utils

variable {m0 m0' : Mem} {b o sz : Nat} {R R' : List (List Byte)} {g g' : Cmp}

/-! ### Bubble sort -/

theorem lock_bubblePass {Z0 Z : List Twin} (hp : Z0.Perm Z) (h : Pair m0 m0' b o sz R R' Z) (c : Nat)
    (hc : c + 1 ≤ Z.length ∨ c = 0) :
    Lock (¬ Alike g g' Z0) (bubblePassT g (ptr b o) sz c) (bubblePassT g' (ptr b o) sz c)
      (memL m0 b o sz R Z) (memR m0' b o sz R' Z)
      (fun w w' r r' => w' = w ∧ Both m0 m0' b o sz R R' Z r r' ∧ (c = 0 → w = false)) := by
  unfold bubblePassT
  rw [Int.toNat_natCast]
  by_cases h0 : c = 0
  · subst h0
    exact .branch_bind (fun e => absurd rfl e) (fun _ => .pure ⟨rfl, ⟨Z, .refl _, rfl, rfl⟩, fun _ => rfl⟩)
  refine (forNT_lock (fun _ (_ : Bool) m m' => Both m0 m0' b o sz R R' Z m m') _ _ c 0 false _ _ ⟨Z, .refl _, rfl, rfl⟩
    ?_).mono (fun _ _ _ _ h => ⟨h.1, h.2, fun e => absurd e h0⟩)
  rintro k w m m' - hk ⟨Z1, hp1, rfl, rfl⟩
  have hl := hp1.length_eq
  have h1 := h.perm hp1
  have e : ((k : Int) + 1) = ((k + 1 : Nat) : Int) := by simp
  rw [e]
  refine .bind (lock_compare (hp.trans hp1) h1 (i := k) (j := k + 1) (by omega) (by omega)) ?_
  rintro d d' r r' ⟨hd, rfl, rfl⟩
  refine .branch_bind hd (fun e => ?_)
  cases d with
  | false => exact .pure ⟨rfl, Z1, hp1, rfl, rfl⟩
  | true =>
    refine .bind (lock_swap h1 (i := k) (j := k + 1) (by omega) (by omega)) ?_
    rintro _ _ r r' ⟨rfl, rfl⟩
    exact .pure ⟨rfl, _, hp1.trans (swapAt_perm _ _ _), rfl, rfl⟩

theorem lock_bubbleLoop {Z0 : List Twin} (n : Nat) (hn : n < 2 ^ 31) (fuel : Nat) :
    ∀ (i : Nat) (Z : List Twin), Z0.Perm Z → Pair m0 m0' b o sz R R' Z → Z.length = n → i + 1 ≤ n ∨ i = 0 →
    Lock (¬ Alike g g' Z0) (bubbleLoopT g (ptr b o) n sz fuel i) (bubbleLoopT g' (ptr b o) n sz fuel i)
      (memL m0 b o sz R Z) (memR m0' b o sz R' Z) (fun _ _ r r' => Both m0 m0' b o sz R R' Z0 r r') := by
  induction fuel with
  | zero =>
    intro i Z _ _ _ _ a t r a' t' r' h1 _
    cases (quiet_cases h1).1
  | succ fuel ih =>
    intro i Z hp h hl hi
    rw [bubbleLoopT, bubbleLoopT]
    have hb : ∀ (x : Cmp), bubblePassT x (ptr b o) sz ((n : Int) - i - 1) =
        bubblePassT x (ptr b o) sz ((n - i - 1 : Nat) : Int) := by
      intro x
      unfold bubblePassT
      rw [show ((n : Int) - i - 1).toNat = ((n - i - 1 : Nat) : Int).toNat by omega]
    refine .quiet_bind (i32_ok (by omega) (by omega) _) (i32_ok (by omega) (by omega) _) ?_
    refine .quiet_bind (i32_ok (by omega) (by omega) _) (i32_ok (by omega) (by omega) _) ?_
    rw [hb, hb]
    refine .bind (lock_bubblePass hp h (n - i - 1) (by omega)) ?_
    rintro w w' r r' ⟨rfl, ⟨Z1, hp1, rfl, rfl⟩, hw⟩
    refine .quiet_bind (i32_ok (by omega) (by omega) _) (i32_ok (by omega) (by omega) _) ?_
    refine .branch_bind (fun e => absurd rfl e) (fun _ => ?_)
    cases w' with
    | false => exact .pure ⟨Z1, hp.trans hp1, rfl, rfl⟩
    | true =>
      have hc : n - i - 1 ≠ 0 := fun e => absurd (hw e) (by simp)
      exact ih (i + 1) Z1 (hp.trans hp1) (h.perm hp1) (by rw [← hp1.length_eq]; exact hl) (by omega)

theorem lock_bubbleSort {Z : List Twin} (h : Pair m0 m0' b o sz R R' Z) (hn : Z.length < 2 ^ 31) (fuel : Nat) :
    Lock (¬ Alike g g' Z) (bubbleSortT fuel (ptr b o) Z.length sz g) (bubbleSortT fuel (ptr b o) Z.length sz g')
      (memL m0 b o sz R Z) (memR m0' b o sz R' Z) (fun _ _ r r' => Both m0 m0' b o sz R R' Z r r') :=
  .branch_bind (fun e => absurd rfl e) (fun _ => lock_bubbleLoop Z.length hn fuel 0 Z (.refl _) h rfl (.inr rfl))

/-! ### Selection sort -/

theorem lock_selectMin {Z0 Z : List Twin} (hp : Z0.Perm Z) (h : Pair m0 m0' b o sz R R' Z) {n : Nat} (hl : Z.length = n)
    (hn : n < 2 ^ 31) {i : Nat} (hi : i < n) :
    Lock (¬ Alike g g' Z0) (selectMinT g (ptr b o) n sz i) (selectMinT g' (ptr b o) n sz i)
      (memL m0 b o sz R Z) (memR m0' b o sz R' Z)
      (fun k k' r r' => k' = k ∧ k < n ∧ r = memL m0 b o sz R Z ∧ r' = memR m0' b o sz R' Z) := by
  unfold selectMinT
  refine .quiet_bind (i32_ok (by omega) (by omega) _) (i32_ok (by omega) (by omega) _) ?_
  rw [show ((n : Int) - ((i : Int) + 1)).toNat = n - (i + 1) by omega]
  refine forNT_lock (fun _ (k : Nat) m m' => k < n ∧ m = memL m0 b o sz R Z ∧ m' = memR m0' b o sz R' Z) _ _ _ (i + 1) i _ _
    ⟨hi, rfl, rfl⟩ ?_
  rintro j k m m' h1 h2 ⟨h3, rfl, rfl⟩
  refine .bind (lock_compare hp h (i := k) (j := j) (by omega) (by omega)) ?_
  rintro d d' r r' ⟨hd, rfl, rfl⟩
  refine .branch_bind hd (fun _ => .pure ⟨rfl, ?_, rfl, rfl⟩)
  split <;> omega

theorem lock_selectionSort {Z : List Twin} (h : Pair m0 m0' b o sz R R' Z) (hn : Z.length < 2 ^ 31) :
    Lock (¬ Alike g g' Z) (selectionSortT (ptr b o) Z.length sz g) (selectionSortT (ptr b o) Z.length sz g')
      (memL m0 b o sz R Z) (memR m0' b o sz R' Z) (fun _ _ r r' => Both m0 m0' b o sz R R' Z r r') := by
  unfold selectionSortT
  refine .quiet_bind (i32_ok (by omega) (by omega) _) (i32_ok (by omega) (by omega) _) ?_
  refine (forNT_lock (fun _ (_ : Unit) m m' => Both m0 m0' b o sz R R' Z m m') _ _ _ 0 () _ _ ⟨Z, .refl _, rfl, rfl⟩
    ?_).mono (fun _ _ _ _ h => h.2)
  rintro i ⟨⟩ m m' - hi ⟨Z1, hp, rfl, rfl⟩
  have h1 := h.perm hp
  have hl1 : Z1.length = Z.length := hp.length_eq.symm
  refine .bind (lock_selectMin hp h1 hl1 hn (i := i) (by omega)) ?_
  rintro k k' r r' ⟨rfl, hk, rfl, rfl⟩
  refine .branch_bind (fun e => absurd rfl e) (fun _ => ?_)
  by_cases hki : k' = i
  · rw [if_neg (by simp [hki])]
    exact .pure ⟨rfl, Z1, hp, rfl, rfl⟩
  · rw [if_pos (by simpa using hki)]
    refine (lock_swap h1 (i := k') (j := i) (by omega) (by omega)).mono ?_
    rintro _ _ r r' ⟨rfl, rfl⟩
    exact ⟨rfl, _, hp.trans (swapAt_perm _ _ _), rfl, rfl⟩

/-! ### Heap sort -/

theorem lock_child {D : Prop} {c n : Int} {v v' : Bool} {m m' : Mem} (h : c < n → v ≠ v' → D) :
    Lock D (childT c n v) (childT c n v') m m'
      (fun w w' r r' => w' = w ∧ (w = true → c < n) ∧ r = m ∧ r' = m') := by
  unfold childT
  refine .branch_bind (fun e => absurd rfl e) (fun _ => ?_)
  by_cases hc : c < n
  · rw [if_pos (by simpa using hc), if_pos (by simpa using hc)]
    refine (Lock.branch (h hc)).mono ?_
    rintro w w' r r' ⟨rfl, rfl, -, rfl, rfl⟩
    exact ⟨rfl, fun _ => hc, rfl, rfl⟩
  · rw [if_neg (by simpa using hc), if_neg (by simpa using hc)]
    exact .pure ⟨rfl, fun e => absurd e (by simp), rfl, rfl⟩

theorem lock_heapify {Z0 : List Twin} {n : Nat} (hT : n < R.length) (hT' : n < R'.length) (hn : n < 2 ^ 30) (fuel : Nat) :
    ∀ (Z : List Twin) (k x : Nat), Z0.Perm Z → Pair m0 m0' b o sz R R' Z → Z.length = n → k ≤ n → x < n →
    Lock (¬ Alike g g' Z0) (heapifyLoopT g (ptr b o) (k : Int) sz fuel (x : Int))
      (heapifyLoopT g' (ptr b o) (k : Int) sz fuel (x : Int))
      (memL m0 b o sz R Z) (memR m0' b o sz R' Z) (fun _ _ r r' => Both m0 m0' b o sz R R' Z0 r r') := by
  induction fuel with
  | zero =>
    intro Z k x _ _ _ _ _ a t r a' t' r' h1 _
    cases (quiet_cases h1).1
  | succ fuel ih =>
    intro Z k x hp h hl hk hx
    rw [heapifyLoopT, heapifyLoopT]
    have eL : ((2 : Int) * (x : Int) + 1) = ((2 * x + 1 : Nat) : Int) := by omega
    have eR : ((2 : Int) * (x : Int) + 2) = ((2 * x + 2 : Nat) : Int) := by omega
    have alike : ∀ {i j : Nat}, i < n → j < n →
        g ((Z.map Prod.fst ++ R).getD i []) ((Z.map Prod.fst ++ R).getD j []) ≠
          g' ((Z.map Prod.snd ++ R').getD i []) ((Z.map Prod.snd ++ R').getD j []) → ¬ Alike g g' Z0 := by
      intro i j hi hj hne ha
      apply hne
      rw [getD_twin _ _ _ (hl ▸ hi), getD_twin _ _ _ (hl ▸ hj), getD_twin _ _ _ (hl ▸ hi), getD_twin _ _ _ (hl ▸ hj)]
      exact (ha.perm hp) _ (List.getElem_mem _) _ (List.getElem_mem _)
    refine .branch_bind (fun e => absurd rfl e) (fun _ => ?_)
    refine .quiet_bind (i32_ok (by omega) (by omega) _) (i32_ok (by omega) (by omega) _) ?_
    refine .quiet_bind (i32_ok (by omega) (by omega) _) (i32_ok (by omega) (by omega) _) ?_
    refine .quiet_bind (i32_ok (by omega) (by omega) _) (i32_ok (by omega) (by omega) _) ?_
    rw [eL, eR]
    refine .bind (lock_compare_any h (i := 2 * x + 1) (j := x) (by omega) (by omega) (by omega) (by omega)) ?_
    rintro c c' r r' ⟨rfl, rfl, rfl, rfl⟩
    refine .bind (lock_child (fun hc hne => alike (by omega) hx hne)) ?_
    rintro w w' r r' ⟨rfl, hw, rfl, rfl⟩
    obtain ⟨y, hy, hyn, hyx⟩ : ∃ y : Nat, (if w' = true then ((2 * x + 1 : Nat) : Int) else (x : Int)) = (y : Int) ∧ y < n ∧ x ≤ y := by
      cases w' with
      | false => exact ⟨x, rfl, hx, by omega⟩
      | true => exact ⟨2 * x + 1, rfl, by have := hw rfl; omega, by omega⟩
    simp only [hy]
    refine .bind (lock_compare_any h (i := 2 * x + 2) (j := y) (by omega) (by omega) (by omega) (by omega)) ?_
    rintro c c' r r' ⟨rfl, rfl, rfl, rfl⟩
    refine .bind (lock_child (fun hc hne => alike (by omega) hyn hne)) ?_
    rintro v v' r r' ⟨rfl, hv, rfl, rfl⟩
    obtain ⟨z, hz, hzn⟩ : ∃ z : Nat, (if v' = true then ((2 * x + 2 : Nat) : Int) else (y : Int)) = (z : Int) ∧ z < n := by
      cases v' with
      | false => exact ⟨y, rfl, hyn⟩
      | true => exact ⟨2 * x + 2, rfl, by have := hv rfl; omega⟩
    simp only [hz]
    refine .branch_bind (fun e => absurd rfl e) (fun _ => ?_)
    by_cases hzx : (z : Int) = x
    · rw [if_neg (by simp [hzx]), if_neg (by simp [hzx])]
      exact .branch_bind (fun e => absurd rfl e) (fun _ => .pure ⟨Z, hp, rfl, rfl⟩)
    · rw [if_pos (by simpa using hzx), if_pos (by simpa using hzx)]
      refine .bind (lock_swap h (i := x) (j := z) (by omega) (by omega)) ?_
      rintro _ _ r r' ⟨rfl, rfl⟩
      have hsp := swapAt_perm Z x z
      exact ih _ k z (hp.trans hsp) (h.perm hsp) (by rw [swapAt_length]; exact hl) hk hzn

theorem lock_heapSort {Z : List Twin} (hT : Z.length < R.length) (hT' : Z.length < R'.length)
    (h : Pair m0 m0' b o sz R R' Z) (fuel : Nat) :
    Lock (¬ Alike g g' Z) (heapSortT fuel (ptr b o) Z.length sz g) (heapSortT fuel (ptr b o) Z.length sz g')
      (memL m0 b o sz R Z) (memR m0' b o sz R' Z) (fun _ _ r r' => Both m0 m0' b o sz R R' Z r r') := by
  have hn : Z.length < 2 ^ 30 := by
    have := h.ok.n_lt
    simp at this
    omega
  unfold heapSortT
  have hd : ((Z.length : Int).tdiv 2) = ((Z.length / 2 : Nat) : Int) := by
    rw [Int.tdiv_eq_ediv_of_nonneg (by omega)]; omega
  rw [hd]
  refine .quiet_bind (i32_ok (by omega) (by omega) _) (i32_ok (by omega) (by omega) _) ?_
  rw [show (((Z.length / 2 : Nat) : Int) - 1 + 1).toNat = Z.length / 2 by omega]
  refine .bind (forDownT_lock (fun (_ : Unit) m m' => Both m0 m0' b o sz R R' Z m m') _ _ _ () _ _ ⟨Z, .refl _, rfl, rfl⟩ ?_) ?_
  · rintro k ⟨⟩ m m' hk ⟨Z1, hp, rfl, rfl⟩
    exact (lock_heapify hT hT' hn fuel Z1 Z.length k hp (h.perm hp) hp.length_eq.symm (by omega) (by omega)).mono
      (fun _ _ _ _ h => ⟨rfl, h⟩)
  rintro _ _ r r' ⟨-, Z1, hp1, rfl, rfl⟩
  refine .quiet_bind (i32_ok (by omega) (by omega) _) (i32_ok (by omega) (by omega) _) ?_
  rw [show ((Z.length : Int) - 1 + 1).toNat = Z.length by omega]
  refine (forDownT_lock (fun (_ : Unit) m m' => Both m0 m0' b o sz R R' Z m m') _ _ _ () _ _ ⟨Z1, hp1, rfl, rfl⟩ ?_).mono
    (fun _ _ _ _ h => h.2)
  rintro i ⟨⟩ m m' hi ⟨Z2, hp, rfl, rfl⟩
  have h2 := h.perm hp
  have hl2 : Z2.length = Z.length := hp.length_eq.symm
  refine .bind (lock_swap h2 (i := 0) (j := i) (by omega) (by omega)) ?_
  rintro _ _ r r' ⟨rfl, rfl⟩
  have hsp := swapAt_perm Z2 0 i
  exact (lock_heapify hT hT' hn fuel (swapAt Z2 0 i) i 0 (hp.trans hsp) (h2.perm hsp) (by rw [swapAt_length]; exact hl2)
    (by omega) (by omega)).mono (fun _ _ _ _ h => ⟨rfl, h⟩)

end IMU.Sort
