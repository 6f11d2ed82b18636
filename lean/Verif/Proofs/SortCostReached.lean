import Verif.Proofs.SortCost

/-!
# Comparison functions with which the sorts take the most and the fewest steps
-/

namespace IMU
namespace T
variable {α β σ : Type}

/-- A loop of which round `k` takes `f (k + 1) - f k` steps as long as `I` holds. -/
theorem Costs.forNT_inv (I : Nat → σ → Prop) {f : Nat → Int} {body : Nat → σ → T σ} (n : Nat) : ∀ (i : Nat) (s : σ), I i s →
    (∀ k s, i ≤ k → k < i + n → I k s → Costs (body k s) (fun s' j => f (k + 1) = f k + j ∧ I (k + 1) s')) →
    Costs (IMU.forNT n i body s) (fun s' j => f (i + n) + n + 1 = f i + j ∧ I (i + n) s') := by
  induction n with
  | zero => intro i s hI _; exact .branch_bind (.pure ⟨by simp, hI⟩)
  | succ n ih =>
    intro i s hI hb
    refine .branch_bind (.bind (hb i s (by omega) (by omega) hI) ?_)
    rintro a k ⟨h1, h2⟩
    refine (ih (i + 1) a h2 fun k s h1 h2 => hb k s (by omega) (by omega)).mono ?_
    rintro b j ⟨h3, h4⟩
    rw [show i + (n + 1) = i + 1 + n by omega]
    exact ⟨by omega, h4⟩

end T
end IMU

namespace IMU.Sort
open T

/-- The comparison function that always gives the same answer. -/
def always (b : Bool) : Cmp := fun _ _ => b

theorem ok_bind {α β} {x : C α} {f : α → C β} {m m' : Mem} {b : β} (h : (x >>= f) m = .ok b m') :
    ∃ a m1, x m = .ok a m1 ∧ f a m1 = .ok b m' := by
  change C.bind x f m = _ at h
  unfold C.bind at h
  cases hx : x m with
  | ub e => rw [hx] at h; cases h
  | ok a m1 => rw [hx] at h; exact ⟨a, m1, rfl, h⟩

theorem costs_compareFun (b : Bool) (sz : Nat) (p q : Ptr) :
    Costs (compareFunT (always b) sz p q) (fun w j => w = b ∧ j = 2 * sz) := by
  intro m a t r h
  refine ⟨?_, takes_compareFun _ _ _ _ m a t r h⟩
  obtain ⟨_, _, _, _, _, h2, _⟩ := bind_cases h
  obtain ⟨_, _, _, _, _, h3, _⟩ := bind_cases h2
  obtain ⟨h4, _⟩ := quiet_cases h3
  unfold compareFun at h4
  obtain ⟨x, m1, -, h5⟩ := ok_bind h4
  obtain ⟨y, m2, -, h6⟩ := ok_bind h5
  cases h6
  rfl

theorem costs_compareAt (b : Bool) (e : Ptr) (sz : Nat) (i j : Int) :
    Costs (compareAtT (always b) e sz i j) (fun w j => w = b ∧ j = 2 * sz) :=
  .after (Takes.quiet _) fun _ => .after (Takes.quiet _) fun _ =>
    (costs_compareFun b sz _ _).mono (by rintro w j ⟨h1, h2⟩; exact ⟨h1, by omega⟩)

/-! ### Bubble sort -/

theorem pass_always (b : Bool) (e : Ptr) {sz : Nat} (h : sz < 2 ^ 31) (c : Nat) :
    Costs (bubblePassT (always b) e sz c) (fun w j => j = c * (if b then 7 * sz + 3 else 2 * sz + 2) + 1 ∧
      w = (b && decide (0 < c))) := by
  unfold bubblePassT
  rw [Int.toNat_natCast]
  refine (Costs.forNT_inv (fun k w => w = (b && decide (0 < k))) (f := fun k => k * (if b then 7 * sz + 2 else 2 * sz + 1 : Nat))
    c 0 false (by simp) (fun k s _ _ hI => ?_)).mono ?_
  · refine .bind (costs_compareAt b e sz _ _) ?_
    rintro w j ⟨rfl, rfl⟩
    refine .branch_bind ?_
    cases w
    · refine .pure ⟨?_, by simpa using hI⟩
      push_cast; try simp only [if_true, Bool.false_eq_true, if_false]
      ring
    · refine .after (takes_swap _ h _ _) fun _ => .pure ⟨?_, by simp⟩
      push_cast; try simp only [if_true, Bool.false_eq_true, if_false]
      ring
  · rintro w j ⟨h1, h2⟩
    rw [Nat.zero_add] at h1 h2
    refine ⟨?_, h2⟩
    cases b
    · simp at h1 ⊢; zify; linarith
    · simp at h1 ⊢; zify; linarith

theorem bubble_false (e : Ptr) {sz : Nat} (h : sz < 2 ^ 31) (n fuel : Nat) (hn : 1 ≤ n) :
    Costs (bubbleSortT fuel e n sz (always false)) (fun _ j => j = (n - 1) * (2 * sz + 2) + 3) := by
  refine .branch_bind ?_
  cases fuel with
  | zero => intro m a t m' hx; cases hx
  | succ fuel =>
    refine .i32 (.i32 ?_)
    rw [show (n : Int) - 0 - 1 = ((n - 1 : Nat) : Int) by omega]
    refine .bind (pass_always false e h (n - 1)) ?_
    rintro w k ⟨h1, rfl⟩
    refine .i32 (.branch_bind (.pure ?_))
    simp at h1
    omega

theorem loop_true (e : Ptr) {sz : Nat} (h : sz < 2 ^ 31) (n : Nat) : ∀ (d fuel : Nat) (i : Int),
    (n : Int) - i - 1 = d → Costs (bubbleLoopT (always true) e n sz fuel i) (fun _ j =>
      j = pairs (d + 1) * (7 * sz + 3) + 2 * (d + 1)) := by
  intro d
  induction d with
  | zero =>
    intro fuel i hi
    cases fuel with
    | zero => intro m a t m' hx; cases hx
    | succ fuel =>
      refine .i32 (.i32 ?_)
      rw [hi]
      refine .bind (pass_always true e h 0) ?_
      rintro w k ⟨rfl, rfl⟩
      exact .i32 (.branch_bind (.pure (by simp [pairs])))
  | succ d ih =>
    intro fuel i hi
    cases fuel with
    | zero => intro m a t m' hx; cases hx
    | succ fuel =>
      refine .i32 (.i32 ?_)
      rw [hi]
      refine .bind (pass_always true e h (d + 1)) ?_
      rintro w k ⟨rfl, rfl⟩
      refine .i32 (.branch_bind ((ih fuel (i + 1) (by omega)).mono ?_))
      rintro _ j rfl
      rw [pairs_succ (d + 1), if_pos rfl]
      ring

theorem bubble_true (e : Ptr) {sz : Nat} (h : sz < 2 ^ 31) (n fuel : Nat) (hn : 1 ≤ n) :
    Costs (bubbleSortT fuel e n sz (always true)) (fun _ j => j = pairs n * (7 * sz + 3) + 2 * n + 1) := by
  obtain ⟨d, rfl⟩ : ∃ d, n = d + 1 := ⟨n - 1, by omega⟩
  refine .branch_bind ((loop_true e h (d + 1) d fuel 0 (by omega)).mono ?_)
  rintro _ j rfl
  omega

/-! ### Selection sort -/

theorem selectMin_always (b : Bool) (e : Ptr) (sz n i : Nat) (hi : i < n) :
    Costs (selectMinT (always b) e n sz i) (fun w j => j = (n - 1 - i) * (2 * sz + 2) + 1 ∧ w = if b then n - 1 else i) := by
  intro m a t r hx
  refine ⟨costs_selectMin _ e sz n i hi m a t r hx, ?_⟩
  have key : Costs (selectMinT (always b) e n sz i) (fun w _ => w = if b then n - 1 else i) := by
    refine .i32 ?_
    rw [show ((n : Int) - ((i : Int) + 1)).toNat = n - 1 - i by omega]
    refine (Costs.forNT_inv (fun k w => w = if b then k - 1 else i) (f := fun k => k * (2 * sz + 1)) (n - 1 - i) (i + 1) i
      (by cases b <;> simp) (fun k s _ _ hI => ?_)).mono ?_
    · refine .bind (costs_compareAt b e sz _ _) ?_
      rintro w j ⟨rfl, rfl⟩
      refine .branch_bind (.pure ⟨by push_cast; ring, ?_⟩)
      cases w
      · simpa using hI
      · simp
    · rintro w j ⟨-, h2⟩
      rw [h2, show i + 1 + (n - 1 - i) - 1 = n - 1 by omega]
  exact key m a t r hx

theorem selection_always (b : Bool) (e : Ptr) {sz : Nat} (h : sz < 2 ^ 31) (n : Nat) :
    Costs (selectionSortT e n sz (always b)) (fun _ j => j = pairs n * (2 * sz + 2) +
      (n - 1) * (if b then 5 * sz + 4 else 3) + 1) := by
  refine .i32 ?_
  cases n with
  | zero => exact .branch_bind (.pure (by simp [pairs]))
  | succ n =>
    rw [show (((n + 1 : Nat) : Int) - 1).toNat = n by omega]
    refine (Costs.forNT_inv (fun _ _ => True)
      (f := fun k => k * (if b then 5 * sz + 3 else 2 : Nat) - pairs (n + 1 - k) * (2 * sz + 2)) n 0 () trivial
      (fun k s _ hk _ => ?_)).mono ?_
    · obtain ⟨r, rfl⟩ : ∃ r, n = k + r + 1 := ⟨n - k - 1, by omega⟩
      refine .bind (selectMin_always b e sz _ k (by omega)) ?_
      rintro w _ ⟨rfl, rfl⟩
      refine .branch_bind ?_
      rw [show k + r + 1 + 1 - (k + 1) = r + 1 by omega, show k + r + 1 + 1 - k = r + 1 + 1 by omega, pairs_succ (r + 1),
        show k + r + 1 + 1 - 1 - k = r + 1 by omega]
      cases b
      · simp only [Bool.false_eq_true, if_false, ne_eq, not_true_eq_false, decide_false]
        refine .pure ⟨?_, trivial⟩
        push_cast; ring
      · simp only [if_true]
        rw [decide_eq_true (by omega), if_pos rfl]
        refine (takes_swap _ h _ _).costs.mono ?_
        rintro _ _ rfl
        refine ⟨?_, trivial⟩
        push_cast; ring
    · rintro _ j ⟨h1, -⟩
      simp only [Nat.zero_add, Nat.sub_zero, Nat.add_sub_cancel_left, Nat.add_sub_cancel] at h1 ⊢
      have e1 : pairs 1 = 0 := rfl
      rw [e1] at h1
      cases b
      · simp at h1 ⊢; zify; push_cast; linarith
      · simp at h1 ⊢; zify; push_cast; linarith

/-! ### Insertion sort -/

theorem shift_true (e : Ptr) {sz : Nat} (h : sz < 2 ^ 31) (el : Ptr) : ∀ (i : Nat),
    Costs (insertionShiftT (always true) e sz el i true) (fun _ j => j = i * (4 * sz + 2) + 1) := by
  intro i
  induction i with
  | zero => exact .branch_bind (.pure (by simp))
  | succ i ih =>
    refine .branch_bind (.branch_bind ?_)
    refine .after (Takes.quiet _) fun _ => .after (Takes.quiet _) fun _ => .after (Takes.memcpy _ _ _) fun _ => ?_
    refine .after (Takes.quiet _) fun _ => .bind (costs_compareFun true _ _ _) ?_
    rintro c k ⟨rfl, rfl⟩
    refine ih.mono ?_
    rintro _ j rfl
    rw [szt_nat h]
    ring

theorem insertion_always (b : Bool) (st e : Ptr) {sz : Nat} (h : sz < 2 ^ 31) (n : Nat) :
    Costs (insertionSortT st e n sz (always b)) (fun _ j =>
      j = if b then pairs n * (4 * sz + 2) + (n - 1) * (6 * sz + 2) + 1 else (n - 1) * (6 * sz + 3) + 1) := by
  cases n with
  | zero => exact .branch_bind (.pure (by cases b <;> simp [pairs]))
  | succ n =>
    unfold insertionSortT
    rw [show (((n + 1 : Nat) : Int) - 1).toNat = n by omega]
    refine (Costs.forNT_inv (fun _ _ => True) (f := fun k => if b then pairs k * (4 * sz + 2) + k * (6 * sz + 1) else k * (6 * sz + 2))
      n 1 () trivial (fun k s h1 hk _ => ?_)).mono ?_
    · refine .bind (Q := fun _ j => j = if b then k * (4 * sz + 2) + 6 * sz + 1 else 6 * sz + 2) ?_ ?_
      · refine .after (Takes.quiet _) fun _ => .after (Takes.memcpy _ _ _) fun _ => .after (Takes.quiet _) fun _ => ?_
        refine .bind (costs_compareFun b _ _ _) ?_
        rintro c _ ⟨rfl, rfl⟩
        refine .bind (Q := fun _ j => j = if c then k * (4 * sz + 2) + 1 else 2) ?_ ?_
        · cases c
          · obtain ⟨k, rfl⟩ : ∃ d, k = d + 1 := ⟨k - 1, by omega⟩
            exact .branch_bind (.branch_bind (.pure rfl))
          · exact shift_true e h st k
        · rintro _ j rfl
          refine .after (Takes.quiet _) fun _ => .after (Takes.memcpy _ _ _) fun _ => .pure ?_
          rw [szt_nat h]
          cases c
          · simp only [Bool.false_eq_true, if_false]; omega
          · simp only [if_true]; omega
      · rintro _ j rfl
        refine .pure ⟨?_, trivial⟩
        rw [pairs_succ]
        cases b
        · simp only [Bool.false_eq_true, if_false]; push_cast; ring
        · simp only [if_true]; push_cast; ring
    · rintro _ j ⟨h1, -⟩
      have e1 : pairs 1 = 0 := rfl
      rw [Nat.add_comm 1 n, e1] at h1
      cases b
      · simp only [Bool.false_eq_true, if_false] at h1 ⊢
        push_cast at h1
        zify; simp only [Nat.add_sub_cancel]; linarith
      · simp only [if_true] at h1 ⊢
        push_cast at h1
        zify; simp only [Nat.add_sub_cancel]; linarith

end IMU.Sort
