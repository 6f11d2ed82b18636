import Verif.Proofs.Cost
import Verif.Model.LeakSort
import Mathlib.Algebra.BigOperators.Intervals

/-!
# Counting the steps of the sorts
-/

namespace IMU
namespace T
variable {α β σ : Type}

/-- Whenever `x` succeeds, its result and its number of steps satisfy `Q`. -/
def Costs (x : T α) (Q : α → Nat → Prop) : Prop := ∀ m a t m', x m = .ok (a, t) m' → Q a t.length

theorem Costs.pure {a : α} {Q : α → Nat → Prop} (h : Q a 0) : Costs (Pure.pure a : T α) Q := by
  intro m b t m' hx; cases hx; exact h

theorem Costs.bind {x : T α} {f : α → T β} {Q : α → Nat → Prop} {R : β → Nat → Prop} (h : Costs x Q)
    (hf : ∀ a k, Q a k → Costs (f a) (fun b j => R b (k + j))) : Costs (x >>= f) R := by
  intro m b t m' hx
  obtain ⟨a, u1, m1, u2, h1, h2, rfl⟩ := bind_cases hx
  rw [List.length_append]
  exact hf a _ (h m a u1 m1 h1) m1 b u2 m' h2

theorem Takes.costs {x : T α} {k : Nat} (h : Takes x k) : Costs x (fun _ j => j = k) := h

theorem Costs.mono {x : T α} {Q R : α → Nat → Prop} (h : Costs x Q) (hq : ∀ a k, Q a k → R a k) : Costs x R :=
  fun m a t m' hx => hq _ _ (h m a t m' hx)

/-- Steps of a known number come first. -/
theorem Costs.after {x : T α} {f : α → T β} {k : Nat} {R : β → Nat → Prop} (h : Takes x k)
    (hf : ∀ a, Costs (f a) (fun b j => R b (k + j))) : Costs (x >>= f) R :=
  .bind h.costs (by rintro a _ rfl; exact hf a)

theorem Costs.branch_bind {b : Bool} {f : Bool → T β} {R : β → Nat → Prop} (hf : Costs (f b) (fun c j => R c (1 + j))) :
    Costs (T.branch b >>= f) R := by
  intro m c u m' hx
  obtain ⟨a, u1, m1, u2, h1, h2, rfl⟩ := bind_cases hx
  cases h1
  rw [List.length_append]
  exact hf _ c u2 m' h2

theorem Costs.i32 {x : Int} {f : Int → T β} {R : β → Nat → Prop} (hf : Costs (f x) R) : Costs (T.quiet (IMU.i32 x) >>= f) R := by
  intro m c u m' hx
  obtain ⟨a, u1, m1, u2, h1, h2, rfl⟩ := bind_cases hx
  obtain ⟨h1, rfl⟩ := quiet_cases h1
  unfold IMU.i32 at h1
  split at h1
  · cases h1; exact hf _ _ _ _ h2
  · cases h1

/-- A loop of which round `k` takes at least `lo (k + 1) - lo k` and at most `hi (k + 1) - hi k` steps. -/
theorem Costs.forNT {lo hi : Nat → Int} {body : Nat → σ → T σ} (n : Nat) : ∀ (i : Nat) (s : σ),
    (∀ k s, i ≤ k → k < i + n → Costs (body k s) (fun _ j => lo (k + 1) ≤ lo k + j ∧ hi k + j ≤ hi (k + 1))) →
    Costs (forNT n i body s) (fun _ j => lo (i + n) + n + 1 ≤ lo i + j ∧ hi i + j ≤ hi (i + n) + n + 1) := by
  induction n with
  | zero => intro i s _; exact .branch_bind (.pure (by simp))
  | succ n ih =>
    intro i s hb
    refine .branch_bind (.bind (hb i s (by omega) (by omega)) ?_)
    rintro a k ⟨h1, h2⟩
    refine (ih (i + 1) a fun k s h1 h2 => hb k s (by omega) (by omega)).mono ?_
    rintro b j ⟨h3, h4⟩
    rw [show i + (n + 1) = i + 1 + n by omega]
    omega

theorem Costs.forDownT {lo : Nat} {hi : Nat → Nat} {body : Nat → σ → T σ} (n : Nat) : ∀ (s : σ),
    (∀ k s, k < n → Costs (body k s) (fun _ j => lo ≤ j ∧ hi k + j ≤ hi (k + 1))) →
    Costs (forDownT n body s) (fun _ j => n * (lo + 1) + 1 ≤ j ∧ hi 0 + j ≤ hi n + n + 1) := by
  induction n with
  | zero => intro s _; exact .branch_bind (.pure (by simp))
  | succ n ih =>
    intro s hb
    refine .branch_bind (.bind (hb n s (by omega)) ?_)
    rintro a k ⟨h1, h2⟩
    refine (ih a fun k s h1 => hb k s (by omega)).mono ?_
    rintro b j ⟨h3, h4⟩
    rw [Nat.succ_mul]
    omega

theorem Takes.forDownT {k : Nat} {body : Nat → σ → T σ} (hb : ∀ i s, Takes (body i s) k) (n : Nat) :
    ∀ s, Takes (forDownT n body s) (n * (1 + k) + 1) := by
  induction n with
  | zero => intro s; exact (Takes.branch_bind (Takes.pure s)).of_eq (by omega)
  | succ n ih =>
    intro s
    exact (Takes.branch_bind (Takes.bind (hb n s) fun s => ih s)).of_eq (by rw [Nat.succ_mul]; omega)

end T
end IMU

namespace IMU.Sort
open T

theorem takes_compareFun (cmp : Cmp) (sz : Nat) (p q : Ptr) : Takes (compareFunT cmp sz p q) (2 * sz) := by
  refine (Takes.bind (Takes.emit _) fun _ => Takes.bind (Takes.emit _) fun _ => Takes.quiet _).of_eq ?_
  simp; omega

theorem takes_compareAt (cmp : Cmp) (e : Ptr) (sz : Nat) (i j : Int) : Takes (compareAtT cmp e sz i j) (2 * sz) :=
  (Takes.bind (Takes.quiet _) fun _ => Takes.bind (Takes.quiet _) fun _ => takes_compareFun _ _ _ _).of_eq (by omega)

theorem u32_nat {sz : Nat} (h : sz < 2 ^ 31) : (u32 (sz : Int)).toNat = sz := by
  unfold u32
  rw [BitVec.ofInt_natCast, BitVec.toNat_ofNat]
  omega

theorem szt_nat {sz : Nat} (h : sz < 2 ^ 31) : szt (sz : Int) = sz := by
  unfold szt
  rw [BitVec.ofInt_natCast, BitVec.toNat_ofNat]
  omega

theorem takes_swap (e : Ptr) {sz : Nat} (h : sz < 2 ^ 31) (i j : Int) : Takes (swapElemsT e sz i j) (5 * sz + 1) := by
  refine (Takes.bind (Takes.quiet _) fun p => Takes.bind (Takes.quiet _) fun q => ?_ : Takes _ (0 + (0 + (5 * sz + 1)))).of_eq
    (by omega)
  unfold Utils.swapElementsT
  rw [u32_nat h]
  exact (Takes.forDownT (k := 4) (fun _ _ => Takes.bind (.load _) fun _ => Takes.bind (.load _) fun _ =>
    Takes.bind (.store _ _) fun _ => .store _ _) sz ()).of_eq (by omega)

/-! ### Bubble sort -/

theorem costs_bubblePass (cmp : Cmp) (e : Ptr) {sz : Nat} (h : sz < 2 ^ 31) (c : Nat) :
    Costs (bubblePassT cmp e sz c) (fun w j => c * (2 * sz + 2) + 1 ≤ j ∧ j ≤ c * (7 * sz + 3) + 1 ∧
      (c = 0 → w = false)) := by
  have hb : ∀ (k : Nat) (s : Bool), Costs (do
      let c ← compareAtT cmp e sz k (k + 1)
      let c ← T.branch c
      if c then do
        swapElemsT e sz k (k + 1)
        return true
      else return s) (fun _ j => 2 * sz + 1 ≤ j ∧ j ≤ 7 * sz + 2) := by
    intro k s
    refine .after (takes_compareAt _ _ _ _ _) fun c => .branch_bind ?_
    cases c
    · exact .pure ⟨by omega, by omega⟩
    · exact .after (takes_swap _ h _ _) fun _ => .pure ⟨by omega, by omega⟩
  unfold bubblePassT
  rw [Int.toNat_natCast]
  cases c with
  | zero => exact .branch_bind (.pure ⟨by omega, by omega, fun _ => rfl⟩)
  | succ c =>
    refine (Costs.forNT (lo := fun k => k * (2 * sz + 1)) (hi := fun k => k * (7 * sz + 2)) (c + 1) 0 false
      (fun k s _ _ => (hb k s).mono ?_)).mono ?_
    · rintro _ j ⟨h1, h2⟩
      push_cast
      constructor <;> nlinarith
    · rintro w j ⟨h1, h2⟩
      push_cast at h1 h2
      refine ⟨?_, ?_, fun h => by omega⟩ <;> zify <;> push_cast <;> nlinarith

theorem costs_bubbleLoop (cmp : Cmp) (e : Ptr) {sz : Nat} (h : sz < 2 ^ 31) (n : Nat) : ∀ (d fuel : Nat) (i : Int),
    (n : Int) - i - 1 = d → Costs (bubbleLoopT cmp e n sz fuel i) (fun _ j => d * (2 * sz + 2) + 2 ≤ j ∧
      j ≤ d * (d + 1) / 2 * (7 * sz + 3) + 2 * (d + 1)) := by
  intro d
  induction d with
  | zero =>
    intro fuel i hi
    cases fuel with
    | zero => intro m a t m' hx; cases hx
    | succ fuel =>
      refine .i32 (.i32 ?_)
      rw [hi]
      refine .bind (costs_bubblePass cmp e h 0) ?_
      rintro w k ⟨h1, h2, h3⟩
      rw [h3 rfl]
      exact .i32 (.branch_bind (.pure ⟨by omega, by omega⟩))
  | succ d ih =>
    intro fuel i hi
    cases fuel with
    | zero => intro m a t m' hx; cases hx
    | succ fuel =>
      refine .i32 (.i32 ?_)
      rw [hi]
      refine .bind (costs_bubblePass cmp e h (d + 1)) ?_
      rintro w k ⟨h1, h2, -⟩
      refine .i32 (.branch_bind ?_)
      have hs : (d + 1) * (d + 1 + 1) / 2 = d * (d + 1) / 2 + (d + 1) := by
        rw [show (d + 1) * (d + 1 + 1) = d * (d + 1) + (d + 1) * 2 by ring, Nat.add_mul_div_right _ _ (by decide)]
      rw [hs]
      have hx : (d * (d + 1) / 2 + (d + 1)) * (7 * sz + 3) = d * (d + 1) / 2 * (7 * sz + 3) + (d + 1) * (7 * sz + 3) := by ring
      cases w
      · exact .pure ⟨by omega, by omega⟩
      · refine (ih fuel (i + 1) (by omega)).mono ?_
        rintro _ j ⟨h3, h4⟩
        omega

theorem costs_bubble (cmp : Cmp) (e : Ptr) {sz : Nat} (h : sz < 2 ^ 31) (n fuel : Nat) (hn : 1 ≤ n) :
    Costs (bubbleSortT fuel e n sz cmp) (fun _ j => (n - 1) * (2 * sz + 2) + 3 ≤ j ∧
      j ≤ n * (n - 1) / 2 * (7 * sz + 3) + 2 * n + 1) := by
  obtain ⟨d, rfl⟩ : ∃ d, n = d + 1 := ⟨n - 1, by omega⟩
  refine .branch_bind ((costs_bubbleLoop cmp e h (d + 1) d fuel 0 (by omega)).mono ?_)
  rintro _ j ⟨h3, h4⟩
  rw [Nat.add_sub_cancel, Nat.mul_comm (d + 1) d]
  omega

/-! ### Selection sort -/

/-- The number of pairs of `n` things. -/
def pairs (n : Nat) : Nat := n * (n - 1) / 2

theorem pairs_succ (n : Nat) : pairs (n + 1) = pairs n + n := by
  unfold pairs
  cases n with
  | zero => rfl
  | succ n =>
    rw [Nat.add_sub_cancel, Nat.add_sub_cancel, show (n + 1 + 1) * (n + 1) = (n + 1) * n + (n + 1) * 2 by ring,
      Nat.add_mul_div_right _ _ (by decide)]

theorem costs_selectMin (cmp : Cmp) (e : Ptr) (sz n i : Nat) (hi : i < n) :
    Costs (selectMinT cmp e n sz i) (fun _ j => j = (n - 1 - i) * (2 * sz + 2) + 1) := by
  unfold selectMinT
  refine .i32 ?_
  rw [show ((n : Int) - ((i : Int) + 1)).toNat = n - 1 - i by omega]
  refine Takes.costs (Takes.of_eq (Takes.forNT (k := 2 * sz + 1) (fun j s => ?_) (n - 1 - i) _ _)
    (by rw [show 1 + (2 * sz + 1) = 2 * sz + 2 by omega]))
  exact Takes.bind (takes_compareAt _ _ _ _ _) fun c => Takes.branch_bind (f := fun c => Pure.pure (if c = true then j else s)) (Takes.pure _)

theorem costs_selection (cmp : Cmp) (e : Ptr) {sz : Nat} (h : sz < 2 ^ 31) (n : Nat) :
    Costs (selectionSortT e n sz cmp) (fun _ j => pairs n * (2 * sz + 2) + 3 * (n - 1) + 1 ≤ j ∧
      j ≤ pairs n * (2 * sz + 2) + (n - 1) * (5 * sz + 4) + 1) := by
  refine .i32 ?_
  cases n with
  | zero => exact .branch_bind (.pure (by simp [pairs]))
  | succ n =>
    rw [show (((n + 1 : Nat) : Int) - 1).toNat = n by omega]
    refine (Costs.forNT (lo := fun k => 2 * k - pairs (n + 1 - k) * (2 * sz + 2))
      (hi := fun k => k * (5 * sz + 3) - pairs (n + 1 - k) * (2 * sz + 2)) n 0 () (fun k s _ hk => ?_)).mono ?_
    · obtain ⟨r, rfl⟩ : ∃ r, n = k + r + 1 := ⟨n - k - 1, by omega⟩
      refine .bind (costs_selectMin cmp e sz _ k (by omega)) ?_
      rintro w _ rfl
      refine .branch_bind ?_
      rw [show k + r + 1 + 1 - (k + 1) = r + 1 by omega, show k + r + 1 + 1 - k = r + 1 + 1 by omega, pairs_succ (r + 1),
        show k + r + 1 + 1 - 1 - k = r + 1 by omega]
      have main : ∀ x : T Unit, Costs x (fun _ j => j ≤ 5 * sz + 1) → Costs x (fun _ j =>
          (2 * ((k + 1 : Nat) : Int) - (pairs (r + 1) : Nat) * (2 * sz + 2) ≤
            2 * (k : Int) - (pairs (r + 1) + (r + 1) : Nat) * (2 * sz + 2) + ((r + 1) * (2 * sz + 2) + 1 + (1 + j) : Nat)) ∧
          ((k : Int) * (5 * sz + 3) - (pairs (r + 1) + (r + 1) : Nat) * (2 * sz + 2) + ((r + 1) * (2 * sz + 2) + 1 + (1 + j) : Nat) ≤
            ((k + 1 : Nat) : Int) * (5 * sz + 3) - (pairs (r + 1) : Nat) * (2 * sz + 2))) := by
        intro x hx
        refine hx.mono ?_
        intro _ j hj
        zify at hj
        push_cast
        constructor <;> nlinarith
      refine main _ ?_
      split
      · exact (takes_swap _ h _ _).costs.mono (by rintro _ _ rfl; omega)
      · exact .pure (by omega)
    · rintro _ j ⟨h1, h2⟩
      simp only [Nat.zero_add, Nat.sub_zero, Nat.add_sub_cancel_left, Nat.add_sub_cancel] at h1 h2 ⊢
      have e1 : pairs 1 = 0 := rfl
      rw [e1] at h1 h2
      push_cast at h1 h2
      zify
      constructor <;> nlinarith

/-! ### Insertion sort -/

theorem costs_shift (cmp : Cmp) (e : Ptr) {sz : Nat} (h : sz < 2 ^ 31) (el : Ptr) : ∀ (i : Nat) (c : Bool),
    Costs (insertionShiftT cmp e sz el i c) (fun _ j => min (i + 1) 2 ≤ j ∧ j ≤ i * (4 * sz + 2) + 1) := by
  intro i
  induction i with
  | zero => intro c; exact .branch_bind (.pure (by simp))
  | succ i ih =>
    intro c
    refine .branch_bind (.branch_bind ?_)
    cases c
    · refine .pure ⟨by omega, ?_⟩
      rw [Nat.succ_mul]; omega
    · refine .after (Takes.quiet _) fun _ => .after (Takes.quiet _) fun _ => .after (Takes.memcpy _ _ _) fun _ => ?_
      refine .after (Takes.quiet _) fun _ => .after (takes_compareFun _ _ _ _) fun c => (ih c).mono ?_
      rintro _ j ⟨h1, h2⟩
      rw [szt_nat h]
      have hm : (i + 1) * (4 * sz + 2) = i * (4 * sz + 2) + (4 * sz + 2) := by ring
      omega

theorem costs_insertOne (cmp : Cmp) (st e : Ptr) {sz : Nat} (h : sz < 2 ^ 31) (i : Nat) (hi : 1 ≤ i) :
    Costs (insertOneT cmp st e sz i) (fun _ j => 6 * sz + 2 ≤ j ∧ j ≤ i * (4 * sz + 2) + 6 * sz + 1) := by
  refine .after (Takes.quiet _) fun _ => .after (Takes.memcpy _ _ _) fun _ => .after (Takes.quiet _) fun _ => ?_
  refine .after (takes_compareFun _ _ _ _) fun c => .bind (costs_shift cmp e h st i c) ?_
  rintro k j ⟨h1, h2⟩
  refine .after (Takes.quiet _) fun _ => .after (Takes.memcpy _ _ _) fun _ => .pure ?_
  rw [szt_nat h]
  omega

theorem costs_insertion (cmp : Cmp) (st e : Ptr) {sz : Nat} (h : sz < 2 ^ 31) (n : Nat) :
    Costs (insertionSortT st e n sz cmp) (fun _ j => (n - 1) * (6 * sz + 3) + 1 ≤ j ∧
      j ≤ pairs n * (4 * sz + 2) + (n - 1) * (6 * sz + 2) + 1) := by
  cases n with
  | zero => exact .branch_bind (.pure (by simp [pairs]))
  | succ n =>
    unfold insertionSortT
    rw [show (((n + 1 : Nat) : Int) - 1).toNat = n by omega]
    refine (Costs.forNT (lo := fun k => k * (6 * sz + 2))
      (hi := fun k => pairs k * (4 * sz + 2) + k * (6 * sz + 1)) n 1 () (fun k s h1 hk => ?_)).mono ?_
    · refine .bind (costs_insertOne cmp st e h k h1) ?_
      rintro w j ⟨h2, h3⟩
      refine .pure ?_
      rw [pairs_succ]
      zify at h2 h3
      push_cast
      constructor <;> nlinarith
    · rintro _ j ⟨h1, h2⟩
      have e1 : pairs 1 = 0 := rfl
      rw [Nat.add_comm 1 n, e1] at h2
      rw [Nat.add_comm 1 n] at h1
      push_cast at h1 h2
      zify
      simp only [Nat.add_sub_cancel]
      constructor <;> nlinarith

/-! ### Heap sort -/

theorem costs_child (c n : Int) (b : Bool) : Costs (childT c n b) (fun w j => 1 ≤ j ∧ j ≤ 2 ∧ (w = true → c < n ∧ j = 2)) := by
  refine .branch_bind ?_
  by_cases hc : c < n
  · rw [decide_eq_true hc, if_pos rfl]
    exact (Takes.branch b).costs.mono (by rintro w _ rfl; exact ⟨by omega, by omega, fun _ => ⟨hc, rfl⟩⟩)
  · rw [decide_eq_false hc]
    exact .pure ⟨by omega, by omega, fun h => by cases h⟩

theorem costs_heapify (cmp : Cmp) (e : Ptr) {sz : Nat} (h : sz < 2 ^ 31) (n : Int) : ∀ (d fuel i : Nat),
    n < (i + 1) * 2 ^ (d + 1) →
    Costs (heapifyLoopT cmp e n sz fuel i) (fun _ j => 4 * sz + 5 ≤ j ∧ j ≤ d * (9 * sz + 7) + 4 * sz + 7) := by
  intro d
  induction d with
  | zero =>
    intro fuel i hi
    cases fuel with
    | zero => intro m a t m' hx; cases hx
    | succ fuel =>
      refine .branch_bind (.i32 (.i32 (.i32 ?_)))
      refine .after (takes_compareAt _ _ _ _ _) fun c1 => .bind (costs_child _ _ _) ?_
      rintro b1 j1 ⟨g1, g2, g3⟩
      have hb1 : b1 = false := by
        cases b1
        · rfl
        · have := (g3 rfl).1; omega
      subst hb1
      refine .after (takes_compareAt _ _ _ _ _) fun c2 => .bind (costs_child _ _ _) ?_
      rintro b2 j2 ⟨k1, k2, k3⟩
      have hb2 : b2 = false := by
        cases b2
        · rfl
        · have := (k3 rfl).1; omega
      subst hb2
      refine .branch_bind ?_
      simp only [Bool.false_eq_true, if_false, ne_eq, not_true_eq_false, decide_false]
      exact .branch_bind (.pure ⟨by omega, by omega⟩)
  | succ d ih =>
    intro fuel i hi
    cases fuel with
    | zero => intro m a t m' hx; cases hx
    | succ fuel =>
      refine .branch_bind (.i32 (.i32 (.i32 ?_)))
      refine .after (takes_compareAt _ _ _ _ _) fun c1 => .bind (costs_child _ _ _) ?_
      rintro b1 j1 ⟨g1, g2, g3⟩
      refine .after (takes_compareAt _ _ _ _ _) fun c2 => .bind (costs_child _ _ _) ?_
      rintro b2 j2 ⟨k1, k2, k3⟩
      have down : ∀ c : Nat, 2 * i + 1 ≤ c → Costs (T.branch (decide (((c : Nat) : Int) ≠ (i : Int))) >>= fun b =>
          if b then do
            swapElemsT e sz i c
            heapifyLoopT cmp e n sz fuel c
          else do
            let _ ← T.branch false
            return ()) (fun _ j => 3 ≤ j ∧ j ≤ 5 * sz + 2 + (d * (9 * sz + 7) + 4 * sz + 7)) := by
        intro c hc
        refine .branch_bind ?_
        rw [decide_eq_true (by omega), if_pos rfl]
        refine .after (takes_swap _ h _ _) fun _ => (ih fuel c ?_).mono ?_
        · have h2 : ((i : Int) + 1) * 2 ≤ (c : Int) + 1 := by omega
          have h3 := mul_le_mul_of_nonneg_right h2 (show (0 : Int) ≤ 2 ^ (d + 1) by positivity)
          calc n < ((i : Int) + 1) * 2 ^ (d + 1 + 1) := hi
            _ = (i + 1) * 2 * 2 ^ (d + 1) := by ring
            _ ≤ _ := h3
        · rintro _ j ⟨h1, h2⟩
          omega
      have hd : (d + 1) * (9 * sz + 7) = d * (9 * sz + 7) + (9 * sz + 7) := by ring
      cases b2
      · cases b1
        · simp only [Bool.false_eq_true, if_false, ne_eq, not_true_eq_false, decide_false]
          exact .branch_bind (.branch_bind (.pure ⟨by omega, by omega⟩))
        · exact (down (2 * i + 1) (by omega)).mono (by rintro _ j ⟨h1, h2⟩; omega)
      · exact (down (2 * i + 2) (by omega)).mono (by rintro _ j ⟨h1, h2⟩; omega)

/-- The levels below the first `i` places of a heap of `n` elements. -/
def levels (n i : Nat) : Nat := ∑ q ∈ Finset.range i, Nat.log2 (n / (q + 1))

theorem levels_step (n i : Nat) : levels n i = min i (n / 2) + levels (n / 2) i := by
  unfold levels
  induction i with
  | zero => simp
  | succ i ih =>
    rw [Finset.sum_range_succ, ih, Finset.sum_range_succ]
    have hd : n / 2 / (i + 1) = n / (i + 1) / 2 := by rw [Nat.div_div_eq_div_mul, Nat.div_div_eq_div_mul, Nat.mul_comm]
    by_cases h : i + 1 ≤ n / 2
    · have h2 : 2 ≤ n / (i + 1) := by rw [Nat.le_div_iff_mul_le (by omega)]; omega
      rw [Nat.log2_def (n / (i + 1)), if_pos h2, hd]
      omega
    · have h2 : n / (i + 1) < 2 := by rw [Nat.div_lt_iff_lt_mul (by omega)]; omega
      have h3 : n / (i + 1) / 2 = 0 := Nat.div_eq_of_lt h2
      rw [Nat.log2_def (n / (i + 1)), if_neg (by omega), hd, h3]
      have : Nat.log2 0 = 0 := by decide
      omega

/-- All places together have fewer levels below them than there are elements. -/
theorem levels_le (n i : Nat) : levels n i ≤ n := by
  induction n using Nat.strong_induction_on with
  | _ n ih =>
    rcases Nat.eq_zero_or_pos n with rfl | hn
    · unfold levels
      rw [Finset.sum_eq_zero]
      intro q _
      rw [Nat.zero_div]; decide
    · rw [levels_step]
      have := ih (n / 2) (by omega)
      omega

theorem costs_heap (cmp : Cmp) (e : Ptr) {sz : Nat} (h : sz < 2 ^ 31) (n fuel : Nat) :
    Costs (heapSortT fuel e n sz cmp) (fun _ j => (n / 2) * (4 * sz + 6) + n * (9 * sz + 7) + 2 ≤ j ∧
      j ≤ (n / 2) * (4 * sz + 8) + n * (Nat.log2 n * (9 * sz + 7) + 18 * sz + 16) + 2) := by
  have hL : ∀ i k : Nat, k ≤ n → (k : Int) < (i + 1) * 2 ^ (Nat.log2 n + 1) := by
    intro i k hk
    have h1 : n < 2 ^ (Nat.log2 n + 1) := Nat.lt_log2_self
    have h2 : 1 * 2 ^ (Nat.log2 n + 1) ≤ (i + 1) * 2 ^ (Nat.log2 n + 1) := Nat.mul_le_mul_right _ (by omega)
    have h3 : k < (i + 1) * 2 ^ (Nat.log2 n + 1) := by omega
    exact_mod_cast h3
  have hB : ∀ i : Nat, (n : Int) < (i + 1) * 2 ^ (Nat.log2 (n / (i + 1)) + 1) := by
    intro i
    have h1 : n / (i + 1) < 2 ^ (Nat.log2 (n / (i + 1)) + 1) := Nat.lt_log2_self
    rw [Nat.div_lt_iff_lt_mul (by omega), Nat.mul_comm] at h1
    exact_mod_cast h1
  unfold heapSortT
  refine .i32 ?_
  rw [show ((n : Int).tdiv 2 - 1 + 1).toNat = n / 2 by
    rw [Int.sub_add_cancel]
    exact_mod_cast Int.toNat_natCast (n / 2)]
  refine .bind (Costs.forDownT (lo := 4 * sz + 5) (hi := fun k => levels n k * (9 * sz + 7) + k * (4 * sz + 7)) _ _
    fun k s hk => (costs_heapify cmp e h n _ fuel k (hB k)).mono ?_) ?_
  · rintro _ j ⟨h1, h2⟩
    have e1 : levels n (k + 1) = levels n k + Nat.log2 (n / (k + 1)) := Finset.sum_range_succ _ _
    rw [e1]
    refine ⟨h1, ?_⟩
    nlinarith
  rintro _ j ⟨h1, h2⟩
  refine .i32 ?_
  rw [show ((n : Int) - 1 + 1).toNat = n by omega]
  refine (Costs.forDownT (lo := 9 * sz + 6) (hi := fun k => k * (Nat.log2 n * (9 * sz + 7) + 9 * sz + 8)) _ _
    fun k s hk => .after (takes_swap _ h _ _) fun _ => (costs_heapify cmp e h k _ fuel 0 (hL 0 k (by omega))).mono ?_).mono ?_
  · rintro _ j ⟨h1, h2⟩
    have hm : (k + 1) * (Nat.log2 n * (9 * sz + 7) + 9 * sz + 8) =
        k * (Nat.log2 n * (9 * sz + 7) + 9 * sz + 8) + (Nat.log2 n * (9 * sz + 7) + 9 * sz + 8) := by ring
    simp only [hm]
    omega
  · rintro _ l ⟨h3, h4⟩
    have hl := Nat.mul_le_mul_right (9 * sz + 7) (levels_le n (n / 2))
    rw [show 4 * sz + 5 + 1 = 4 * sz + 6 by omega] at h1
    rw [show 9 * sz + 6 + 1 = 9 * sz + 7 by omega] at h3
    refine ⟨by omega, ?_⟩
    have e0 : levels n 0 = 0 := rfl
    rw [e0] at h2
    generalize Nat.log2 n * (9 * sz + 7) = L at *
    nlinarith

end IMU.Sort
