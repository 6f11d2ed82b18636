import Verif.Proofs.Relate
import Verif.Proofs.SortCongr
import Verif.Proofs.SortGlue
import Verif.Spec.SortEffects

/-!
# The sorts with comparison functions that have effects
-/

namespace IMU.Sort
open Utils

/-! ### The pure model is an instance -/

theorem bubbleLoop_eq (cmp : Cmp) (p : Ptr) (n sz : Int) (fuel : Nat) : ∀ i,
    bubbleLoop cmp p n sz fuel i = bubbleLoopE (compareFun cmp sz) p n sz fuel i := by
  induction fuel with
  | zero => intro i; rfl
  | succ fuel ih =>
    intro i
    simp only [bubbleLoop, bubbleLoopE, ih]
    rfl

theorem insertionShift_eq (cmp : Cmp) (p : Ptr) (sz : Int) (el : Ptr) (k : Nat) : ∀ c,
    insertionShift cmp p sz el k c = insertionShiftE (compareFun cmp sz) p sz el k c := by
  induction k with
  | zero => intro c; rfl
  | succ k ih => intro c; simp only [insertionShift, insertionShiftE, ih]

theorem heapifyLoop_eq (cmp : Cmp) (p : Ptr) (n sz : Int) (fuel : Nat) : ∀ i,
    heapifyLoop cmp p n sz fuel i = heapifyLoopE (compareFun cmp sz) p n sz fuel i := by
  induction fuel with
  | zero => intro i; rfl
  | succ fuel ih =>
    intro i
    simp only [heapifyLoop, heapifyLoopE, ih]
    rfl

theorem bubbleSort_eq (fuel : Nat) (p : Ptr) (n sz : Int) (cmp : Cmp) :
    bubbleSort fuel p n sz cmp = bubbleSortE fuel p n sz (compareFun cmp sz) := bubbleLoop_eq ..

theorem selectionSort_eq (p : Ptr) (n sz : Int) (cmp : Cmp) :
    selectionSort p n sz cmp = selectionSortE p n sz (compareFun cmp sz) := rfl

theorem insertionSort_eq (st p : Ptr) (n sz : Int) (cmp : Cmp) :
    insertionSort st p n sz cmp = insertionSortE st p n sz (compareFun cmp sz) := by
  simp only [insertionSort, insertionSortE, insertionShift_eq]

theorem heapSort_eq (fuel : Nat) (p : Ptr) (n sz : Int) (cmp : Cmp) :
    heapSort fuel p n sz cmp = heapSortE fuel p n sz (compareFun cmp sz) := by
  simp only [heapSort, heapSortE, heapifyLoop_eq]

/-! ### Simulation -/

section
variable {P : Priv} {f g : CmpFun} {p : Ptr} {sz : Int}

/-- The comparison functions correspond on pointers into the two objects. -/
def SimCmp (P : Priv) (Q : Nat → Prop) (f g : CmpFun) : Prop :=
  ∀ p q : Ptr, Q p.blk → Q q.blk → Sim P (f p q) (g p q)

/-- A computation of a pointer whose block is known. -/
theorem Sim.elemAt_bind {β : Type} {i : Int} {x y : Ptr → C β} (h : ∀ r : Ptr, r.blk = p.blk → Sim P (x r) (y r)) :
    Sim P (elemAt p sz i >>= x) (elemAt p sz i >>= y) := by
  unfold elemAt
  intro m m' b m1 hm hx
  by_cases hr : -2147483648 ≤ i * sz ∧ i * sz ≤ 2147483647
  · have e : ∀ m, (do let k ← i32 (i * sz); return p.addZ k : C Ptr) m = .ok (p.addZ (i * sz)) m := by
      intro m; rw [C.bind_run, i32_ok hr.1 hr.2]; rfl
    rw [C.bind_run, e] at hx
    obtain ⟨m1', h1, h2⟩ := h (p.addZ (i * sz)) rfl m m' b m1 hm hx
    exact ⟨m1', by rw [C.bind_run, e]; exact h1, h2⟩
  · have e : ∀ m, (do let k ← i32 (i * sz); return p.addZ k : C Ptr) m = .ub .signedOverflow := by
      intro m; rw [C.bind_run]; simp [i32, hr, C.ub]
    rw [C.bind_run, e] at hx
    cases hx

theorem Sim.compareAt {Q : Nat → Prop} (hs : SimCmp P Q f g) (hp : Q p.blk) (i j : Int) :
    Sim P (compareAtE f p sz i j) (compareAtE g p sz i j) :=
  Sim.elemAt_bind fun r hr => Sim.elemAt_bind fun r' hr' => hs r r' (by rw [hr]; exact hp) (by rw [hr']; exact hp)

theorem Sim.swapElems (hp : ¬ P p.blk) (i j : Int) : Sim P (swapElems p sz i j) (swapElems p sz i j) :=
  Sim.elemAt_bind fun r hr => Sim.elemAt_bind fun r' hr' =>
    Sim.swapElements (by rw [hr]; exact hp) (by rw [hr']; exact hp) _

variable {Q : Nat → Prop}

theorem bubble_sim (hs : SimCmp P Q f g) (hp : Q p.blk) (hP : ¬ P p.blk) (n : Int) (fuel : Nat) : ∀ i,
    Sim P (bubbleLoopE f p n sz fuel i) (bubbleLoopE g p n sz fuel i) := by
  induction fuel with
  | zero => intro i; exact Sim.ub _ _
  | succ fuel ih =>
    intro i
    refine Sim.bind (Sim.i32 _) fun d => Sim.bind (Sim.i32 _) fun c => Sim.bind ?_ fun s => Sim.bind (Sim.i32 _) fun i =>
      Sim.ite (ih i) (Sim.pure ())
    exact Sim.forN _ _ _ _ _ fun j s => Sim.bind (Sim.compareAt hs hp _ _) fun c =>
      Sim.ite (Sim.bind (Sim.swapElems hP _ _) fun _ => Sim.pure _) (Sim.pure _)

theorem selection_sim (hs : SimCmp P Q f g) (hp : Q p.blk) (hP : ¬ P p.blk) (n : Int) :
    Sim P (selectionSortE p n sz f) (selectionSortE p n sz g) := by
  refine Sim.bind (Sim.i32 _) fun l => Sim.forN _ _ _ _ _ fun i _ => Sim.bind ?_ fun k =>
    Sim.ite (Sim.swapElems hP _ _) (Sim.pure ())
  exact Sim.bind (Sim.i32 _) fun j => Sim.forN _ _ _ _ _ fun j mi => Sim.bind (Sim.compareAt hs hp _ _) fun c => Sim.pure _

theorem shift_sim (hs : SimCmp P Q f g) {st : Ptr} (hst : Q st.blk) (hp : Q p.blk) (hP : ¬ P p.blk) (k : Nat) : ∀ c,
    Sim P (insertionShiftE f p sz st k c) (insertionShiftE g p sz st k c) := by
  induction k with
  | zero => intro c; exact Sim.pure 0
  | succ k ih =>
    intro c
    simp only [insertionShiftE]
    refine Sim.ite ?_ (Sim.pure _)
    exact Sim.elemAt_bind fun r hr => Sim.elemAt_bind fun r' hr' =>
      Sim.bind (Sim.memcpy (by rw [hr]; exact hP) (by rw [hr']; exact hP) _) fun _ =>
      Sim.elemAt_bind fun t ht => Sim.bind (hs t st (by rw [ht]; exact hp) hst) fun c => ih c

theorem insertion_sim (hs : SimCmp P Q f g) {st : Ptr} (hst : Q st.blk) (hPst : ¬ P st.blk) (hp : Q p.blk) (hP : ¬ P p.blk)
    (n : Int) : Sim P (insertionSortE st p n sz f) (insertionSortE st p n sz g) :=
  Sim.forN _ _ _ _ _ fun i _ => Sim.elemAt_bind fun r hr =>
    Sim.bind (Sim.memcpy hPst (by rw [hr]; exact hP) _) fun _ => Sim.elemAt_bind fun t ht =>
    Sim.bind (hs t st (by rw [ht]; exact hp) hst) fun c => Sim.bind (shift_sim hs hst hp hP i c) fun k =>
    Sim.elemAt_bind fun d hd => Sim.memcpy (by rw [hd]; exact hP) hPst _

theorem heapify_sim (hs : SimCmp P Q f g) (hp : Q p.blk) (hP : ¬ P p.blk) (n : Int) (fuel : Nat) : ∀ i,
    Sim P (heapifyLoopE f p n sz fuel i) (heapifyLoopE g p n sz fuel i) := by
  induction fuel with
  | zero => intro i; exact Sim.ub _ _
  | succ fuel ih =>
    intro i
    exact Sim.bind (Sim.i32 _) fun d => Sim.bind (Sim.i32 _) fun l => Sim.bind (Sim.i32 _) fun r =>
      Sim.bind (Sim.compareAt hs hp _ _) fun c1 => Sim.bind (Sim.compareAt hs hp _ _) fun c2 =>
      Sim.ite (Sim.bind (Sim.swapElems hP _ _) fun _ => ih _) (Sim.pure ())

theorem heap_sim (hs : SimCmp P Q f g) (hp : Q p.blk) (hP : ¬ P p.blk) (n : Int) (fuel : Nat) :
    Sim P (heapSortE fuel p n sz f) (heapSortE fuel p n sz g) :=
  Sim.bind (Sim.i32 _) fun h => Sim.bind (Sim.forDown _ _ _ _ fun i _ => heapify_sim hs hp hP n fuel i) fun _ =>
    Sim.bind (Sim.i32 _) fun h => Sim.forDown _ _ _ _ fun i _ =>
      Sim.bind (Sim.swapElems hP _ _) fun _ => heapify_sim hs hp hP i fuel 0

end

/-! ### Counting -/

section
variable {w : Nat} {f : CmpFun} {p : Ptr} {sz : Int}

theorem Calls.elemAt (i : Int) : Calls w (elemAt p sz i) 0 0 := Calls.bind0 (Calls.i32 _) fun _ => Calls.pure _

theorem Calls.compareAt (hf : ∀ p q, Calls w (f p q) 1 1) (i j : Int) : Calls w (compareAtE f p sz i j) 1 1 :=
  Calls.bind0 (Calls.elemAt _) fun _ => Calls.bind0 (Calls.elemAt _) fun _ => hf _ _

theorem Calls.swapElems (i j : Int) : Calls w (swapElems p sz i j) 0 0 :=
  Calls.bind0 (Calls.elemAt _) fun _ => Calls.bind0 (Calls.elemAt _) fun _ => Calls.swapElements _ _ _

/-- `0 + 1 + ... + (n-1)` -/
def tri : Nat → Nat
  | 0 => 0
  | n + 1 => tri n + n

theorem tri_succ (n : Nat) : tri (n + 1) = tri n + n := rfl

theorem tri_eq (n : Nat) : 2 * tri n = n * (n - 1) := by
  induction n with
  | zero => rfl
  | succ n ih =>
    rw [tri, Nat.mul_add, ih]
    cases n with
    | zero => rfl
    | succ n => simp only [Nat.add_sub_cancel]; rw [Nat.mul_comm (n + 1 + 1)]; rw [Nat.mul_add (n + 1) (n + 1) 1]; rw [Nat.mul_add (n+1) n 1]; omega

theorem pass_calls (hf : ∀ p q, Calls w (f p q) 1 1) (c : Int) : Calls w (bubblePassE f p sz c) c.toNat c.toNat :=
  (Calls.forN _ _ _ _ 1 1 fun j s => (Calls.bind (Calls.compareAt hf _ _) fun c =>
    Calls.ite (Calls.bind0 (Calls.swapElems _ _) fun _ => Calls.pure _) (Calls.pure _))).mono (by omega) (by omega)

/-- `i32` delivers its argument. -/
theorem Calls.i32_bind {β : Type} {x : Int} {k : Int → C β} {lo hi : Nat} (h : Calls w (k x) lo hi) :
    Calls w (i32 x >>= k) lo hi := by
  intro m a m1 hx
  rcases i32_cases x m with he | ⟨e, he⟩
  · rw [C.bind_ok he] at hx
    exact h m a m1 hx
  · rw [C.bind_ub he] at hx
    cases hx

theorem bubbleLoop_calls (hf : ∀ p q, Calls w (f p q) 1 1) (n : Nat) (fuel : Nat) : ∀ i : Nat,
    Calls w (bubbleLoopE f p n sz fuel i) (n - i - 1) (tri (n - i)) := by
  induction fuel with
  | zero => intro i; exact Calls.ub _ _ _
  | succ fuel ih =>
    intro i
    refine Calls.i32_bind (Calls.i32_bind ?_)
    have e : ((n : Int) - i - 1).toNat = n - i - 1 := by omega
    have h1 := pass_calls (p := p) (sz := sz) hf ((n : Int) - i - 1)
    rw [e] at h1
    refine (Calls.bind (lo' := 0) (hi' := tri (n - i - 1)) h1 fun s => Calls.i32_bind (Calls.ite ?_ ?_)).mono
      (by omega) ?_
    · have := ih (i + 1)
      rw [show n - (i + 1) = n - i - 1 by omega] at this
      exact this.mono (by omega) (by omega)
    · exact (Calls.pure ()).mono (by omega) (by omega)
    · cases hk : n - i with
      | zero => simp [tri]
      | succ k => simp only [Nat.add_sub_cancel, tri]; omega

theorem forN_tri {σ : Type} (n : Nat) : ∀ (i : Nat) (body : Nat → σ → C σ) (s : σ) (N : Nat), i + n + 1 = N →
    (∀ i s, Calls w (body i s) (N - i - 1) (N - i - 1)) → Calls w (forN n i body s) (tri (n + 1)) (tri (n + 1)) := by
  induction n with
  | zero => intro i body s N _ _; exact Calls.pure s
  | succ n ih =>
    intro i body s N hN h
    have h1 := h i s
    refine (Calls.bind h1 fun s => ih (i + 1) body s N (by omega) h).mono ?_ ?_
    · have := tri_succ (n + 1)
      omega
    · have := tri_succ (n + 1)
      omega

theorem selection_calls (hf : ∀ p q, Calls w (f p q) 1 1) (n : Nat) :
    Calls w (selectionSortE p n sz f) (tri n) (tri n) := by
  refine Calls.i32_bind ?_
  cases n with
  | zero => exact Calls.pure ()
  | succ n =>
    have e : (((n + 1 : Nat) : Int) - 1).toNat = n := by omega
    rw [e]
    refine forN_tri n 0 _ () (n + 1) (by omega) fun i _ => ?_
    refine (Calls.bind (lo := n + 1 - i - 1) (hi := n + 1 - i - 1) (lo' := 0) (hi' := 0) ?_ fun k =>
      Calls.ite (Calls.swapElems _ _) (Calls.pure ())).mono (by omega) (by omega)
    refine Calls.i32_bind ?_
    have e2 : (((n + 1 : Nat) : Int) - ((i : Int) + 1)).toNat = n + 1 - i - 1 := by omega
    rw [e2]
    exact (Calls.forN _ _ _ _ 1 1 fun j s => (Calls.bind (Calls.compareAt hf _ _) fun c => Calls.pure _)).mono
      (by omega) (by omega)

theorem shift_calls (hf : ∀ p q, Calls w (f p q) 1 1) (st : Ptr) (k : Nat) : ∀ c,
    Calls w (insertionShiftE f p sz st k c) 0 k := by
  induction k with
  | zero => intro c; exact Calls.pure 0
  | succ k ih =>
    intro c
    simp only [insertionShiftE]
    refine Calls.ite ?_ ((Calls.pure _).mono (by omega) (by omega))
    exact Calls.bind0 (Calls.elemAt _) fun _ => Calls.bind0 (Calls.elemAt _) fun _ => Calls.bind0 (Calls.memcpy _ _ _) fun _ =>
      Calls.bind0 (Calls.elemAt _) fun _ => (Calls.bind (hf _ _) fun c => ih c).mono (by omega) (by omega)

theorem forN_ins {σ : Type} (n : Nat) : ∀ (i : Nat) (body : Nat → σ → C σ) (s : σ),
    (∀ i s, Calls w (body i s) 1 (i + 1)) → Calls w (forN n i body s) n (tri (n + i + 1) - tri (i + 1)) := by
  induction n with
  | zero => intro i body s _; exact (Calls.pure s).mono (by omega) (by omega)
  | succ n ih =>
    intro i body s h
    refine (Calls.bind (h i s) fun s => ih (i + 1) body s h).mono (by omega) ?_
    have e : n + 1 + i = n + (i + 1) := by omega
    have e2 : tri (i + 1 + 1) = tri (i + 1) + (i + 1) := rfl
    have hm : ∀ k, tri (i + 1 + 1) ≤ tri (k + (i + 1 + 1)) := by
      intro k
      induction k with
      | zero => simp
      | succ k ihk =>
        have := tri_succ (k + (i + 1 + 1))
        rw [show k + 1 + (i + 1 + 1) = (k + (i + 1 + 1)) + 1 by omega]; omega
    have := hm n
    rw [e]
    rw [show n + (i + 1) + 1 = n + (i + 1 + 1) by omega]
    omega

theorem insertion_calls (hf : ∀ p q, Calls w (f p q) 1 1) (st : Ptr) (n : Nat) :
    Calls w (insertionSortE st p n sz f) (n - 1) (tri (n + 1) - 1) := by
  have e : ((n : Int) - 1).toNat = n - 1 := by omega
  unfold insertionSortE
  rw [e]
  refine (forN_ins (n - 1) 1 _ () fun i _ => ?_).mono (by omega) ?_
  · exact Calls.bind0 (Calls.elemAt _) fun _ => Calls.bind0 (Calls.memcpy _ _ _) fun _ => Calls.bind0 (Calls.elemAt _) fun _ =>
      (Calls.bind (hf _ _) fun c => Calls.bind (lo' := 0) (hi' := 0) (shift_calls hf st i c) fun k =>
        Calls.bind0 (Calls.elemAt _) fun _ => Calls.memcpy _ _ _).mono (by omega) (by omega)
  · cases n with
    | zero => simp [tri]
    | succ n => simp [tri]

theorem heapify_calls (hf : ∀ p q, Calls w (f p q) 1 1) (n : Int) (fuel : Nat) : ∀ i,
    Calls w (heapifyLoopE f p n sz fuel i) 2 (2 * fuel) := by
  induction fuel with
  | zero => intro i; exact Calls.ub _ _ _
  | succ fuel ih =>
    intro i
    exact Calls.bind0 (Calls.i32 _) fun _ => Calls.bind0 (Calls.i32 _) fun _ => Calls.bind0 (Calls.i32 _) fun _ =>
      (Calls.bind (Calls.compareAt hf _ _) fun c1 => Calls.bind (lo' := 0) (hi' := 2 * fuel) (Calls.compareAt hf _ _) fun c2 =>
        Calls.ite (Calls.bind0 (Calls.swapElems _ _) fun _ => (ih _).mono (by omega) (by omega))
          ((Calls.pure ()).mono (by omega) (by omega))).mono (by omega) (by omega)

theorem heap_calls (hf : ∀ p q, Calls w (f p q) 1 1) (n fuel : Nat) :
    Calls w (heapSortE fuel p n sz f) ((n / 2 + n) * 2) ((n / 2 + n) * (2 * fuel)) := by
  unfold heapSortE
  refine Calls.i32_bind ?_
  have e1 : ((n : Int).tdiv 2 - 1 + 1).toNat = n / 2 := by
    rw [Int.tdiv_eq_ediv_of_nonneg (by omega)]; omega
  have e2 : ((n : Int) - 1 + 1).toNat = n := by omega
  rw [e1, Nat.add_mul, Nat.add_mul]
  refine Calls.bind (Calls.forDown _ _ _ 2 (2 * fuel) fun i _ => heapify_calls hf _ _ _) fun _ => Calls.i32_bind ?_
  rw [e2]
  exact Calls.forDown _ _ _ 2 (2 * fuel) fun i _ => Calls.bind0 (Calls.swapElems _ _) fun _ => heapify_calls hf _ _ _

end

end IMU.Sort

namespace IMU.Sort
open Utils Spec

theorem simCmp_of_answers {P : Priv} {Q : Nat → Prop} {sz : Nat} {cmp : Cmp} {g : CmpFun}
    (h : AnswersAs P.inv P.objs Q sz cmp g) (hPQ : ∀ b, Q b → ¬ P b) : SimCmp P Q (compareFun cmp sz) g := by
  intro p q hp hq m m' a m1 hm hx
  unfold compareFun at hx
  rw [C.bind_run, Int.toNat_natCast] at hx
  cases h1 : loadN p sz m with
  | ub e => rw [h1] at hx; cases hx
  | ok x m2 =>
    have e2 : m2 = m := by
      unfold loadN at h1
      repeat' split at h1
      all_goals first
        | (simp only [Res.ok.injEq] at h1; exact h1.2.symm)
        | (cases h1; done)
    subst e2
    rw [h1] at hx
    simp only at hx
    rw [C.bind_run] at hx
    cases h2 : loadN q sz m2 with
    | ub e => rw [h2] at hx; cases hx
    | ok y m3 =>
      have e3 : m3 = m2 := by
        unfold loadN at h2
        repeat' split at h2
        all_goals first
          | (simp only [Res.ok.injEq] at h2; exact h2.2.symm)
          | (cases h2; done)
      subst e3
      rw [h2] at hx
      simp only [C.pure_run, Res.ok.injEq] at hx
      obtain ⟨rfl, rfl⟩ := hx
      have hl : ∀ (r : Ptr) (z : List Byte), Q r.blk → loadN r sz m3 = .ok z m3 → loadN r sz m' = .ok z m' := by
        intro r z hr hz
        unfold loadN at hz ⊢
        rw [hm.1 r.blk (hPQ _ hr)]
        repeat' split at hz
        · rename_i h0
          rw [if_pos h0]; simp only [Res.ok.injEq, and_true] at hz ⊢; exact hz
        · rename_i h0 h0'
          rw [if_neg h0, if_pos h0']; simp only [Res.ok.injEq, and_true] at hz ⊢; exact hz
        · cases hz
      obtain ⟨m4, h3, h4, h5⟩ := h p q m' x y hm.2 hp hq (hl p x hp h1) (hl q y hq h2)
      exact ⟨m4, h3, fun b hb => (h4 b hb).trans (hm.1 b hb), h5⟩

theorem logged_sim {Q : Nat → Prop} {w : Nat} {sz : Int} {cmp : Cmp} :
    SimCmp Priv.none Q (compareFun cmp sz) (logged w (compareFun cmp sz)) := by
  intro p q hp hq m m' a m1 hm hx
  have : Sim Priv.none (compareFun cmp sz p q) (compareFun cmp sz p q) :=
    Sim.bind (Sim.loadN id _) fun _ => Sim.bind (Sim.loadN id _) fun _ => Sim.pure _
  exact this m (m'.updW w (m'.words w ++ [0#32])) a m1 hm hx

theorem logged_calls {w : Nat} {sz : Int} {cmp : Cmp} (p q : Ptr) : Calls w (logged w (compareFun cmp sz) p q) 1 1 := by
  intro m a m1 hx
  have h : Calls w (compareFun cmp sz p q) 0 0 :=
    Calls.bind (Calls.loadN _ _) fun _ => Calls.bind (Calls.loadN _ _) fun _ => Calls.pure _
  have := h _ a m1 hx
  simp only [Mem.updW, if_true, List.length_append, List.length_singleton] at this
  omega

/-! ### Sorted arrays -/

/-- A pass that finds nothing to exchange. -/
theorem pass_false {cmp : Cmp} {p : Ptr} {sz : Int} {m : Mem} (c : Nat) : ∀ (j : Nat) (s : Bool),
    (∀ k : Nat, j ≤ k → k < j + c → compareAtE (compareFun cmp sz) p sz k (k + 1) m = .ok false m) →
    forN c j (fun j swapped => do
      let c ← compareAtE (compareFun cmp sz) p sz j (j + 1)
      if c then do
        swapElems p sz j (j + 1)
        return true
      else return swapped) s m = .ok s m := by
  induction c with
  | zero => intro j s _; rfl
  | succ c ih =>
    intro j s h
    simp only [forN]
    rw [C.bind_run, C.bind_run, h j (by omega) (by omega)]
    simp only [Bool.false_eq_true, if_false, C.pure_run]
    exact ih (j + 1) s (fun k h1 h2 => h k (by omega) (by omega))

/-- One round of insertion sort that finds its element in place, with a log. -/
theorem insertion_in_place {cmp : Cmp} {b o st sz w i n : Nat} {M : Mem} (hst : st ≠ b) (hi : 1 ≤ i) (hin : i < n)
    (hlim : (n - 1) * sz < 2 ^ 31) (hsz : sz < 2 ^ 31) (h64 : (M.bytes st).length = 64) (hs : sz ≤ 64)
    (hroom : o + n * sz ≤ (M.bytes b).length)
    (hc : cmp (slice (M.bytes b) (o + (i - 1) * sz) sz) (slice (M.bytes b) (o + i * sz) sz) = false) :
    ∃ M', (do
        let p ← elemAt (ptr b o) sz i
        memcpy (ptr st 0) p (szt sz)
        let q ← elemAt (ptr b o) sz ((i : Int) - 1)
        let compare ← logged w (compareFun cmp sz) q (ptr st 0)
        let k ← insertionShiftE (logged w (compareFun cmp sz)) (ptr b o) sz (ptr st 0) i compare
        let dst ← elemAt (ptr b o) sz k
        memcpy dst (ptr st 0) (szt sz) : C Unit) M = .ok () M' ∧
      M'.bytes b = M.bytes b ∧ (M'.bytes st).length = 64 ∧ (∀ c, c ≠ b → c ≠ st → M'.bytes c = M.bytes c) ∧
      (M'.words w).length = (M.words w).length + 1 := by
  have hk := mul_lim hlim hin
  have hk1 := mul_lim hlim (show i - 1 < n by omega)
  have hmul : i * sz + sz ≤ n * sz := by rw [← Nat.succ_mul]; exact Nat.mul_le_mul_right _ hin
  have hmul1 : (i - 1) * sz + sz ≤ i * sz := by
    rw [← Nat.succ_mul]; exact Nat.mul_le_mul_right _ (by omega)
  have hsl : (slice (M.bytes b) (o + i * sz) sz).length = sz := slice_length _ _ _ (by omega)
  let X := splice (M.bytes st) 0 (slice (M.bytes b) (o + i * sz) sz)
  have hX : X.length = 64 := by
    show (splice _ _ _).length = 64
    rw [splice_length _ _ _ (by omega), h64]
  have hXs : slice X 0 sz = slice (M.bytes b) (o + i * sz) sz := by
    have := slice_splice_same (M.bytes st) 0 (slice (M.bytes b) (o + i * sz) sz) (by omega)
    rw [hsl] at this; exact this
  let M1 := M.upd st X
  let M2 := M1.updW w (M1.words w ++ [0#32])
  have hb1 : M2.bytes b = M.bytes b := by
    show (M.upd st X).bytes b = _
    simp only [Mem.upd_bytes]; rw [if_neg (Ne.symm hst)]
  have hs1 : M2.bytes st = X := by
    show (M.upd st X).bytes st = _
    simp only [Mem.upd_bytes, if_true]
  have e1 : memcpy (ptr st 0) (ptr b (o + i * sz)) (szt (sz : Int)) M = .ok () M1 := by
    rw [szt_eq hsz]
    exact memcpy_ok (by omega) (by omega) (.inl hst)
  have ei : ((i : Int) - 1) = ((i - 1 : Nat) : Int) := by omega
  have e2 : logged w (compareFun cmp sz) (ptr b (o + (i - 1) * sz)) (ptr st 0) M1 = .ok false M2 := by
    show compareFun cmp sz (ptr b (o + (i - 1) * sz)) (ptr st 0) M2 = _
    unfold compareFun
    rw [Int.toNat_natCast, C.bind_ok (loadN_ok (by rw [hb1]; omega)), C.bind_ok (loadN_ok (by rw [hs1, hX]; omega)),
      hb1, hs1, hXs, hc]
    rfl
  have e3 : insertionShiftE (logged w (compareFun cmp sz)) (ptr b o) sz (ptr st 0) i false M2 = .ok i M2 := by
    obtain ⟨i', rfl⟩ : ∃ i', i = i' + 1 := ⟨i - 1, by omega⟩
    rfl
  refine ⟨M2.upd b (splice (M2.bytes b) (o + i * sz) (slice (M2.bytes st) 0 sz)), ?_, ?_, ?_, ?_, ?_⟩
  · rw [C.bind_ok (elemAt_ok hk M), C.bind_ok e1, ei, C.bind_ok (elemAt_ok hk1 M1), C.bind_ok e2, C.bind_ok e3,
      C.bind_ok (elemAt_ok hk M2), szt_eq hsz]
    exact memcpy_ok (by rw [hb1]; omega) (by rw [hs1, hX]; omega) (.inl (Ne.symm hst))
  · simp only [Mem.upd_bytes, if_true]
    rw [hb1, hs1, hXs]
    exact splice_self _ _ _ (by omega)
  · simp only [Mem.upd_bytes]
    rw [if_neg hst, hs1, hX]
  · intro c h1 h2
    simp only [Mem.upd_bytes]
    rw [if_neg h1]
    show (M.upd st X).bytes c = _
    simp only [Mem.upd_bytes]
    rw [if_neg h2]
  · show (M2.words w).length = _
    show ((M1.updW w (M1.words w ++ [0#32])).words w).length = _
    simp [Mem.updW, M1, Mem.upd]

theorem insertion_sorted_loop {cmp : Cmp} {b o st sz w n : Nat} {B : List Byte} (hst : st ≠ b)
    (hlim : (n - 1) * sz < 2 ^ 31) (hsz : sz < 2 ^ 31) (hs : sz ≤ 64) (hroom : o + n * sz ≤ B.length)
    (hc : ∀ i, 1 ≤ i → i < n → cmp (slice B (o + (i - 1) * sz) sz) (slice B (o + i * sz) sz) = false) (c : Nat) :
    ∀ (i : Nat) (M : Mem), 1 ≤ i → i + c ≤ n → M.bytes b = B → (M.bytes st).length = 64 →
    ∃ M', forN c i (fun (i : Nat) (_ : Unit) => (do
        let p ← elemAt (ptr b o) sz i
        memcpy (ptr st 0) p (szt sz)
        let q ← elemAt (ptr b o) sz ((i : Int) - 1)
        let compare ← logged w (compareFun cmp sz) q (ptr st 0)
        let k ← insertionShiftE (logged w (compareFun cmp sz)) (ptr b o) sz (ptr st 0) i compare
        let dst ← elemAt (ptr b o) sz k
        memcpy dst (ptr st 0) (szt sz) : C Unit)) () M = .ok () M' ∧
      M'.bytes b = B ∧ (M'.words w).length = (M.words w).length + c := by
  induction c with
  | zero => intro i M _ _ h1 _; exact ⟨M, rfl, h1, rfl⟩
  | succ c ih =>
    intro i M hi hic hB h64
    obtain ⟨M1, h1, h2, h3, -, h5⟩ := insertion_in_place (w := w) (n := n) hst hi (by omega) hlim hsz h64 hs
      (by rw [hB]; exact hroom) (by rw [hB]; exact hc i hi (by omega))
    obtain ⟨M2, h6, h7, h8⟩ := ih (i + 1) M1 (by omega) (by omega) (h2.trans hB) h3
    exact ⟨M2, by simp only [forN]; rw [C.bind_ok h1]; exact h6, h7, by omega⟩

/-! ### More fuel does not change a result -/

/-- Whenever `x` succeeds, `y` does the same. -/
def Leads {α : Type} (x y : C α) : Prop := ∀ m a m1, x m = .ok a m1 → y m = .ok a m1

theorem Leads.refl {α : Type} (x : C α) : Leads x x := fun _ _ _ h => h

theorem Leads.bind {α β : Type} {x y : C α} {f g : α → C β} (h : Leads x y) (hf : ∀ a, Leads (f a) (g a)) :
    Leads (x >>= f) (y >>= g) := by
  intro m b m1 hx
  rw [C.bind_run] at hx
  cases h1 : x m with
  | ub e => rw [h1] at hx; cases hx
  | ok a m2 =>
    rw [h1] at hx
    rw [C.bind_ok (h m a m2 h1)]
    exact hf a m2 b m1 hx

theorem Leads.ite {α : Type} {c : Prop} [Decidable c] {x y x' y' : C α} (h : Leads x y) (h' : Leads x' y') :
    Leads (if c then x else x') (if c then y else y') := by
  split
  · exact h
  · exact h'

theorem Leads.forDown {σ : Type} (c : Nat) (f g : Nat → σ → C σ) (h : ∀ i s, Leads (f i s) (g i s)) : ∀ s,
    Leads (forDown c f s) (forDown c g s) := by
  induction c with
  | zero => intro s; exact Leads.refl _
  | succ c ih => intro s; exact Leads.bind (h c s) fun s => ih s

theorem heapify_fuel {f : CmpFun} {p : Ptr} {sz : Int} (n : Int) (k fuel : Nat) : ∀ i,
    Leads (heapifyLoopE f p n sz fuel i) (heapifyLoopE f p n sz (fuel + k) i) := by
  induction fuel with
  | zero => intro i m a m1 h; cases h
  | succ fuel ih =>
    intro i
    rw [show fuel + 1 + k = fuel + k + 1 by omega]
    exact Leads.bind (Leads.refl _) fun _ => Leads.bind (Leads.refl _) fun _ => Leads.bind (Leads.refl _) fun _ =>
      Leads.bind (Leads.refl _) fun _ => Leads.bind (Leads.refl _) fun _ =>
      Leads.ite (Leads.bind (Leads.refl _) fun _ => ih _) (Leads.refl _)

theorem heap_fuel {f : CmpFun} {p : Ptr} {sz : Int} (n : Int) (k fuel : Nat) :
    Leads (heapSortE fuel p n sz f) (heapSortE (fuel + k) p n sz f) :=
  Leads.bind (Leads.refl _) fun _ => Leads.bind (Leads.forDown _ _ _ (fun _ _ => heapify_fuel _ _ _ _) _) fun _ =>
    Leads.bind (Leads.refl _) fun _ => Leads.forDown _ _ _
      (fun _ _ => Leads.bind (Leads.refl _) fun _ => heapify_fuel _ _ _ _) _

end IMU.Sort
