import Verif.Model.SortMoves
import Verif.Proofs.SortDisorder
import Verif.Spec.SortMoves

/-!
# The number of moves of elements
-/

namespace IMU.Sort
open Spec Utils

/-! ### The model without the counting is an instance -/

theorem bubbleLoopX_eq (f : CmpFun) (p : Ptr) (n sz : Int) (fuel : Nat) : ∀ i,
    bubbleLoopX (pure ()) f p n sz fuel i = bubbleLoopE f p n sz fuel i := by
  induction fuel with
  | zero => intro i; rfl
  | succ fuel ih =>
    intro i
    simp only [bubbleLoopX, bubbleLoopE, ih]
    rfl

theorem insertionShiftX_eq (f : CmpFun) (p : Ptr) (sz : Int) (el : Ptr) (k : Nat) : ∀ c,
    insertionShiftX (pure ()) f p sz el k c = insertionShiftE f p sz el k c := by
  induction k with
  | zero => intro c; rfl
  | succ k ih =>
    intro c
    simp only [insertionShiftX, insertionShiftE, ih]
    rfl

theorem heapifyLoopX_eq (f : CmpFun) (p : Ptr) (n sz : Int) (fuel : Nat) : ∀ i,
    heapifyLoopX (pure ()) f p n sz fuel i = heapifyLoopE f p n sz fuel i := by
  induction fuel with
  | zero => intro i; rfl
  | succ fuel ih =>
    intro i
    simp only [heapifyLoopX, heapifyLoopE, ih]
    rfl

/-! ### The counting changes nothing else -/

/-- The same bytes, and the same number of entries in all logs but `v`. -/
def AgreeLog (v : Nat) (m m' : Mem) : Prop :=
  m'.bytes = m.bytes ∧ ∀ u, u ≠ v → (m'.words u).length = (m.words u).length

/-- Whenever `x` succeeds, `y` does so with the same result, apart from the log `v`. -/
def SimLog {α : Type} (v : Nat) (x y : C α) : Prop :=
  ∀ m m' a m1, AgreeLog v m m' → x m = .ok a m1 → ∃ m1', y m' = .ok a m1' ∧ AgreeLog v m1 m1'

section
variable {α β : Type} {v : Nat}

theorem SimLog.of {x : C α} (h : Sim Priv.none x x) (hc : ∀ u, Calls u x 0 0) : SimLog v x x := by
  intro m m' a m1 hm hx
  obtain ⟨m1', h1, h2⟩ := h m m' a m1 ⟨fun b _ => by rw [hm.1], trivial⟩ hx
  refine ⟨m1', h1, funext fun b => h2.1 b id, fun u hu => ?_⟩
  have h3 := hc u m a m1 hx
  have h4 := hc u m' a m1' h1
  have h5 := hm.2 u hu
  omega

theorem SimLog.pure (a : α) : SimLog v (pure a : C α) (pure a) := .of (Sim.pure a) fun _ => Calls.pure a

theorem SimLog.ub (e : UB) : SimLog v (C.ub e : C α) (C.ub e) := by
  intro m m' a m1 _ hx; cases hx

theorem SimLog.bind {x y : C α} {f g : α → C β} (h : SimLog v x y) (hf : ∀ a, SimLog v (f a) (g a)) :
    SimLog v (x >>= f) (y >>= g) := by
  intro m m' b m1 hm hx
  rw [C.bind_run] at hx
  cases h1 : x m with
  | ub e => rw [h1] at hx; cases hx
  | ok a m2 =>
    rw [h1] at hx
    obtain ⟨m2', h2, h3⟩ := h m m' a m2 hm h1
    obtain ⟨m1', h4, h5⟩ := hf a m2 m2' b m1 h3 hx
    exact ⟨m1', by rw [C.bind_ok h2]; exact h4, h5⟩

theorem SimLog.ite {c : Prop} [Decidable c] {x y x' y' : C α} (h : SimLog v x y) (h' : SimLog v x' y') :
    SimLog v (if c then x else x') (if c then y else y') := by
  split
  · exact h
  · exact h'

theorem SimLog.forN {σ : Type} (n : Nat) : ∀ (i : Nat) (f g : Nat → σ → C σ) (s : σ),
    (∀ i s, SimLog v (f i s) (g i s)) → SimLog v (forN n i f s) (forN n i g s) := by
  induction n with
  | zero => intro i f g s _; exact SimLog.pure s
  | succ n ih => intro i f g s h; exact SimLog.bind (h i s) fun s => ih (i + 1) f g s h

theorem SimLog.forDown {σ : Type} (n : Nat) : ∀ (f g : Nat → σ → C σ) (s : σ),
    (∀ i s, SimLog v (f i s) (g i s)) → SimLog v (forDown n f s) (forDown n g s) := by
  induction n with
  | zero => intro f g s _; exact SimLog.pure s
  | succ n ih => intro f g s h; exact SimLog.bind (h n s) fun s => ih f g s h

/-- The counting itself. -/
theorem SimLog.tick {x y : C α} (h : SimLog v x y) : SimLog v x (tick v >>= fun _ => y) := by
  intro m m' a m1 hm hx
  obtain ⟨m1', h1, h2⟩ := h m (m'.updW v (m'.words v ++ [0#32])) a m1 ⟨hm.1, fun u hu => by
    rw [← hm.2 u hu]; simp [Mem.updW, hu]⟩ hx
  exact ⟨m1', by rw [C.bind_ok (show Spec.tick v m' = .ok () _ from rfl)]; exact h1, h2⟩

theorem SimLog.i32 (x : Int) : SimLog v (i32 x) (i32 x) := .of (Sim.i32 x) fun _ => Calls.i32 x

theorem SimLog.memcpy (p q : Ptr) (n : Nat) : SimLog v (memcpy p q n) (memcpy p q n) :=
  .of (Sim.memcpy id id n) fun _ => Calls.memcpy p q n

theorem SimLog.elemAt (p : Ptr) (sz i : Int) : SimLog v (elemAt p sz i) (elemAt p sz i) :=
  SimLog.bind (SimLog.i32 _) fun _ => SimLog.pure _

theorem SimLog.swapElems (p : Ptr) (sz i j : Int) : SimLog v (swapElems p sz i j) (swapElems p sz i j) :=
  SimLog.of (Sim.swapElems id i j) fun _ => Calls.swapElems i j

theorem SimLog.compareFun (cmp : Cmp) (sz : Int) (p q : Ptr) :
    SimLog v (compareFun cmp sz p q) (compareFun cmp sz p q) :=
  SimLog.of (Sim.bind (Sim.loadN id _) fun _ => Sim.bind (Sim.loadN id _) fun _ => Sim.pure _) fun _ =>
    Calls.bind (Calls.loadN _ _) fun _ => Calls.bind (Calls.loadN _ _) fun _ => Calls.pure _

theorem SimLog.logged {w : Nat} {f : CmpFun} (h : ∀ p q, SimLog v (f p q) (f p q)) (p q : Ptr) :
    SimLog v (logged w f p q) (logged w f p q) := by
  intro m m' a m1 hm hx
  refine h p q (m.updW w (m.words w ++ [0#32])) (m'.updW w (m'.words w ++ [0#32])) a m1 ⟨hm.1, fun u hu => ?_⟩ hx
  have := hm.2 u hu
  by_cases e : u = w
  · subst e; simp [Mem.updW, this]
  · simp [Mem.updW, e, this]

end

section
variable {v : Nat} {f : CmpFun} {p : Ptr} {sz : Int}

theorem SimLog.compareAt (hf : ∀ p q, SimLog v (f p q) (f p q)) (i j : Int) :
    SimLog v (compareAtE f p sz i j) (compareAtE f p sz i j) :=
  SimLog.bind (SimLog.elemAt _ _ _) fun _ => SimLog.bind (SimLog.elemAt _ _ _) fun _ => hf _ _

theorem bubble_simLog (hf : ∀ p q, SimLog v (f p q) (f p q)) (n : Int) (fuel : Nat) : ∀ i,
    SimLog v (bubbleLoopE f p n sz fuel i) (bubbleLoopX (tick v) f p n sz fuel i) := by
  induction fuel with
  | zero => intro i; exact SimLog.ub _
  | succ fuel ih =>
    intro i
    refine SimLog.bind (SimLog.i32 _) fun d => SimLog.bind (SimLog.i32 _) fun c => SimLog.bind ?_ fun s =>
      SimLog.bind (SimLog.i32 _) fun i => SimLog.ite (ih i) (SimLog.pure ())
    exact SimLog.forN _ _ _ _ _ fun j s => SimLog.bind (SimLog.compareAt hf _ _) fun c =>
      SimLog.ite (SimLog.tick (SimLog.bind (SimLog.swapElems _ _ _ _) fun _ => SimLog.pure _)) (SimLog.pure _)

theorem selection_simLog (hf : ∀ p q, SimLog v (f p q) (f p q)) (n : Int) :
    SimLog v (selectionSortE p n sz f) (selectionSortX (tick v) p n sz f) := by
  refine SimLog.bind (SimLog.i32 _) fun l => SimLog.forN _ _ _ _ _ fun i _ => SimLog.bind ?_ fun k =>
    SimLog.ite (SimLog.tick (SimLog.swapElems _ _ _ _)) (SimLog.pure ())
  exact SimLog.bind (SimLog.i32 _) fun j => SimLog.forN _ _ _ _ _ fun j mi =>
    SimLog.bind (SimLog.compareAt hf _ _) fun c => SimLog.pure _

theorem shift_simLog (hf : ∀ p q, SimLog v (f p q) (f p q)) (st : Ptr) (k : Nat) : ∀ c,
    SimLog v (insertionShiftE f p sz st k c) (insertionShiftX (tick v) f p sz st k c) := by
  induction k with
  | zero => intro c; exact SimLog.pure 0
  | succ k ih =>
    intro c
    simp only [insertionShiftE, insertionShiftX]
    refine SimLog.ite ?_ (SimLog.pure _)
    exact SimLog.bind (SimLog.elemAt _ _ _) fun _ => SimLog.bind (SimLog.elemAt _ _ _) fun _ =>
      SimLog.tick (SimLog.bind (SimLog.memcpy _ _ _) fun _ => SimLog.bind (SimLog.elemAt _ _ _) fun _ =>
        SimLog.bind (hf _ _) fun c => ih c)

theorem insertion_simLog (hf : ∀ p q, SimLog v (f p q) (f p q)) (st : Ptr) (n : Int) :
    SimLog v (insertionSortE st p n sz f) (insertionSortX (tick v) st p n sz f) :=
  SimLog.forN _ _ _ _ _ fun _ _ => SimLog.bind (SimLog.elemAt _ _ _) fun _ =>
    SimLog.tick (SimLog.bind (SimLog.memcpy _ _ _) fun _ => SimLog.bind (SimLog.elemAt _ _ _) fun _ =>
      SimLog.bind (hf _ _) fun _ => SimLog.bind (shift_simLog hf st _ _) fun _ =>
      SimLog.bind (SimLog.elemAt _ _ _) fun _ => SimLog.tick (SimLog.memcpy _ _ _))

theorem heapify_simLog (hf : ∀ p q, SimLog v (f p q) (f p q)) (n : Int) (fuel : Nat) : ∀ i,
    SimLog v (heapifyLoopE f p n sz fuel i) (heapifyLoopX (tick v) f p n sz fuel i) := by
  induction fuel with
  | zero => intro i; exact SimLog.ub _
  | succ fuel ih =>
    intro i
    exact SimLog.bind (SimLog.i32 _) fun d => SimLog.bind (SimLog.i32 _) fun l => SimLog.bind (SimLog.i32 _) fun r =>
      SimLog.bind (SimLog.compareAt hf _ _) fun c1 => SimLog.bind (SimLog.compareAt hf _ _) fun c2 =>
      SimLog.ite (SimLog.tick (SimLog.bind (SimLog.swapElems _ _ _ _) fun _ => ih _)) (SimLog.pure ())

theorem heap_simLog (hf : ∀ p q, SimLog v (f p q) (f p q)) (n : Int) (fuel : Nat) :
    SimLog v (heapSortE fuel p n sz f) (heapSortX (tick v) fuel p n sz f) :=
  SimLog.bind (SimLog.i32 _) fun _ => SimLog.bind (SimLog.forDown _ _ _ _ fun i _ => heapify_simLog hf n fuel i) fun _ =>
    SimLog.bind (SimLog.i32 _) fun _ => SimLog.forDown _ _ _ _ fun i _ =>
      SimLog.tick (SimLog.bind (SimLog.swapElems _ _ _ _) fun _ => heapify_simLog hf i fuel 0)

end

/-! ### Comparisons against moves -/

/-- `x` adds `d` to the number of entries in the log `w` less `k` times the number of those in `v`. -/
def Diff {α : Type} (v w : Nat) (k : Int) (x : C α) (d : Int) : Prop :=
  ∀ m a m1, x m = .ok a m1 →
    ((m1.words w).length : Int) - k * (m1.words v).length = (m.words w).length - k * (m.words v).length + d

section
variable {α β : Type} {v w : Nat} {k : Int}

theorem Diff.of {x : C α} (h : ∀ u, Calls u x 0 0) : Diff v w k x 0 := by
  intro m a m1 hx
  have h1 := h v m a m1 hx
  have h2 := h w m a m1 hx
  have e1 : (m1.words v).length = (m.words v).length := by omega
  have e2 : (m1.words w).length = (m.words w).length := by omega
  rw [e1, e2]; omega

theorem Diff.bind {x : C α} {f : α → C β} {d d' : Int} (h : Diff v w k x d) (hf : ∀ a, Diff v w k (f a) d') :
    Diff v w k (x >>= f) (d + d') := by
  intro m b m1 hx
  rw [C.bind_run] at hx
  cases h1 : x m with
  | ub e => rw [h1] at hx; cases hx
  | ok a m2 =>
    rw [h1] at hx
    have h2 := h m a m2 h1
    have h3 := hf a m2 b m1 hx
    omega

theorem Diff.bind0 {x : C α} {f : α → C β} {d : Int} (h : ∀ u, Calls u x 0 0) (hf : ∀ a, Diff v w k (f a) d) :
    Diff v w k (x >>= f) d := by
  have := Diff.bind (Diff.of h) hf
  rwa [Int.zero_add] at this

theorem Diff.ite {c : Prop} [Decidable c] {x y : C α} {d : Int} (h : Diff v w k x d) (h' : Diff v w k y d) :
    Diff v w k (if c then x else y) d := by
  split
  · exact h
  · exact h'

theorem Diff.ub (e : UB) (d : Int) : Diff v w k (C.ub e : C α) d := by
  intro m a m1 hx; cases hx

theorem Diff.cast {x : C α} {d d' : Int} (h : Diff v w k x d) (e : d = d') : Diff v w k x d' := e ▸ h

theorem Diff.tick (hvw : v ≠ w) {x : C α} {d : Int} (h : Diff v w k x (d + k)) :
    Diff v w k (tick v >>= fun _ => x) d := by
  intro m a m1 hx
  rw [C.bind_ok (show Spec.tick v m = .ok () _ from rfl)] at hx
  have h1 := h _ a m1 hx
  have e1 : ((m.updW v (m.words v ++ [0#32])).words w).length = (m.words w).length := by
    simp [Mem.updW, Ne.symm hvw]
  have e2 : ((m.updW v (m.words v ++ [0#32])).words v).length = (m.words v).length + 1 := by
    simp [Mem.updW]
  rw [e1, e2, Int.natCast_add, Int.natCast_one, Int.mul_add, Int.mul_one] at h1
  omega

theorem Diff.logged (hvw : v ≠ w) {f : CmpFun} (h : ∀ u p q, Calls u (f p q) 0 0) (p q : Ptr) :
    Diff v w k (Spec.logged w f p q) 1 := by
  intro m a m1 hx
  have h1 := h v p q _ a m1 hx
  have h2 := h w p q _ a m1 hx
  have e1 : ((m.updW w (m.words w ++ [0#32])).words w).length = (m.words w).length + 1 := by
    simp [Mem.updW]
  have e2 : ((m.updW w (m.words w ++ [0#32])).words v).length = (m.words v).length := by
    simp [Mem.updW, hvw]
  rw [e1] at h2
  rw [e2] at h1
  have e3 : (m1.words v).length = (m.words v).length := by omega
  rw [e3]; omega

theorem Diff.forN {σ : Type} {d : Int} (n : Nat) : ∀ (i : Nat) (f : Nat → σ → C σ) (s : σ),
    (∀ i s, Diff v w k (f i s) d) → Diff v w k (forN n i f s) (n * d) := by
  induction n with
  | zero => intro i f s _; exact (Diff.of fun _ => Calls.pure s).cast (by simp)
  | succ n ih =>
    intro i f s h
    refine (Diff.bind (h i s) fun s => ih (i + 1) f s h).cast ?_
    rw [Int.natCast_add, Int.add_mul, Int.natCast_one, Int.one_mul, Int.add_comm]

theorem Diff.forDown {σ : Type} {d : Int} (n : Nat) : ∀ (f : Nat → σ → C σ) (s : σ),
    (∀ i s, Diff v w k (f i s) d) → Diff v w k (forDown n f s) (n * d) := by
  induction n with
  | zero => intro f s _; exact (Diff.of fun _ => Calls.pure s).cast (by simp)
  | succ n ih =>
    intro f s h
    refine (Diff.bind (h n s) fun s => ih f s h).cast ?_
    rw [Int.natCast_add, Int.add_mul, Int.natCast_one, Int.one_mul, Int.add_comm]

end

section
variable {v w : Nat} {f : CmpFun} {p : Ptr} {sz : Int}

theorem Diff.compareAt {k : Int} (hf : ∀ p q, Diff v w k (f p q) 1) (i j : Int) :
    Diff v w k (compareAtE f p sz i j) 1 :=
  Diff.bind0 (fun _ => Calls.elemAt _) fun _ => Diff.bind0 (fun _ => Calls.elemAt _) fun _ => hf _ _

theorem shift_diff (hvw : v ≠ w) (hf : ∀ p q, Diff v w 1 (f p q) 1) (st : Ptr) (k : Nat) : ∀ c,
    Diff v w 1 (insertionShiftX (Spec.tick v) f p sz st k c) 0 := by
  induction k with
  | zero => intro c; exact Diff.of fun _ => Calls.pure 0
  | succ k ih =>
    intro c
    simp only [insertionShiftX]
    refine Diff.ite ?_ (Diff.of fun _ => Calls.pure _)
    exact Diff.bind0 (fun _ => Calls.elemAt _) fun _ => Diff.bind0 (fun _ => Calls.elemAt _) fun _ =>
      Diff.tick hvw (Diff.bind0 (fun _ => Calls.memcpy _ _ _) fun _ => Diff.bind0 (fun _ => Calls.elemAt _) fun _ =>
        (Diff.bind (hf _ _) fun c => ih c).cast rfl)

theorem insertion_diff (hvw : v ≠ w) (hf : ∀ p q, Diff v w 1 (f p q) 1) (st : Ptr) (n : Nat) :
    Diff v w 1 (insertionSortX (Spec.tick v) st p n sz f) (-((n - 1 : Nat) : Int)) := by
  have e : ((n : Int) - 1).toNat = n - 1 := by omega
  unfold insertionSortX
  rw [e]
  refine (Diff.forN (d := -1) (n - 1) 1 _ () fun i _ => ?_).cast (by omega)
  exact Diff.bind0 (fun _ => Calls.elemAt _) fun _ => Diff.tick hvw (Diff.bind0 (fun _ => Calls.memcpy _ _ _) fun _ =>
    Diff.bind0 (fun _ => Calls.elemAt _) fun _ => (Diff.bind (d' := -1) (hf _ _) fun c =>
      (Diff.bind (d' := -1) (shift_diff hvw hf st i c) fun _ => Diff.bind0 (fun _ => Calls.elemAt _) fun _ =>
        Diff.tick hvw ((Diff.of fun _ => Calls.memcpy _ _ _).cast rfl)).cast rfl).cast rfl)

theorem heapify_diff (hvw : v ≠ w) (hf : ∀ p q, Diff v w 2 (f p q) 1) (n : Int) (fuel : Nat) : ∀ i,
    Diff v w 2 (heapifyLoopX (Spec.tick v) f p n sz fuel i) 2 := by
  induction fuel with
  | zero => intro i; exact Diff.ub _ _
  | succ fuel ih =>
    intro i
    exact Diff.bind0 (fun _ => Calls.i32 _) fun _ => Diff.bind0 (fun _ => Calls.i32 _) fun _ =>
      Diff.bind0 (fun _ => Calls.i32 _) fun _ => (Diff.bind (d' := 1) (Diff.compareAt hf _ _) fun c1 =>
        (Diff.bind (d' := 0) (Diff.compareAt hf _ _) fun c2 => Diff.ite
          (Diff.tick hvw ((Diff.bind0 (fun _ => Calls.swapElems _ _) fun _ => ih _).cast rfl))
          (Diff.of fun _ => Calls.pure ())).cast rfl).cast rfl

theorem heap_diff (hvw : v ≠ w) (hf : ∀ p q, Diff v w 2 (f p q) 1) (n fuel : Nat) :
    Diff v w 2 (heapSortX (Spec.tick v) fuel p n sz f) ((2 * (n / 2) : Nat) : Int) := by
  unfold heapSortX
  have e1 : ((n : Int).tdiv 2 - 1 + 1).toNat = n / 2 := by
    rw [Int.tdiv_eq_ediv_of_nonneg (by omega)]; omega
  intro m a m1 hx
  rcases i32_cases ((n : Int).tdiv 2 - 1) m with he | ⟨e, he⟩
  · rw [C.bind_ok he, e1] at hx
    have h := (Diff.bind (d' := 0) (Diff.forDown (d := 2) (n / 2) _ () fun i _ => heapify_diff (p := p) (sz := sz) hvw hf n fuel i)
      fun _ => Diff.bind0 (fun _ => Calls.i32 ((n : Int) - 1)) fun h => (Diff.forDown (d := 0) (h + 1).toNat (fun i _ => do
        Spec.tick v
        swapElems p sz 0 i
        heapifyLoopX (Spec.tick v) f p i sz fuel 0) () fun i _ =>
        Diff.tick hvw ((Diff.bind0 (fun _ => Calls.swapElems _ _) fun _ => heapify_diff hvw hf i fuel 0).cast rfl)).cast
          (by simp)) m a m1 hx
    omega
  · rw [C.bind_ub he] at hx
    cases hx


end

/-! ### Bubble sort: every exchange removes one pair -/

/-- `m0` with one more entry in the log `u`. -/
def note (m0 : Mem) (u : Nat) : Mem := m0.updW u (m0.words u ++ [0#32])

theorem note_same (m0 : Mem) (u : Nat) : ((note m0 u).words u).length = (m0.words u).length + 1 := by
  simp [note, Mem.updW]

theorem note_other (m0 : Mem) {u v : Nat} (h : v ≠ u) : (note m0 u).words v = m0.words v := by
  simp [note, Mem.updW, h]

theorem tick_arr (v : Nat) (m0 : Mem) (b o : Nat) (l : List (List Byte)) :
    tick v (arr m0 b o l) = .ok () (arr (note m0 v) b o l) := rfl

theorem fits_note {m0 : Mem} {b o sz : Nat} {l : List (List Byte)} (u : Nat) (h : Fits m0 b o sz l) :
    Fits (note m0 u) b o sz l := ⟨h.chunks, h.room⟩

theorem compareAt_logged (gt : Cmp) {m0 : Mem} {b o sz w : Nat} {l : List (List Byte)} (h : Fits m0 b o sz l)
    {i j : Nat} {x y : List Byte} (hi : i * sz < 2 ^ 31) (hj : j * sz < 2 ^ 31) (hx : l[i]? = some x)
    (hy : l[j]? = some y) :
    compareAtE (logged w (compareFun gt sz)) (ptr b o) sz i j (arr m0 b o l) = .ok (gt x y) (arr (note m0 w) b o l) := by
  have h1 := compareAt_ok gt (fits_note w h) hi hj hx hy
  unfold compareAt at h1
  unfold compareAtE
  rw [C.bind_ok (elemAt_ok hi _), C.bind_ok (elemAt_ok hj _)] at h1 ⊢
  exact h1

/-- The number of exchanges of a pass. -/
def bswaps (gt : Cmp) : List Byte → List (List Byte) → Nat
  | _, [] => 0
  | x, y :: B => if gt x y then bswaps gt x B + 1 else bswaps gt y B

theorem bswaps_inv {gt : Cmp} (hw : StrictWeak gt) : ∀ (B : List (List Byte)) (x : List Byte) (O : List (List Byte)),
    (aheadsR gt O (bpass gt B.length x B).1).sum + bswaps gt x B = (aheadsR gt O (x :: B)).sum := by
  intro B
  induction B with
  | nil => intro x O; simp [bpass, bswaps]
  | cons y B ih =>
    intro x O
    simp only [List.length_cons, bpass, bswaps]
    by_cases hxy : gt x y = true
    · rw [if_pos hxy, if_pos hxy]
      have h1 := ih x (y :: O)
      simp only [aheadsR, List.sum_cons, List.countP_cons, hxy, hw.asymm _ _ hxy] at h1 ⊢
      rw [aheadsR_perm gt B (List.Perm.swap x y O)]
      simp only [Bool.false_eq_true, if_false, if_true] at h1 ⊢
      omega
    · rw [if_neg hxy, if_neg hxy]
      have h1 := ih y (x :: O)
      simp only [aheadsR, List.sum_cons] at h1 ⊢
      omega

theorem bubblePassX_run (gt : Cmp) {b o sz v w : Nat} (hvw : v ≠ w) (hsz : sz < 2 ^ 31) (S : List (List Byte)) :
    ∀ (B : List (List Byte)) (m0 : Mem) (A : List (List Byte)) (x : List Byte) (sw : Bool),
    Fits m0 b o sz (A ++ x :: (B ++ S)) → ((A ++ x :: (B ++ S)).length - 1) * sz < 2 ^ 31 →
    ∃ m0', forN B.length A.length (fun j swapped => do
      let c ← compareAtE (logged w (compareFun gt sz)) (ptr b o) (sz : Int) (j : Int) ((j : Int) + 1)
      if c then do
        tick v
        swapElems (ptr b o) (sz : Int) (j : Int) ((j : Int) + 1)
        return true
      else return swapped) sw (arr m0 b o (A ++ x :: (B ++ S))) =
    .ok (sw || (bpass gt B.length x (B ++ S)).2) (arr m0' b o (A ++ (bpass gt B.length x (B ++ S)).1)) ∧
      m0'.bytes = m0.bytes ∧ (m0'.words v).length = (m0.words v).length + bswaps gt x B := by
  intro B
  induction B with
  | nil => intro m0 A x sw _ _; exact ⟨m0, by simp [bpass], rfl, by simp [bswaps]⟩
  | cons y B ih =>
    intro m0 A x sw hf hlim
    rw [List.cons_append] at hf hlim ⊢
    have hlen : (A ++ x :: y :: (B ++ S)).length = A.length + 1 + 1 + (B ++ S).length := by simp; omega
    have e1 : ((A.length : Int) + 1) = ((A.length + 1 : Nat) : Int) := by simp
    have h1 : (A ++ x :: y :: (B ++ S))[A.length]? = some x := by simp
    have h2 : (A ++ x :: y :: (B ++ S))[A.length + 1]? = some y := by
      rw [List.getElem?_append_right (by omega)]; simp
    have l1 := mul_lim hlim (k := A.length) (by omega)
    have l2 := mul_lim hlim (k := A.length + 1) (by omega)
    rw [List.length_cons, forN_succ, e1, C.bind_ok (compareAt_logged gt hf l1 l2 h1 h2)]
    unfold bpass bswaps
    by_cases hxy : gt x y = true
    · rw [if_pos hxy, if_pos hxy, if_pos hxy, C.bind_ok (tick_arr _ _ _ _ _),
        C.bind_ok (swapElems_ok (fits_note v (fits_note w hf)) hsz l1 l2 (by omega) (by omega)), C.pure_run, swapAt_adjacent]
      simp only
      have hf' : Fits (note (note m0 w) v) b o sz ((A ++ [y]) ++ x :: (B ++ S)) := by
        have := hf.perm (swapAt_perm _ A.length (A.length + 1))
        rw [swapAt_adjacent] at this
        simpa using fits_note v (fits_note w this)
      obtain ⟨m0', g1, g2, g3⟩ := ih (note (note m0 w) v) (A ++ [y]) x true hf' (by simpa using hlim)
      simp only [List.length_append, List.length_singleton, List.append_assoc, List.singleton_append] at g1
      refine ⟨m0', ?_, g2, ?_⟩
      · rw [g1]; simp
      · rw [g3, note_same, note_other _ hvw]; omega
    · rw [if_neg hxy, if_neg hxy, if_neg hxy, C.pure_run]
      simp only
      obtain ⟨m0', g1, g2, g3⟩ := ih (note m0 w) (A ++ [x]) y sw (by simpa using fits_note w hf) (by simpa using hlim)
      simp only [List.length_append, List.length_singleton, List.append_assoc, List.singleton_append] at g1
      refine ⟨m0', ?_, g2, ?_⟩
      · rw [g1]
      · rw [g3, note_other _ hvw]

theorem sorted_aheads (gt : Cmp) : ∀ (t O : List (List Byte)), Sorted gt t → (∀ a ∈ O, ∀ s ∈ t, gt a s = false) →
    (aheadsR gt O t).sum = 0 := by
  intro t
  induction t with
  | nil => intro O _ _; rfl
  | cons e t ih =>
    intro O hs hO
    unfold Sorted at hs
    rw [List.pairwise_cons] at hs
    have h0 : O.countP (fun a => gt a e) = 0 := List.countP_eq_zero.mpr fun a ha => by rw [hO a ha e (by simp)]; decide
    rw [aheadsR, List.sum_cons, h0, ih (e :: O) hs.2]
    intro a ha s hs'
    rcases List.mem_cons.mp ha with rfl | ha
    · exact hs.1 s hs'
    · exact hO a ha s (by simp [hs'])

theorem bubble_moves {gt : Cmp} (hw : StrictWeak gt) {b o sz v w : Nat} (hvw : v ≠ w) (hsz : sz < 2 ^ 31) (fuel : Nat) :
    ∀ (m0 : Mem) (P S : List (List Byte)), P.length ≤ fuel → 1 ≤ fuel → (P ++ S).length < 2 ^ 31 →
    S.length < 2 ^ 31 - 1 → Fits m0 b o sz (P ++ S) → ((P ++ S).length - 1) * sz < 2 ^ 31 →
    ∃ M', bubbleLoopX (tick v) (logged w (compareFun gt sz)) (ptr b o) ((P ++ S).length : Int) sz fuel (S.length : Int)
        (arr m0 b o (P ++ S)) = .ok () M' ∧
      (M'.words v).length = (m0.words v).length + (aheadsR gt [] P).sum := by
  induction fuel with
  | zero => intro m0 P S _ h; omega
  | succ fuel ih =>
    intro m0 P S hP _ hn hS0 hf hlim
    have hlen : (P ++ S).length = P.length + S.length := List.length_append
    simp only [bubbleLoopX]
    rw [C.bind_ok (i32_ok (by omega) (by omega) _), C.bind_ok (i32_ok (by omega) (by omega) _)]
    have hcnt : (((P ++ S).length : Int) - (S.length : Int) - 1).toNat = P.length - 1 := by omega
    unfold bubblePassX
    rw [hcnt]
    cases P with
    | nil =>
      simp only [List.length_nil, Nat.zero_sub]
      rw [C.bind_ok (forN_zero _ _ _ _), C.bind_ok (i32_ok (by omega) (by omega) _)]
      exact ⟨_, rfl, by simp [aheadsR, arr, Mem.upd]⟩
    | cons x B =>
      obtain ⟨m1, hrun, hb1, hc1⟩ := bubblePassX_run gt (v := v) (w := w) hvw hsz S B m0 [] x false (by simpa using hf)
        (by simpa using hlim)
      simp only [List.length_nil, List.nil_append, Bool.false_or] at hrun
      simp only [List.length_cons, Nat.add_sub_cancel, List.cons_append]
      rw [C.bind_ok hrun, C.bind_ok (i32_ok (by omega) (by omega) _)]
      rw [bpass_append]
      simp only
      have hinv := bswaps_inv hw B x []
      obtain ⟨A', x', k1, k2, k3, -⟩ := bpass_max hw B.length x B (Nat.le_refl _)
      rw [List.drop_length] at k1
      have h0 : A'.countP (fun a => gt a x') = 0 := List.countP_eq_zero.mpr fun a ha => by rw [k3 a ha]; decide
      by_cases hflag : (bpass gt B.length x B).2 = true
      · rw [if_pos hflag]
        have hperm := bpass_perm gt B.length x B
        rw [k1] at hperm hinv ⊢
        rw [aheadsR_concat, h0] at hinv
        have hB1 : 1 ≤ B.length := by
          cases B with
          | nil => simp [bpass] at hflag
          | cons => simp
        have hpS : (x :: B ++ S).Perm (A' ++ x' :: S) := by
          have := hperm.append_right S
          simpa using this
        have hf1 : Fits m1 b o sz (A' ++ x' :: S) := by
          have := hf.perm hpS
          exact ⟨this.chunks, by rw [hb1]; exact this.room⟩
        obtain ⟨M', i1, i2⟩ := ih m1 A' (x' :: S) (by simp at hP; omega) (by simp at hP; omega)
          (by rw [← hpS.length_eq]; exact hn) (by simp at hn ⊢; omega) hf1
          (by rw [← hpS.length_eq]; exact hlim)
        refine ⟨M', ?_, ?_⟩
        · rw [← i1, ← hpS.length_eq]
          simp
        · rw [i2, hc1]
          simp only [List.countP_nil, List.sum_append, List.sum_cons, List.sum_nil] at hinv
          omega
      · rw [if_neg hflag, C.pure_run]
        have hflag : (bpass gt B.length x B).2 = false := by simpa using hflag
        obtain ⟨f1, f2⟩ := bpass_false (gt := gt) B.length x B hflag
        have f3 := f2 hw
        rw [List.take_length] at f3
        have f4 := sorted_aheads gt (x :: B) [] f3 (by simp)
        refine ⟨_, rfl, ?_⟩
        show (m1.words v).length = _
        rw [hc1, f4]
        omega

/-! ### Selection sort -/

theorem aheadsR_append (gt : Cmp) (t : List (List Byte)) : ∀ (s O : List (List Byte)),
    aheadsR gt O (s ++ t) = aheadsR gt O s ++ aheadsR gt (s.reverse ++ O) t := by
  intro s
  induction s with
  | nil => intro O; rfl
  | cons a s ih =>
    intro O
    rw [List.cons_append, aheadsR, ih, aheadsR]
    simp

theorem aheadsR_front (gt : Cmp) (x : List Byte) : ∀ (B O : List (List Byte)),
    (aheadsR gt (x :: O) B).sum = (aheadsR gt O B).sum + B.countP (fun b => gt x b) := by
  intro B
  induction B with
  | nil => intro O; rfl
  | cons y B ih =>
    intro O
    simp only [aheadsR, List.sum_cons, List.countP_cons]
    rw [aheadsR_perm gt B (List.Perm.swap x y O), ih]
    omega

theorem aheads_two (gt : Cmp) (x y : List Byte) (B C O : List (List Byte)) :
    (aheadsR gt O (x :: (B ++ y :: C))).sum = O.countP (fun a => gt a x) + O.countP (fun a => gt a y) +
      (if gt x y then 1 else 0) + B.countP (fun b => gt b y) + B.countP (fun b => gt x b) + (aheadsR gt O B).sum +
      (aheadsR gt (y :: (B.reverse ++ x :: O)) C).sum := by
  rw [aheadsR, aheadsR_append, List.sum_cons, List.sum_append, aheadsR_front, aheadsR, List.sum_cons,
    List.countP_append, List.countP_cons, List.countP_reverse]
  omega

theorem gt_trans {gt : Cmp} (hw : StrictWeak gt) {a b c : List Byte} (h1 : gt a b = true) (h2 : gt b c = true) :
    gt a c = true := by
  cases h : gt a c with
  | true => rfl
  | false => rw [hw.trans' h1 h] at h2; exact absurd h2 (by decide)

/-- Exchanging a greater element with a smaller one behind it leaves fewer pairs in the wrong order. -/
theorem exchange_inv {gt : Cmp} (hw : StrictWeak gt) {x y : List Byte} (hxy : gt x y = true) (A B C : List (List Byte)) :
    inversions gt (A ++ y :: (B ++ x :: C)) + 1 ≤ inversions gt (A ++ x :: (B ++ y :: C)) := by
  rw [inversions_eq, inversions_eq, aheadsR_append, aheadsR_append, List.sum_append, List.sum_append, aheads_two, aheads_two,
    hxy, hw.asymm _ _ hxy]
  have hp : (x :: (B.reverse ++ y :: (A.reverse ++ []))).Perm (y :: (B.reverse ++ x :: (A.reverse ++ []))) := by
    refine (List.Perm.cons x List.perm_middle).trans ((List.Perm.swap y x _).trans ?_)
    exact List.Perm.cons y List.perm_middle.symm
  rw [aheadsR_perm gt C hp]
  have h1 : B.countP (fun b => gt b x) ≤ B.countP (fun b => gt b y) :=
    List.countP_mono_left fun b _ hb => gt_trans hw hb hxy
  have h2 : B.countP (fun b => gt y b) ≤ B.countP (fun b => gt x b) :=
    List.countP_mono_left fun b _ hb => gt_trans hw hxy hb
  simp only [Bool.false_eq_true, if_false, if_true]
  omega

theorem two_places {l : List (List Byte)} {i k : Nat} (hik : i < k) (hk : k < l.length) :
    ∃ A B C, l = A ++ l.getD i [] :: (B ++ l.getD k [] :: C) ∧ swapAt l k i = A ++ l.getD k [] :: (B ++ l.getD i [] :: C) := by
  have h1 : l = l.take i ++ l.getD i [] :: ((l.drop (i + 1)).take (k - i - 1) ++ l.getD k [] :: l.drop (k + 1)) := by
    have e1 : l.drop (i + 1) = (l.drop (i + 1)).take (k - i - 1) ++ l.drop k := by
      conv => lhs; rw [← List.take_append_drop (k - i - 1) (l.drop (i + 1))]
      rw [List.drop_drop, show i + 1 + (k - i - 1) = k by omega]
    have e2 : l.drop k = l.getD k [] :: l.drop (k + 1) := by
      rw [List.drop_eq_getElem_cons hk]; simp [hk]
    have e3 : l.drop i = l.getD i [] :: l.drop (i + 1) := by
      rw [List.drop_eq_getElem_cons (by omega)]; simp [show i < l.length by omega]
    rw [← e2, ← e1, ← e3, List.take_append_drop]
  refine ⟨_, _, _, h1, ?_⟩
  have hA : (l.take i).length = i := by rw [List.length_take]; omega
  have hB : ((l.drop (i + 1)).take (k - i - 1)).length = k - i - 1 := by
    rw [List.length_take, List.length_drop]; omega
  generalize l.take i = A at h1 hA ⊢
  generalize (l.drop (i + 1)).take (k - i - 1) = B at h1 hB ⊢
  generalize l.drop (k + 1) = D at h1 ⊢
  generalize l.getD i [] = x at h1 ⊢
  generalize l.getD k [] = y at h1 ⊢
  subst h1
  obtain ⟨d, rfl⟩ : ∃ d, k = i + 1 + d := ⟨k - i - 1, by omega⟩
  have hd : B.length = d := by omega
  subst hA; subst hd
  have g1 : (A ++ x :: (B ++ y :: D))[A.length + 1 + B.length]? = some y := by
    rw [List.getElem?_append_right (by omega), show A.length + 1 + B.length - A.length = B.length + 1 by omega]
    simp
  have g2 : (A ++ x :: (B ++ y :: D))[A.length]? = some x := by simp
  unfold swapAt
  rw [g1, g2]
  simp only
  rw [List.set_append_right _ _ (by omega), show A.length + 1 + B.length - A.length = B.length + 1 by omega]
  simp [List.set_append]

theorem selection_moves (gt : Cmp) {m0 : Mem} {b o sz v w : Nat} {l0 : List (List Byte)} (hvw : v ≠ w) (hsz : sz < 2 ^ 31)
    (hf : Fits m0 b o sz l0) (hlim : (l0.length - 1) * sz < 2 ^ 31) (hn : l0.length < 2 ^ 31) :
    ∃ l M' s, selectionSortX (tick v) (ptr b o) (l0.length : Int) sz (logged w (compareFun gt sz)) (arr m0 b o l0) =
        .ok () M' ∧ AgreeOff Priv.none (arr m0 b o l) M' ∧ (M'.words v).length = (m0.words v).length + s ∧
      s ≤ l0.length - 1 ∧ (StrictWeak gt → inversions gt l + s ≤ inversions gt l0) ∧ (s = 0 → l = l0) := by
  unfold selectionSortX
  rw [C.bind_ok (i32_ok (by omega) (by omega) _)]
  have hcnt : ((l0.length : Int) - 1).toNat = l0.length - 1 := by omega
  rw [hcnt]
  have key := forN_inv (fun i (_ : Unit) M => ∃ l s, AgreeOff Priv.none (arr m0 b o l) M ∧ l0.Perm l ∧
      (M.words v).length = (m0.words v).length + s ∧ s ≤ i ∧
      (StrictWeak gt → inversions gt l + s ≤ inversions gt l0) ∧ (s = 0 → l = l0)) (l0.length - 1) 0 (fun i _ => do
        let min_index ← selectMinE (logged w (compareFun gt sz)) (ptr b o) (l0.length : Int) (sz : Int) i
        if min_index ≠ i then do
          tick v
          swapElems (ptr b o) (sz : Int) (min_index : Int) (i : Int)
        else return ())
      () (arr m0 b o l0) ?_ ?_
  · obtain ⟨_, M', h1, l, s, h2, -, h3, h4, h5, h6⟩ := key
    exact ⟨l, M', s, h1, h2, h3, by omega, h5, h6⟩
  · exact ⟨l0, 0, AgreeOff.refl trivial, .refl _, rfl, Nat.le_refl _, fun _ => Nat.le_refl _, fun _ => rfl⟩
  · rintro i ⟨⟩ M _ hi ⟨l, s, h0, h1, h2, h3, h4, h5⟩
    rw [Nat.zero_add] at hi
    have hle := h1.length_eq
    rw [hle] at hlim hn hi ⊢
    obtain ⟨k, g1, g2, g3, g4, g5⟩ := selectMin_run gt (hf.perm h1) hlim hn (i := i) (by omega)
    have hsim : Sim Priv.none (selectMin gt (ptr b o) (l.length : Int) sz i)
        (selectMinE (logged w (compareFun gt sz)) (ptr b o) (l.length : Int) sz i) :=
      Sim.bind (Sim.i32 _) fun j => Sim.forN _ _ _ _ _ fun j mi =>
        Sim.bind (Sim.compareAt (Q := fun _ => True) logged_sim trivial _ _) fun c => Sim.pure _
    obtain ⟨M1, e1, e2⟩ := hsim _ M _ _ h0 g1
    have hl0 : ∀ p q, Calls v (logged w (compareFun gt (sz : Int)) p q) 0 0 := by
      intro p q m a m1 hx
      have h : Calls v (compareFun gt (sz : Int) p q) 0 0 :=
        Calls.bind (Calls.loadN _ _) fun _ => Calls.bind (Calls.loadN _ _) fun _ => Calls.pure _
      have := h _ a m1 hx
      simp only [Mem.updW, if_neg hvw] at this
      omega
    have hc : Calls v (selectMinE (logged w (compareFun gt sz)) (ptr b o) (l.length : Int) sz i) 0 0 :=
      Calls.bind0 (Calls.i32 _) fun _ => (Calls.forN _ _ _ _ 0 0 fun j s => Calls.bind0
        (Calls.bind0 (Calls.elemAt _) fun _ => Calls.bind0 (Calls.elemAt _) fun _ => hl0 _ _) fun c =>
          Calls.pure _).mono (by omega) (by omega)
    have e3 := hc _ _ _ e1
    rw [C.bind_ok e1]
    by_cases hk : k = i
    · rw [if_neg (by simp [hk]), C.pure_run]
      exact ⟨(), _, rfl, l, s, e2, h1, by omega, by omega, h4, h5⟩
    · have hil : i < l.length := by omega
      have hswap := swapElems_ok (hf.perm h1) hsz (mul_lim hlim g3) (mul_lim hlim hil) g3 hil
      obtain ⟨M2, e4, e5⟩ := Sim.swapElems (P := Priv.none) (p := ptr b o) (sz := (sz : Int)) id (k : Int) (i : Int) _
        (note M1 v) _ _ (show AgreeOff Priv.none (arr m0 b o l) (note M1 v) from e2) hswap
      have e6 := Calls.swapElems (w := v) _ _ _ _ _ e4
      rw [note_same] at e6
      rw [if_pos hk, C.bind_ok (show tick v M1 = .ok () (note M1 v) from rfl), e4]
      refine ⟨(), _, rfl, swapAt l k i, s + 1, e5, h1.trans (swapAt_perm _ _ _), by omega, by omega, ?_, by omega⟩
      intro hw
      obtain ⟨A, B, D, d1, d2⟩ := two_places (show i < k by omega) g3
      have hgt : gt (l.getD i []) (l.getD k []) = true := by
        cases hg : gt (l.getD i []) (l.getD k []) with
        | true => rfl
        | false =>
          exfalso
          apply hk
          apply g5
          intro q q1 q2
          exact hw.negTrans _ _ _ hg (g4 hw q (by omega) q2)
      have := exchange_inv hw hgt A B D
      rw [← d1, ← d2] at this
      have := h4 hw
      omega

end IMU.Sort
