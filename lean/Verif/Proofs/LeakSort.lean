import Verif.Proofs.LeakConst
import Verif.Proofs.SortTwins
import Verif.Model.LeakSort

/-!
# Two observed runs of a sort
-/

namespace IMU
namespace T
variable {α β σ : Type}

/-! ### Two runs side by side -/

/-- The lists differ at some place up to which they agree. -/
def Apart (t u : List Leak) : Prop := ∃ p x y t' u', t = p ++ x :: t' ∧ u = p ++ y :: u' ∧ x ≠ y

theorem Apart.ne {t u : List Leak} (h : Apart t u) : t ≠ u := by
  obtain ⟨p, x, y, t', u', rfl, rfl, hne⟩ := h
  intro e
  exact hne (List.cons.inj (List.append_cancel_left e)).1

theorem Apart.before {t u : List Leak} (p : List Leak) (h : Apart t u) : Apart (p ++ t) (p ++ u) := by
  obtain ⟨q, x, y, t', u', rfl, rfl, hne⟩ := h
  exact ⟨p ++ q, x, y, t', u', by simp, by simp, hne⟩

theorem Apart.behind {t u : List Leak} (h : Apart t u) (v w : List Leak) : Apart (t ++ v) (u ++ w) := by
  obtain ⟨q, x, y, t', u', rfl, rfl, hne⟩ := h
  exact ⟨q, x, y, t' ++ v, u' ++ w, by simp, by simp, hne⟩

/-- Two runs show the same and end in `Q`, or they can be told apart, which happens only if `D`. -/
def Lock (D : Prop) (x x' : T α) (m m' : Mem) (Q : α → α → Mem → Mem → Prop) : Prop :=
  ∀ a t r a' t' r', x m = .ok (a, t) r → x' m' = .ok (a', t') r' → (t = t' ∧ Q a a' r r') ∨ (Apart t t' ∧ D)

theorem Lock.bind {D : Prop} {x x' : T α} {f f' : α → T β} {m m' : Mem} {Q : α → α → Mem → Mem → Prop}
    {R : β → β → Mem → Mem → Prop} (h : Lock D x x' m m' Q)
    (hf : ∀ a a' r r', Q a a' r r' → Lock D (f a) (f' a') r r' R) : Lock D (x >>= f) (x' >>= f') m m' R := by
  intro b t r b' t' r' h1 h2
  obtain ⟨a, t1, m1, t2, k1, k2, rfl⟩ := bind_cases h1
  obtain ⟨a', t1', m1', t2', k1', k2', rfl⟩ := bind_cases h2
  rcases h _ _ _ _ _ _ k1 k1' with ⟨rfl, hq⟩ | ⟨ha, hd⟩
  · rcases hf _ _ _ _ hq _ _ _ _ _ _ k2 k2' with ⟨rfl, hr⟩ | ⟨ha, hd⟩
    · exact .inl ⟨rfl, hr⟩
    · exact .inr ⟨ha.before _, hd⟩
  · exact .inr ⟨ha.behind _ _, hd⟩

theorem Lock.pure {D : Prop} {a a' : α} {m m' : Mem} {Q : α → α → Mem → Mem → Prop} (h : Q a a' m m') :
    Lock D (pure a) (pure a') m m' Q := by
  intro b t r b' t' r' h1 h2
  cases h1; cases h2
  exact .inl ⟨rfl, h⟩

theorem Lock.branch {D : Prop} {b b' : Bool} {m m' : Mem} (h : b ≠ b' → D) :
    Lock D (branch b) (branch b') m m' (fun a a' r r' => a = b ∧ a' = b ∧ b' = b ∧ r = m ∧ r' = m') := by
  intro a t r a' t' r' h1 h2
  cases h1; cases h2
  by_cases e : b = b'
  · subst e; exact .inl ⟨rfl, rfl, rfl, rfl, rfl, rfl⟩
  · exact .inr ⟨⟨[], .branch b, .branch b', [], [], rfl, rfl, by simpa using e⟩, h e⟩

theorem Lock.fixed {D : Prop} {x x' : T α} {m m' r r' : Mem} {a a' : α} {t : List Leak} {Q : α → α → Mem → Mem → Prop}
    (hx : Shows x t) (hx' : Shows x' t) (h : erase x m = .ok a r) (h' : erase x' m' = .ok a' r') (hq : Q a a' r r') :
    Lock D x x' m m' Q := by
  intro b u q b' u' q' h1 h2
  have e1 := hx _ _ _ _ h1
  have e2 := hx' _ _ _ _ h2
  unfold erase at h h'
  rw [h1] at h
  rw [h2] at h'
  cases h; cases h'
  exact .inl ⟨e1.trans e2.symm, hq⟩

theorem Lock.quiet {D : Prop} {x x' : C α} {m m' r r' : Mem} {a a' : α} {Q : α → α → Mem → Mem → Prop}
    (h : x m = .ok a r) (h' : x' m' = .ok a' r') (hq : Q a a' r r') : Lock D (T.quiet x) (T.quiet x') m m' Q :=
  .fixed (Shows.quiet _) (Shows.quiet _) (by rw [erase_quiet]; exact h) (by rw [erase_quiet]; exact h') hq

theorem Lock.mono {D : Prop} {x x' : T α} {m m' : Mem} {Q R : α → α → Mem → Mem → Prop} (h : Lock D x x' m m' Q)
    (hq : ∀ a a' r r', Q a a' r r' → R a a' r r') : Lock D x x' m m' R := by
  intro a t r a' t' r' h1 h2
  rcases h _ _ _ _ _ _ h1 h2 with ⟨e, k⟩ | k
  · exact .inl ⟨e, hq _ _ _ _ k⟩
  · exact .inr k

/-- Leave a computation on both sides whose results are known. -/
theorem Lock.quiet_bind {D : Prop} {x x' : C α} {f f' : α → T β} {m m' r r' : Mem} {a a' : α}
    {R : β → β → Mem → Mem → Prop} (h : x m = .ok a r) (h' : x' m' = .ok a' r') (hf : Lock D (f a) (f' a') r r' R) :
    Lock D (T.quiet x >>= f) (T.quiet x' >>= f') m m' R :=
  .bind (Q := fun b b' q q' => b = a ∧ b' = a' ∧ q = r ∧ q' = r') (.quiet h h' ⟨rfl, rfl, rfl, rfl⟩)
    (by rintro b b' q q' ⟨rfl, rfl, rfl, rfl⟩; exact hf)

theorem Lock.branch_bind {D : Prop} {b b' : Bool} {f f' : Bool → T β} {m m' : Mem} {R : β → β → Mem → Mem → Prop}
    (h : b ≠ b' → D) (hf : b = b' → Lock D (f b) (f' b) m m' R) :
    Lock D (T.branch b >>= f) (T.branch b' >>= f') m m' R :=
  .bind (.branch h) (by rintro a a' r r' ⟨rfl, rfl, e, rfl, rfl⟩; exact hf e.symm)

theorem forNT_lock {D : Prop} (I : Nat → σ → Mem → Mem → Prop) (f f' : Nat → σ → T σ) (n : Nat) :
    ∀ (i : Nat) (s : σ) (m m' : Mem), I i s m m' →
    (∀ k s m m', i ≤ k → k < i + n → I k s m m' →
      Lock D (f k s) (f' k s) m m' (fun a a' r r' => a' = a ∧ I (k + 1) a r r')) →
    Lock D (forNT n i f s) (forNT n i f' s) m m' (fun a a' r r' => a' = a ∧ I (i + n) a r r') := by
  induction n with
  | zero =>
    intro i s m m' h _
    exact .branch_bind (fun e => absurd rfl e) (fun _ => .pure ⟨rfl, h⟩)
  | succ n ih =>
    intro i s m m' h hs
    refine .branch_bind (fun e => absurd rfl e) (fun _ => ?_)
    refine .bind (hs i s m m' (by omega) (by omega) h) ?_
    rintro a a' r r' ⟨rfl, h'⟩
    rw [show i + (n + 1) = i + 1 + n by omega]
    exact ih (i + 1) _ r r' h' (fun k s m m' h1 h2 => hs k s m m' (by omega) (by omega))

theorem forDownT_lock {D : Prop} (I : σ → Mem → Mem → Prop) (f f' : Nat → σ → T σ) (n : Nat) : ∀ (s : σ) (m m' : Mem),
    I s m m' → (∀ k s m m', k < n → I s m m' → Lock D (f k s) (f' k s) m m' (fun a a' r r' => a' = a ∧ I a r r')) →
    Lock D (forDownT n f s) (forDownT n f' s) m m' (fun a a' r r' => a' = a ∧ I a r r') := by
  induction n with
  | zero =>
    intro s m m' h _
    exact .branch_bind (fun e => absurd rfl e) (fun _ => .pure ⟨rfl, h⟩)
  | succ n ih =>
    intro s m m' h hs
    refine .branch_bind (fun e => absurd rfl e) (fun _ => ?_)
    refine .bind (hs n s m m' (by omega) h) ?_
    rintro a a' r r' ⟨rfl, h'⟩
    exact ih _ r r' h' (fun k s m m' h1 => hs k s m m' (by omega))

/-- What a loop counting down shows. -/
theorem shows_forDown {f : Nat → Unit → T Unit} {g : Nat → List Leak} (h : ∀ i s, Shows (f i s) (g i)) (n : Nat) :
    ∃ t, ∀ s, Shows (forDownT n f s) t := by
  induction n with
  | zero => exact ⟨_, fun s => Shows.branch_bind (Shows.pure _)⟩
  | succ n ih =>
    obtain ⟨t, ht⟩ := ih
    exact ⟨_, fun s => Shows.branch_bind (Shows.bind (h n s) (fun s => ht s))⟩

theorem erase_forDownT (n : Nat) : ∀ (body : Nat → σ → T σ) (s : σ),
    erase (forDownT n body s) = forDown n (fun i s => erase (body i s)) s := by
  induction n with
  | zero => intro body s; rfl
  | succ n ih =>
    intro body s
    simp only [forDownT, forDown]
    rw [erase_branch_bind, erase_bind]
    simp only [ih]

theorem erase_ok {x : T α} {m r : Mem} {a : α} (h : erase x m = .ok a r) : ∃ t, x m = .ok (a, t) r := by
  unfold erase at h
  cases hx : x m with
  | ub e => rw [hx] at h; cases h
  | ok at' m1 =>
    obtain ⟨b, t⟩ := at'
    rw [hx] at h
    cases h
    exact ⟨t, rfl⟩

end T
end IMU

namespace IMU.Sort
open T Spec Utils

/-! ### Without the observer -/

theorem erase_swapElements (p q : Ptr) (size : U32) : erase (swapElementsT p q size) = swapElements p q size := by
  unfold swapElementsT swapElements
  simp only [erase_forDownT, erase_bind, erase_load, erase_store]

theorem erase_compareFun (cmp : Cmp) (sz : Int) (p q : Ptr) : erase (compareFunT cmp sz p q) = compareFun cmp sz p q := by
  unfold compareFunT
  rw [erase_emit_bind, erase_emit_bind, erase_quiet]

theorem erase_compareAt (cmp : Cmp) (e : Ptr) (sz i j : Int) : erase (compareAtT cmp e sz i j) = compareAt cmp e sz i j := by
  unfold compareAtT compareAt
  simp only [erase_bind, erase_quiet, erase_compareFun]

theorem erase_swapElems (e : Ptr) (sz i j : Int) : erase (swapElemsT e sz i j) = swapElems e sz i j := by
  unfold swapElemsT swapElems
  simp only [erase_bind, erase_quiet, erase_swapElements]

theorem erase_bubblePass (cmp : Cmp) (e : Ptr) (sz c : Int) : erase (bubblePassT cmp e sz c) = bubblePass cmp e sz c := by
  unfold bubblePassT bubblePass
  simp only [erase_forNT, erase_bind, erase_compareAt, erase_branch, pure_bind_C, erase_ite, erase_swapElems, erase_pure]

theorem erase_bubbleLoop (cmp : Cmp) (e : Ptr) (n sz : Int) (fuel : Nat) : ∀ i,
    erase (bubbleLoopT cmp e n sz fuel i) = bubbleLoop cmp e n sz fuel i := by
  induction fuel with
  | zero => intro i; rw [bubbleLoopT, erase_quiet]; rfl
  | succ fuel ih =>
    intro i
    simp only [bubbleLoopT, bubbleLoop, erase_bind, erase_quiet, erase_bubblePass, erase_branch, pure_bind_C, erase_ite, ih,
      erase_pure]

theorem erase_bubbleSort (fuel : Nat) (e : Ptr) (n sz : Int) (cmp : Cmp) :
    erase (bubbleSortT fuel e n sz cmp) = bubbleSort fuel e n sz cmp := by
  unfold bubbleSortT bubbleSort
  rw [erase_branch_bind, erase_bubbleLoop]

theorem erase_selectMin (cmp : Cmp) (e : Ptr) (n sz : Int) (i : Nat) : erase (selectMinT cmp e n sz i) = selectMin cmp e n sz i := by
  unfold selectMinT selectMin
  simp only [erase_forNT, erase_bind, erase_quiet, erase_compareAt, erase_branch, pure_bind_C, erase_pure]

theorem erase_selectionSort (e : Ptr) (n sz : Int) (cmp : Cmp) :
    erase (selectionSortT e n sz cmp) = selectionSort e n sz cmp := by
  unfold selectionSortT selectionSort
  simp only [erase_forNT, erase_bind, erase_quiet, erase_selectMin, erase_branch, pure_bind_C, erase_ite, erase_swapElems,
    erase_pure, decide_eq_true_eq]

theorem erase_child (c n : Int) (b : Bool) : erase (childT c n b) = pure (decide (c < n) && b) := by
  unfold childT
  simp only [erase_bind, erase_branch, pure_bind_C, erase_ite, erase_pure]
  by_cases h : c < n <;> simp [h]

theorem erase_heapify (cmp : Cmp) (e : Ptr) (n sz : Int) (fuel : Nat) : ∀ i,
    erase (heapifyLoopT cmp e n sz fuel i) = heapifyLoop cmp e n sz fuel i := by
  induction fuel with
  | zero => intro i; rw [heapifyLoopT, erase_quiet]; rfl
  | succ fuel ih =>
    intro i
    simp only [heapifyLoopT, heapifyLoop, erase_bind, erase_quiet, erase_compareAt, erase_child, erase_branch, pure_bind_C,
      erase_ite, ih, erase_pure, erase_swapElems, Bool.and_eq_true, decide_eq_true_eq]

theorem erase_heapSort (fuel : Nat) (e : Ptr) (n sz : Int) (cmp : Cmp) :
    erase (heapSortT fuel e n sz cmp) = heapSort fuel e n sz cmp := by
  unfold heapSortT heapSort
  simp only [erase_forDownT, erase_bind, erase_quiet, erase_heapify, erase_swapElems]

/-! ### Comparing and swapping -/

theorem shows_compareFun (sz : Int) (p q : Ptr) : ∃ t, ∀ cmp, Shows (compareFunT cmp sz p q) t :=
  ⟨_, fun _ => Shows.bind (Shows.emit _) fun _ => Shows.bind (Shows.emit _) fun _ => Shows.quiet _⟩

theorem shows_swapElements (p q : Ptr) (size : U32) : ∃ t, Shows (swapElementsT p q size) t := by
  obtain ⟨t, h⟩ := shows_forDown (f := fun index _ => do
    let temp ← loadT (p.addN index)
    let s ← loadT (q.addN index)
    storeT (p.addN index) s
    storeT (q.addN index) temp) (g := _) (fun i s => Shows.bind (Shows.load _) fun _ => Shows.bind (Shows.load _) fun _ =>
      Shows.bind (Shows.store _ _) fun _ => Shows.store _ _) size.toNat
  exact ⟨t, h ()⟩

variable {m0 m0' : Mem} {b o sz : Nat} {R R' : List (List Byte)} {g g' : Cmp}

/-- The two arrays, at the same place, and what stands behind them. -/
abbrev sideL (m0 : Mem) (b o sz : Nat) (R : List (List Byte)) : Side := ⟨m0, b, o, sz, R⟩

/-- What is assumed of the two arrays. -/
structure Pair (m0 m0' : Mem) (b o sz : Nat) (R R' : List (List Byte)) (Z : List Twin) : Prop where
  ok : (sideL m0 b o sz R).Ok (Z.map Prod.fst)
  ok' : (sideL m0' b o sz R').Ok (Z.map Prod.snd)

theorem Pair.perm {Z Z' : List Twin} (h : Pair m0 m0' b o sz R R' Z) (hp : Z.Perm Z') : Pair m0 m0' b o sz R R' Z' :=
  ⟨h.ok.perm (hp.map _), h.ok'.perm (hp.map _)⟩

/-- The two memories. -/
abbrev memL (m0 : Mem) (b o sz : Nat) (R : List (List Byte)) (Z : List Twin) : Mem := (sideL m0 b o sz R).mem (Z.map Prod.fst)
abbrev memR (m0' : Mem) (b o sz : Nat) (R' : List (List Byte)) (Z : List Twin) : Mem := (sideL m0' b o sz R').mem (Z.map Prod.snd)

theorem lock_compare_any {D : Prop} {Z : List Twin} (h : Pair m0 m0' b o sz R R' Z) {i j : Nat}
    (hi : i < Z.length + R.length) (hj : j < Z.length + R.length) (hi' : i < Z.length + R'.length)
    (hj' : j < Z.length + R'.length) :
    Lock D (compareAtT g (ptr b o) sz i j) (compareAtT g' (ptr b o) sz i j) (memL m0 b o sz R Z) (memR m0' b o sz R' Z)
      (fun c c' r r' => c = g ((Z.map Prod.fst ++ R).getD i []) ((Z.map Prod.fst ++ R).getD j []) ∧
        c' = g' ((Z.map Prod.snd ++ R').getD i []) ((Z.map Prod.snd ++ R').getD j []) ∧
        r = memL m0 b o sz R Z ∧ r' = memR m0' b o sz R' Z) := by
  have hl : (Z.map Prod.fst ++ R).length = Z.length + R.length := by simp
  have hl' : (Z.map Prod.snd ++ R').length = Z.length + R'.length := by simp
  have li : i * sz < 2 ^ 31 := mul_lim h.ok.lim (by show i < (Z.map Prod.fst ++ R).length; omega)
  have lj : j * sz < 2 ^ 31 := mul_lim h.ok.lim (by show j < (Z.map Prod.fst ++ R).length; omega)
  have c1 := compareAt_ok g h.ok.fits li lj (getElem?_getD (l := Z.map Prod.fst ++ R) [] (by omega))
    (getElem?_getD (l := Z.map Prod.fst ++ R) [] (by omega))
  have c2 := compareAt_ok g' h.ok'.fits li lj (getElem?_getD (l := Z.map Prod.snd ++ R') [] (by omega))
    (getElem?_getD (l := Z.map Prod.snd ++ R') [] (by omega))
  unfold compareAt at c1 c2
  rw [C.bind_ok (elemAt_ok li _), C.bind_ok (elemAt_ok lj _)] at c1 c2
  unfold compareAtT
  refine .quiet_bind (elemAt_ok li _) (elemAt_ok li _) (.quiet_bind (elemAt_ok lj _) (elemAt_ok lj _) ?_)
  obtain ⟨t, ht⟩ := shows_compareFun sz (ptr b (o + i * sz)) (ptr b (o + j * sz))
  exact .fixed (ht g) (ht g') (by rw [erase_compareFun]; exact c1) (by rw [erase_compareFun]; exact c2) ⟨rfl, rfl, rfl, rfl⟩

theorem getD_twin (f : Twin → List Byte) (Z : List Twin) (T : List (List Byte)) {i : Nat} (hi : i < Z.length) :
    (Z.map f ++ T).getD i [] = f Z[i] := by
  rw [List.getD_eq_getElem?_getD, List.getElem?_append_left (by simpa using hi), List.getElem?_map,
    List.getElem?_eq_getElem hi]; rfl

theorem lock_compare {Z0 Z : List Twin} (hp : Z0.Perm Z) (h : Pair m0 m0' b o sz R R' Z) {i j : Nat}
    (hi : i < Z.length) (hj : j < Z.length) :
    Lock (¬ Alike g g' Z0) (compareAtT g (ptr b o) sz i j) (compareAtT g' (ptr b o) sz i j) (memL m0 b o sz R Z)
      (memR m0' b o sz R' Z)
      (fun c c' r r' => (c ≠ c' → ¬ Alike g g' Z0) ∧ r = memL m0 b o sz R Z ∧ r' = memR m0' b o sz R' Z) := by
  refine (lock_compare_any h (by omega) (by omega) (by omega) (by omega)).mono ?_
  rintro c c' r r' ⟨rfl, rfl, rfl, rfl⟩
  refine ⟨fun hne ha => hne ?_, rfl, rfl⟩
  rw [getD_twin _ _ _ hi, getD_twin _ _ _ hj, getD_twin _ _ _ hi, getD_twin _ _ _ hj]
  exact (ha.perm hp) _ (List.getElem_mem hi) _ (List.getElem_mem hj)

theorem lock_swap {D : Prop} {Z : List Twin} (h : Pair m0 m0' b o sz R R' Z) {i j : Nat} (hi : i < Z.length)
    (hj : j < Z.length) :
    Lock D (swapElemsT (ptr b o) sz i j) (swapElemsT (ptr b o) sz i j) (memL m0 b o sz R Z) (memR m0' b o sz R' Z)
      (fun _ _ r r' => r = memL m0 b o sz R (swapAt Z i j) ∧ r' = memR m0' b o sz R' (swapAt Z i j)) := by
  have li : i * sz < 2 ^ 31 := h.ok.mul (by simpa using hi)
  have lj : j * sz < 2 ^ 31 := h.ok.mul (by simpa using hj)
  have c1 := Side.swap h.ok (i := i) (j := j) (by simpa using hi) (by simpa using hj)
  have c2 := Side.swap h.ok' (i := i) (j := j) (by simpa using hi) (by simpa using hj)
  rw [swapAt_map] at c1 c2
  unfold swapElems at c1 c2
  rw [C.bind_ok (elemAt_ok li _), C.bind_ok (elemAt_ok lj _)] at c1 c2
  unfold swapElemsT
  refine .quiet_bind (elemAt_ok li _) (elemAt_ok li _) (.quiet_bind (elemAt_ok lj _) (elemAt_ok lj _) ?_)
  obtain ⟨t, ht⟩ := shows_swapElements (ptr b (o + i * sz)) (ptr b (o + j * sz)) (u32 sz)
  exact .fixed ht ht (by rw [erase_swapElements]; exact c1) (by rw [erase_swapElements]; exact c2) ⟨rfl, rfl⟩

/-- Both memories hold the twins in the same order. -/
abbrev Both (m0 m0' : Mem) (b o sz : Nat) (R R' : List (List Byte)) (Z0 : List Twin) (m m' : Mem) : Prop :=
  Two (sideL m0 b o sz R) (sideL m0' b o sz R') Z0 m m'

end IMU.Sort
