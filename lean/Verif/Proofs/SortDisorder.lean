import Verif.Proofs.SortEffects
import Verif.Spec.Disorder

/-!
# The number of comparisons and the disorder of the array
-/

namespace IMU.Sort
open Spec Utils

/-- For every element of the second list the number of greater ones in front of it, `pre` being in front of them all. -/
def aheadsR (gt : Cmp) : List (List Byte) → List (List Byte) → List Nat
  | _, [] => []
  | pre, e :: t => pre.countP (fun x => gt x e) :: aheadsR gt (e :: pre) t

theorem aheadsR_eq (gt : Cmp) (t : List (List Byte)) : ∀ pre, aheadsR gt pre t =
    (List.range t.length).map fun k => pre.countP (fun x => gt x (t.getD k [])) + ahead gt t k := by
  induction t with
  | nil => intro pre; rfl
  | cons e t ih =>
    intro pre
    rw [aheadsR, ih, List.length_cons, List.range_succ_eq_map, List.map_cons, List.map_map]
    congr 1
    apply List.map_congr_left
    intro k _
    simp only [Function.comp, ahead, List.take_succ_cons, List.countP_cons, List.getD_cons_succ]
    omega

theorem aheads_nil (gt : Cmp) (t : List (List Byte)) :
    (List.range t.length).map (ahead gt t) = aheadsR gt [] t := by
  rw [aheadsR_eq]; simp

theorem inversions_eq (gt : Cmp) (t : List (List Byte)) : inversions gt t = (aheadsR gt [] t).sum := by
  rw [← aheads_nil]; rfl

theorem lag_eq (gt : Cmp) (t : List (List Byte)) : lag gt t = (aheadsR gt [] t).foldr max 0 := by
  rw [← aheads_nil]; rfl

theorem aheadsR_perm (gt : Cmp) (t : List (List Byte)) : ∀ {P P' : List (List Byte)}, P.Perm P' →
    aheadsR gt P t = aheadsR gt P' t := by
  induction t with
  | nil => intro P P' _; rfl
  | cons e t ih => intro P P' h; rw [aheadsR, aheadsR, h.countP_eq, ih (h.cons e)]

theorem aheadsR_concat (gt : Cmp) (e : List Byte) (t : List (List Byte)) : ∀ pre,
    aheadsR gt pre (t ++ [e]) = aheadsR gt pre t ++ [pre.countP (fun x => gt x e) + t.countP (fun x => gt x e)] := by
  induction t with
  | nil => intro pre; simp [aheadsR]
  | cons a t ih =>
    intro pre
    rw [List.cons_append, aheadsR, ih, aheadsR]
    simp only [List.countP_cons, List.cons_append]
    rw [Nat.add_assoc, Nat.add_comm (t.countP fun x => gt x e)]

/-! ### Bubble sort -/

theorem bpass_append (gt : Cmp) (S : List (List Byte)) : ∀ (B : List (List Byte)) (x : List Byte),
    bpass gt B.length x (B ++ S) = ((bpass gt B.length x B).1 ++ S, (bpass gt B.length x B).2) := by
  intro B
  induction B with
  | nil => intro x; simp [bpass]
  | cons y B ih =>
    intro x
    simp only [List.length_cons, List.cons_append, bpass, ih]
    split <;> simp

/-- A pass over the array takes one off the number of greater elements in front of every element that has any. -/
theorem bpass_lag {gt : Cmp} (hw : StrictWeak gt) : ∀ (B : List (List Byte)) (x : List Byte) (O : List (List Byte)),
    (∀ a ∈ O, gt a x = false) →
    (aheadsR gt O (bpass gt B.length x B).1).foldr max 0 = (aheadsR gt (x :: O) B).foldr max 0 - 1 ∧
    (bpass gt B.length x B).2 = decide (0 < (aheadsR gt (x :: O) B).foldr max 0) := by
  intro B
  induction B with
  | nil =>
    intro x O h
    have h0 : O.countP (fun a => gt a x) = 0 := List.countP_eq_zero.mpr fun a ha => by rw [h a ha]; decide
    simp [bpass, aheadsR, h0]
  | cons y B ih =>
    intro x O h
    simp only [List.length_cons, bpass]
    by_cases hxy : gt x y = true
    · rw [if_pos hxy]
      obtain ⟨h1, h2⟩ := ih x (y :: O) (by
        intro a ha
        rcases List.mem_cons.mp ha with rfl | ha
        · exact hw.asymm _ _ hxy
        · exact h a ha)
      simp only [aheadsR, List.foldr_cons, h1, List.countP_cons, hxy, if_true]
      rw [aheadsR_perm gt B (List.Perm.swap x y O)]
      refine ⟨by omega, ?_⟩
      symm; rw [decide_eq_true_eq]; omega
    · have hxy : gt x y = false := by simpa using hxy
      rw [if_neg (by rw [hxy]; decide)]
      obtain ⟨h1, h2⟩ := ih y (x :: O) (by
        intro a ha
        rcases List.mem_cons.mp ha with rfl | ha
        · exact hxy
        · exact hw.negTrans _ _ _ (h a ha) hxy)
      have h0 : O.countP (fun a => gt a x) = 0 := List.countP_eq_zero.mpr fun a ha => by rw [h a ha]; decide
      have h3 : O.countP (fun a => gt a y) = 0 := List.countP_eq_zero.mpr fun a ha => by
        rw [hw.negTrans _ _ _ (h a ha) hxy]; decide
      simp only [aheadsR, List.foldr_cons, h1, h2, List.countP_cons, hxy, h0, h3]
      simp

/-- `(n-1) + (n-2) + ...`, `L + 1` terms. -/
def psum : Nat → Nat → Nat
  | n, 0 => n - 1
  | n, L + 1 => (n - 1) + psum (n - 1) L

theorem psum_eq (L : Nat) : ∀ n, L < n → 2 * psum n L = (L + 1) * (2 * n - 2 - L) := by
  induction L with
  | zero => intro n _; simp [psum]; omega
  | succ L ih =>
    intro n h
    rw [psum, Nat.mul_add, ih (n - 1) (by omega)]
    obtain ⟨d, rfl⟩ : ∃ d, n = L + 2 + d := ⟨n - (L + 2), by omega⟩
    have e1 : 2 * (L + 2 + d - 1) - 2 - L = L + 2 * d := by omega
    have e2 : 2 * (L + 2 + d) - 2 - (L + 1) = L + 2 * d + 1 := by omega
    rw [e1, e2]
    have e3 : 2 * (L + 2 + d - 1) = 2 * L + 2 * d + 2 := by omega
    rw [e3]
    ring

theorem max_cons (L : List Nat) (a : Nat) : (a :: L).foldr max 0 = max a (L.foldr max 0) := rfl

theorem max_concat (L : List Nat) : (L ++ [0]).foldr max 0 = L.foldr max 0 := by
  simp

theorem bubble_count {gt : Cmp} (hw : StrictWeak gt) {m0 : Mem} {b o sz w : Nat} (hsz : sz < 2 ^ 31) (fuel : Nat) :
    ∀ (P S : List (List Byte)) (M : Mem), P.length ≤ fuel → 1 ≤ fuel → (P ++ S).length < 2 ^ 31 →
    S.length < 2 ^ 31 - 1 →
    Fits m0 b o sz (P ++ S) → ((P ++ S).length - 1) * sz < 2 ^ 31 → AgreeOff Priv.none (arr m0 b o (P ++ S)) M →
    ∃ M', bubbleLoopE (logged w (compareFun gt sz)) (ptr b o) ((P ++ S).length : Int) sz fuel (S.length : Int) M =
        .ok () M' ∧
      (M'.words w).length = (M.words w).length + psum P.length ((aheadsR gt [] P).foldr max 0) := by
  induction fuel with
  | zero => intro P S M _ h; omega
  | succ fuel ih =>
    intro P S M hP _ hn hS0 hf hlim hag
    have hlen : (P ++ S).length = P.length + S.length := List.length_append
    simp only [bubbleLoopE]
    rw [C.bind_ok (i32_ok (by omega) (by omega) _), C.bind_ok (i32_ok (by omega) (by omega) _)]
    have hcnt : (((P ++ S).length : Int) - (S.length : Int) - 1).toNat = P.length - 1 := by omega
    cases P with
    | nil =>
      have h1 : bubblePassE (logged w (compareFun gt sz)) (ptr b o) (sz : Int)
          ((([] ++ S : List (List Byte)).length : Int) - (S.length : Int) - 1) M = .ok false M := by
        unfold bubblePassE
        rw [hcnt]; rfl
      rw [C.bind_ok h1, C.bind_ok (i32_ok (by omega) (by omega) _)]
      exact ⟨M, rfl, by simp [aheadsR, psum]⟩
    | cons x B =>
      have hrun := bubblePass_run gt hsz B.length [] x (B ++ S) false (by simp) (by simpa using hf)
        (by simpa using hlim)
      simp only [List.length_nil, List.nil_append, Bool.false_or] at hrun
      have hsim : Sim Priv.none (bubblePassE (compareFun gt sz) (ptr b o) (sz : Int)
            (((x :: B ++ S : List (List Byte)).length : Int) - (S.length : Int) - 1))
          (bubblePassE (logged w (compareFun gt sz)) (ptr b o) (sz : Int)
            (((x :: B ++ S : List (List Byte)).length : Int) - (S.length : Int) - 1)) :=
        Sim.forN _ _ _ _ _ fun j s => Sim.bind (Sim.compareAt (Q := fun _ => True) logged_sim trivial _ _) fun c =>
          Sim.ite (Sim.bind (Sim.swapElems id _ _) fun _ => Sim.pure _) (Sim.pure _)
      have hpure : bubblePassE (compareFun gt sz) (ptr b o) (sz : Int)
          (((x :: B ++ S : List (List Byte)).length : Int) - (S.length : Int) - 1) (arr m0 b o (x :: B ++ S)) =
          .ok (bpass gt B.length x (B ++ S)).2 (arr m0 b o (bpass gt B.length x (B ++ S)).1) := by
        unfold bubblePassE
        rw [hcnt]
        exact hrun
      obtain ⟨M1, j1, j2⟩ := hsim _ M _ _ hag hpure
      have jc := pass_calls (w := w) (p := ptr b o) (sz := (sz : Int)) (fun p q => logged_calls (cmp := gt) (sz := (sz : Int)) p q)
        (((x :: B ++ S : List (List Byte)).length : Int) - (S.length : Int) - 1) _ _ _ j1
      rw [hcnt] at jc
      simp only [List.length_cons, Nat.add_sub_cancel] at jc
      rw [C.bind_ok j1, C.bind_ok (i32_ok (by omega) (by omega) _)]
      rw [bpass_append] at j2 ⊢
      simp only at j2 ⊢
      obtain ⟨l1, l2⟩ := bpass_lag hw B x [] (by simp)
      have hx0 : (aheadsR gt [] (x :: B)).foldr max 0 = (aheadsR gt [x] B).foldr max 0 := by
        rw [aheadsR]; simp
      rw [hx0]
      by_cases hflag : (bpass gt B.length x B).2 = true
      · rw [if_pos hflag]
        obtain ⟨A', x', k1, k2, k3, -⟩ := bpass_max hw B.length x B (Nat.le_refl _)
        rw [List.drop_length] at k1
        rw [hflag] at l2
        have l3 : 0 < (aheadsR gt [x] B).foldr max 0 := by simpa using l2.symm
        have l4 : (aheadsR gt [] A').foldr max 0 = (aheadsR gt [x] B).foldr max 0 - 1 := by
          rw [← l1, k1, aheadsR_concat]
          have h0 : A'.countP (fun a => gt a x') = 0 := List.countP_eq_zero.mpr fun a ha => by rw [k3 a ha]; decide
          rw [h0]
          simp
        have hperm := bpass_perm gt B.length x B
        rw [k1] at hperm j2
        have hB1 : 1 ≤ B.length := by
          cases B with
          | nil => simp [bpass] at hflag
          | cons => simp
        have hpS : (x :: B ++ S).Perm (A' ++ x' :: S) := by
          have := hperm.append_right S
          simpa using this
        obtain ⟨M', i1, i2⟩ := ih A' (x' :: S) M1 (by simp at hP; omega) (by simp at hP; omega)
          (by rw [← hpS.length_eq]; exact hn) (by simp at hn ⊢; omega) (hf.perm hpS)
          (by rw [← hpS.length_eq]; exact hlim) (by simpa using j2)
        refine ⟨M', ?_, ?_⟩
        · rw [← i1, ← hpS.length_eq]
          congr 1
        · rw [i2, l4, k2]
          obtain ⟨L, hL⟩ : ∃ L, (aheadsR gt [x] B).foldr max 0 = L + 1 :=
            ⟨(aheadsR gt [x] B).foldr max 0 - 1, by omega⟩
          rw [hL, List.length_cons, psum, Nat.add_sub_cancel, Nat.add_sub_cancel]
          omega
      · rw [if_neg hflag, C.pure_run]
        have hflag : (bpass gt B.length x B).2 = false := by simpa using hflag
        rw [hflag] at l2
        have l3 : (aheadsR gt [x] B).foldr max 0 = 0 := by
          have := l2.symm
          simp only [decide_eq_false_iff_not] at this
          omega
        refine ⟨M1, rfl, ?_⟩
        rw [l3, psum, List.length_cons, Nat.add_sub_cancel]
        omega

theorem lag_lt (gt : Cmp) (l : List (List Byte)) (h : 0 < l.length) : lag gt l < l.length := by
  have : ∀ (L : List Nat) (n : Nat), 0 < n → (∀ a ∈ L, a < n) → L.foldr max 0 < n := by
    intro L n hn
    induction L with
    | nil => intro _; exact hn
    | cons a L ih =>
      intro h
      rw [List.foldr_cons]
      have h1 := h a (by simp)
      have h2 := ih fun x hx => h x (by simp [hx])
      omega
  refine this _ _ h fun a ha => ?_
  obtain ⟨k, hk, rfl⟩ := List.mem_map.mp ha
  have h1 := List.countP_le_length (p := fun x => gt x (l.getD k [])) (l := l.take k)
  rw [List.length_take] at h1
  have := List.mem_range.mp hk
  unfold ahead
  omega

/-! ### Insertion sort -/

/-- The inner loop makes one comparison for every place that it moves down. -/
theorem shift_count {w : Nat} {f : CmpFun} (hf : ∀ p q, Calls w (f p q) 1 1) {p : Ptr} {sz : Int} (st : Ptr) (k : Nat) :
    ∀ c m r m1, insertionShiftE f p sz st k c m = .ok r m1 →
    r ≤ k ∧ (m1.words w).length = (m.words w).length + (k - r) := by
  induction k with
  | zero =>
    intro c m r m1 h
    simp only [insertionShiftE, C.pure_run, Res.ok.injEq] at h
    obtain ⟨rfl, rfl⟩ := h
    simp
  | succ k ih =>
    intro c m r m1 h
    simp only [insertionShiftE] at h
    split at h
    · rw [C.bind_run] at h
      cases h1 : elemAt p sz (k + 1) m with
      | ub e => rw [h1] at h; cases h
      | ok a1 n1 =>
      rw [h1] at h; simp only at h
      rw [C.bind_run] at h
      cases h2 : elemAt p sz k n1 with
      | ub e => rw [h2] at h; cases h
      | ok a2 n2 =>
      rw [h2] at h; simp only at h
      rw [C.bind_run] at h
      cases h3 : memcpy a1 a2 (szt sz) n2 with
      | ub e => rw [h3] at h; cases h
      | ok a3 n3 =>
      rw [h3] at h; simp only at h
      rw [C.bind_run] at h
      cases h4 : elemAt p sz ((k : Int) - 1) n3 with
      | ub e => rw [h4] at h; cases h
      | ok a4 n4 =>
      rw [h4] at h; simp only at h
      rw [C.bind_run] at h
      cases h5 : f a4 st n4 with
      | ub e => rw [h5] at h; cases h
      | ok a5 n5 =>
      rw [h5] at h; simp only at h
      obtain ⟨h6, h7⟩ := ih _ _ _ _ h
      have c1 := Calls.elemAt (w := w) _ _ _ _ h1
      have c2 := Calls.elemAt (w := w) _ _ _ _ h2
      have c3 := Calls.memcpy (w := w) _ _ _ _ _ _ h3
      have c4 := Calls.elemAt (w := w) _ _ _ _ h4
      have c5 := hf _ _ _ _ _ h5
      omega
    · simp only [C.pure_run, Res.ok.injEq] at h
      obtain ⟨rfl, rfl⟩ := h
      simp

/-- The body of the outer loop, for any comparison function. -/
def insertionBodyE (f : CmpFun) (st b o sz : Nat) : Nat → Unit → C Unit := fun i _ => do
  let p ← elemAt (ptr b o) sz i
  memcpy (ptr st 0) p (szt sz)
  let q ← elemAt (ptr b o) sz ((i : Int) - 1)
  let compare ← f q (ptr st 0)
  let k ← insertionShiftE f (ptr b o) sz (ptr st 0) i compare
  let dst ← elemAt (ptr b o) sz k
  memcpy dst (ptr st 0) (szt sz)

theorem insertionBody_eq (gt : Cmp) (st b o sz : Nat) :
    insertionBody gt st b o sz = insertionBodyE (compareFun gt sz) st b o sz := by
  funext i u
  simp only [insertionBody, insertionBodyE, insertionShift_eq]

/-- In a sorted list the elements greater than `e` are at the end. -/
theorem count_split {gt : Cmp} (hw : StrictWeak gt) {A B : List (List Byte)} {e : List Byte} (hs : Sorted gt (A ++ B))
    (hB : ∀ x ∈ B, gt x e = true) (hA : ∀ a, A.getLast? = some a → gt a e = false) :
    (A ++ B).countP (fun x => gt x e) = B.length := by
  rw [List.countP_append, List.countP_eq_length.mpr hB, List.countP_eq_zero.mpr, Nat.zero_add]
  intro a ha
  unfold Sorted at hs
  have h1 := (List.pairwise_append.mp hs).1
  have hne : A ≠ [] := List.ne_nil_of_mem ha
  have hl := hA _ (List.getLast?_eq_some_getLast hne)
  rw [← List.dropLast_concat_getLast hne] at h1 ha
  have : gt a e = false := by
    rcases List.mem_append.mp ha with ha' | ha'
    · exact hw.negTrans _ _ _ ((List.pairwise_append.mp h1).2.2 a ha' _ (by simp)) hl
    · rw [List.mem_singleton.mp ha']; exact hl
  rw [this]; decide

theorem insertion_step_count {gt : Cmp} {m0 : Mem} {st b o sz w : Nat} {X : List Byte} (hsz : sz < 2 ^ 31)
    {P : List (List Byte)} {e : List Byte} {R : List (List Byte)} (hP : P ≠ [])
    (hf : IFits m0 st b o sz X (P ++ e :: R)) (hlim : ((P ++ e :: R).length - 1) * sz < 2 ^ 31)
    (hro : sz ≤ o ∨ ¬ ∀ a ∈ P, gt a e = true) {M : Mem} (hag : AgreeOff Priv.none (imem m0 st b o X (P ++ e :: R)) M) :
    ∃ A B M', insertionBodyE (logged w (compareFun gt sz)) st b o sz P.length () M = .ok () M' ∧
      AgreeOff Priv.none (imem m0 st b o (splice X 0 e) (A ++ e :: (B ++ R))) M' ∧ P = A ++ B ∧
      (∀ x ∈ B, gt x e = true) ∧ (∀ a, A.getLast? = some a → gt a e = false) ∧
      (M'.words w).length = (M.words w).length + (1 + B.length) := by
  have hlen : (P ++ e :: R).length = P.length + 1 + R.length := by simp; omega
  have hge : (P ++ e :: R)[P.length]? = some e := by simp
  have hel : e.length = sz := hf.fits.chunks e (by simp)
  have hr := hf.room
  have hf1 : IFits m0 st b o sz (splice X 0 e) (P ++ e :: R) :=
    ⟨hf.fits, hf.apart, by rw [splice_length _ _ _ (by omega)]; exact hr⟩
  have hsl : slice (splice X 0 e) 0 sz = e := by rw [← hel]; exact slice_splice_same _ _ _ (by omega)
  have hlast : P.getLast? = some (P.getLast hP) := List.getLast?_eq_some_getLast hP
  have hPl : 0 < P.length := List.length_pos_iff.mpr hP
  have e2 : ((P.length : Int) - 1) = ((P.length - 1 : Nat) : Int) := by omega
  have g1 : (P ++ e :: R)[P.length - 1]? = some (P.getLast hP) := by
    rw [List.getElem?_append_left (by omega), List.getLast_eq_getElem, ← List.getElem?_eq_getElem]
  obtain ⟨k1, -⟩ := shift_run gt hsz hsl P.length P e R (gt (P.getLast hP) e) rfl hf1 hlim
    (by intro x hx; rw [hlast] at hx; simp at hx; rw [hx])
  obtain ⟨A1, B, h', j1, j2, j3, j4, j5⟩ := k1 (by rcases hro with h | h; exact .inl h; exact .inr (.inr h))
  have hl2 : (A1 ++ h' :: (B ++ R)).length = (P ++ e :: R).length := by rw [j2]; simp; omega
  have hf2 : IFits m0 st b o sz (splice X 0 e) (A1 ++ h' :: (B ++ R)) := by
    refine ⟨⟨?_, by rw [hl2]; exact hf.fits.room⟩, hf.apart, hf1.room⟩
    intro x hx
    have hc := hf.fits.chunks
    rw [j2] at hc
    simp only [List.mem_append, List.mem_cons] at hx
    rcases hx with hx | rfl | hx | hx
    · exact hc x (by simp [hx])
    · exact j3
    · exact hc x (by simp [hx])
    · exact hc x (by simp [hx])
  have hb : A1.length < (A1 ++ h' :: (B ++ R)).length := by simp
  obtain ⟨M1, q1, a1⟩ := Sim.memcpy (P := Priv.none) (p := ptr st 0) (q := ptr b (o + P.length * sz)) id id sz _ M _ _ hag
    (elem_to_st hf hge)
  obtain ⟨M2, q2, a2⟩ := logged_sim (Q := fun _ => True) (w := w) (cmp := gt) (sz := (sz : Int))
    (ptr b (o + (P.length - 1) * sz)) (ptr st 0) trivial trivial _ M1 _ _ a1 (compare_st gt hf1 hsl g1)
  rw [insertionShift_eq] at j1
  obtain ⟨M3, q3, a3⟩ := shift_sim (Q := fun _ => True) (P := Priv.none) (p := ptr b o) (st := ptr st 0)
    (logged_sim (w := w) (cmp := gt) (sz := (sz : Int))) trivial trivial id P.length _ _ M2 _ _ a2 j1
  obtain ⟨M4, q4, a4⟩ := Sim.memcpy (P := Priv.none) (p := ptr b (o + A1.length * sz)) (q := ptr st 0) id id sz _ M3 _ _ a3
    (st_to_elem hf2 hb hsl)
  have c1 := Calls.memcpy (w := w) _ _ _ _ _ _ q1
  have c2 := logged_calls (w := w) _ _ _ _ _ q2
  have c3 := shift_count (w := w) (fun p q => logged_calls (cmp := gt) (sz := (sz : Int)) p q) _ _ _ _ _ _ q3
  have c4 := Calls.memcpy (w := w) _ _ _ _ _ _ q4
  refine ⟨A1, B, M4, ?_, ?_, j2, j4, j5, ?_⟩
  · unfold insertionBodyE
    rw [C.bind_ok (elemAt_ok (mul_lim hlim (by omega)) _), szt_eq hsz, C.bind_ok q1, e2,
      C.bind_ok (elemAt_ok (mul_lim hlim (by omega)) _), C.bind_ok q2, C.bind_ok q3,
      C.bind_ok (elemAt_ok (mul_lim hlim (by omega)) _), q4]
  · have : (A1 ++ h' :: (B ++ R)).set A1.length e = A1 ++ e :: (B ++ R) := by
      rw [List.set_append, if_neg (by omega)]; simp
    rw [this] at a4
    exact a4
  · have : P.length = A1.length + B.length := by rw [j2]; simp
    omega

theorem insertion_count {gt : Cmp} (hw : StrictWeak gt) {m0 : Mem} {st b o sz w : Nat} (hsz : sz < 2 ^ 31)
    (R : List (List Byte)) : ∀ (P : List (List Byte)) (X : List Byte) (M : Mem), P ≠ [] →
    IFits m0 st b o sz X (P ++ R) → ((P ++ R).length - 1) * sz < 2 ^ 31 → Sorted gt P → (sz ≤ o ∨ ¬ NewMin gt P R) →
    AgreeOff Priv.none (imem m0 st b o X (P ++ R)) M →
    ∃ M', forN R.length P.length (insertionBodyE (logged w (compareFun gt sz)) st b o sz) () M = .ok () M' ∧
      (M'.words w).length = (M.words w).length + (R.length + (aheadsR gt P R).sum) := by
  induction R with
  | nil => intro P X M _ _ _ _ _ _; exact ⟨M, rfl, by simp [aheadsR]⟩
  | cons e R ih =>
    intro P X M hP hf hlim hs hro hag
    have hel : e.length = sz := hf.fits.chunks e (by simp)
    have hr := hf.room
    have hX1 : (splice X 0 e).length = X.length := splice_length _ _ _ (by omega)
    have h0 : sz ≤ o ∨ ¬ ∀ a ∈ P, gt a e = true := by
      rcases hro with h | h
      · exact .inl h
      · right; intro hall; exact h ⟨[], e, R, rfl, by simpa using hall⟩
    obtain ⟨A, B, M1, q1, a1, j2, j3, j4, c1⟩ := insertion_step_count (w := w) hsz hP hf hlim h0 hag
    have hp : (P ++ [e]).Perm (A ++ e :: B) := by
      rw [j2, List.append_assoc]
      exact List.Perm.append_left A (List.perm_append_singleton e B)
    have hp2 : (P ++ e :: R).Perm ((A ++ e :: B) ++ R) := by
      have := hp.append_right R
      simpa using this
    have hro' : sz ≤ o ∨ ¬ NewMin gt (A ++ e :: B) R := by
      by_cases hso : sz ≤ o
      · exact .inl hso
      · have h1 : ¬ NewMin gt P (e :: R) := hro.resolve_left hso
        have h2 : ¬ ∀ a ∈ P, gt a e = true := h0.resolve_left hso
        right; rw [← NewMin.cons hp h2]; exact h1
    obtain ⟨M2, q2, c2⟩ := ih (A ++ e :: B) (splice X 0 e) M1 (by simp) ⟨hf.fits.perm hp2, hf.apart, by omega⟩
      (by rw [← hp2.length_eq]; exact hlim) (sorted_insert hw (by rw [← j2]; exact hs) j3 j4) hro' (by simpa using a1)
    have hl : (A ++ e :: B).length = P.length + 1 := by rw [j2]; simp; omega
    rw [hl] at q2
    refine ⟨M2, ?_, ?_⟩
    · rw [List.length_cons, forN_succ, q1]
      exact q2
    · rw [c2, c1, aheadsR]
      have h1 : aheadsR gt (e :: P) R = aheadsR gt (A ++ e :: B) R :=
        aheadsR_perm gt R ((List.perm_append_singleton e P).symm.trans hp)
      have h2 : P.countP (fun x => gt x e) = B.length := by
        rw [j2] at hs ⊢
        exact count_split hw hs j3 j4
      rw [h1, h2, List.length_cons, List.sum_cons]
      omega

end IMU.Sort
