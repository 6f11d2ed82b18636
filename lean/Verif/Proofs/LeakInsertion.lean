import Verif.Proofs.LeakSort

/-!
# Two observed runs of insertion sort
-/

namespace IMU.Sort
open T Spec Utils

/-! ### Without the observer -/

theorem erase_memcpy' (d s : Ptr) (n : Nat) : erase (memcpyT d s n) = memcpy d s n := by
  unfold memcpyT; rw [erase_emit_bind, erase_quiet]

theorem erase_shift (cmp : Cmp) (e : Ptr) (sz : Int) (el : Ptr) (n : Nat) : ∀ c,
    erase (insertionShiftT cmp e sz el n c) = insertionShift cmp e sz el n c := by
  induction n with
  | zero => intro c; rfl
  | succ n ih =>
    intro c
    simp only [insertionShiftT, insertionShift, erase_bind, erase_branch, pure_bind_C, erase_ite, erase_quiet, erase_memcpy',
      erase_compareFun, ih, erase_pure]

/-- A round of the outer loop that delivers the place of the element. -/
def insertOne (gt : Cmp) (st b o sz : Nat) (i : Nat) : C Nat := do
  let p ← elemAt (ptr b o) sz i
  memcpy (ptr st 0) p (szt sz)
  let q ← elemAt (ptr b o) sz ((i : Int) - 1)
  let compare ← compareFun gt sz q (ptr st 0)
  let k ← insertionShift gt (ptr b o) sz (ptr st 0) i compare
  let dst ← elemAt (ptr b o) sz k
  memcpy dst (ptr st 0) (szt sz)
  return k

theorem erase_insertOne (gt : Cmp) (st b o sz i : Nat) :
    erase (insertOneT gt (ptr st 0) (ptr b o) sz i) = insertOne gt st b o sz i := by
  simp only [insertOneT, insertOne, erase_bind, erase_quiet, erase_memcpy', erase_compareFun, erase_shift, erase_pure]

theorem erase_insertionSort (st e : Ptr) (n sz : Int) (cmp : Cmp) :
    erase (insertionSortT st e n sz cmp) = insertionSort st e n sz cmp := by
  unfold insertionSortT insertionSort
  rw [erase_forNT]
  congr 1
  funext i s
  simp only [insertOneT, erase_bind, erase_quiet, erase_memcpy', erase_compareFun, erase_shift, erase_pure, bind_assoc_C,
    pure_bind_C]
  have : ∀ x : C Unit, (x >>= fun _ => pure ()) = x := fun x => bind_pure_C x
  simp only [this]

/-! ### What a round shows -/

theorem elemAt_cases {e : Ptr} {sz i : Int} {m r : Mem} {p : Ptr} (h : elemAt e sz i m = .ok p r) :
    p = e.addZ (i * sz) ∧ r = m := by
  unfold elemAt i32 at h
  split at h
  · rw [pure_bind_C] at h
    cases h
    exact ⟨rfl, rfl⟩
  · cases h

/-- A copy. -/
def moved (d s : Ptr) (n : Nat) : List Leak := (List.range n).flatMap fun i => [.read (s.addN i), .write (d.addN i)]

/-- A comparison. -/
def compared (sz : Int) (p q : Ptr) : List Leak :=
  (List.range sz.toNat).map (fun i => .read (p.addN i)) ++ (List.range sz.toNat).map (fun i => .read (q.addN i))

theorem shows_moved (d s : Ptr) (n : Nat) : Shows (memcpyT d s n) (moved d s n) := by
  have := Shows.bind (Shows.emit (moved d s n)) (fun _ => Shows.quiet (memcpy d s n))
  rw [List.append_nil] at this
  exact this

theorem shows_compared (cmp : Cmp) (sz : Int) (p q : Ptr) : Shows (compareFunT cmp sz p q) (compared sz p q) := by
  have := Shows.bind (Shows.emit ((List.range sz.toNat).map fun i => .read (p.addN i))) (fun _ =>
    Shows.bind (Shows.emit ((List.range sz.toNat).map fun i => .read (q.addN i))) (fun _ =>
      Shows.quiet (compareFun cmp sz p q)))
  rw [List.append_nil] at this
  exact this

/-- The inner loop, from `n` down to `k`. -/
def shiftShown (e : Ptr) (sz : Int) (el : Ptr) : Nat → Nat → List Leak
  | 0, _ => [.branch false]
  | n + 1, k =>
    .branch true :: if k = n + 1 then [.branch false] else
      .branch true :: (moved (e.addZ (((n : Int) + 1) * sz)) (e.addZ ((n : Int) * sz)) (szt sz) ++
        (compared sz (e.addZ (((n : Int) - 1) * sz)) el ++ shiftShown e sz el n k))

theorem elem_bind {β : Type} {e : Ptr} {sz i : Int} {f : Ptr → T β} {m r : Mem} {v : β} {t : List Leak}
    (h : (T.quiet (elemAt e sz i) >>= f) m = .ok (v, t) r) : f (e.addZ (i * sz)) m = .ok (v, t) r := by
  obtain ⟨p, t1, m1, t2, h1, h2, h3⟩ := bind_cases h
  obtain ⟨h4, h5⟩ := quiet_cases h1
  obtain ⟨h6, h7⟩ := elemAt_cases h4
  rw [h6, h7] at h2
  rw [h2, h3, h5]; rfl

theorem branch_bind_cases {β : Type} {c : Bool} {f : Bool → T β} {m r : Mem} {v : β} {t : List Leak}
    (h : (T.branch c >>= f) m = .ok (v, t) r) : ∃ u, f c m = .ok (v, u) r ∧ t = .branch c :: u := by
  obtain ⟨p, t1, m1, t2, h1, h2, h3⟩ := bind_cases h
  cases h1
  exact ⟨t2, h2, h3⟩

theorem shows_bind {α β : Type} {x : T α} {s : List Leak} {f : α → T β} {m r : Mem} {v : β} {t : List Leak} (hx : Shows x s)
    (h : (x >>= f) m = .ok (v, t) r) : ∃ a q u, f a q = .ok (v, u) r ∧ t = s ++ u := by
  obtain ⟨a, t1, m1, t2, h1, h2, h3⟩ := bind_cases h
  rw [hx _ _ _ _ h1] at h3
  exact ⟨a, m1, t2, h2, h3⟩

theorem shift_shows (cmp : Cmp) (e : Ptr) (sz : Int) (el : Ptr) (n : Nat) : ∀ c m k t r,
    insertionShiftT cmp e sz el n c m = .ok (k, t) r → t = shiftShown e sz el n k ∧ k ≤ n := by
  induction n with
  | zero => intro c m k t r h; cases h; exact ⟨rfl, Nat.le_refl _⟩
  | succ n ih =>
    intro c m k t r h
    rw [insertionShiftT] at h
    obtain ⟨t1, h1, e1⟩ := branch_bind_cases h
    obtain ⟨t2, h2, e2⟩ := branch_bind_cases h1
    subst e1 e2
    cases c with
    | false =>
      cases h2
      exact ⟨by rw [shiftShown, if_pos rfl], Nat.le_refl _⟩
    | true =>
      rw [if_pos rfl] at h2
      obtain ⟨_, _, t3, h3, e3⟩ := shows_bind (shows_moved _ _ _) (elem_bind (elem_bind h2))
      obtain ⟨_, _, t4, h4, e4⟩ := shows_bind (shows_compared _ _ _ _) (elem_bind h3)
      obtain ⟨e5, hk⟩ := ih _ _ _ _ _ h4
      subst e3 e4 e5
      exact ⟨by rw [shiftShown, if_neg (by omega)], by omega⟩

theorem _root_.IMU.T.Apart.cons {t u : List Leak} (x : Leak) (h : Apart t u) : Apart (x :: t) (x :: u) := h.before [x]

theorem shift_apart (e : Ptr) (sz : Int) (el : Ptr) (n : Nat) : ∀ k k', k ≤ n → k' ≤ n → k ≠ k' →
    Apart (shiftShown e sz el n k) (shiftShown e sz el n k') := by
  induction n with
  | zero => intro k k' h h' hne; omega
  | succ n ih =>
    intro k k' h h' hne
    rw [shiftShown, shiftShown]
    refine Apart.cons _ ?_
    by_cases hk : k = n + 1
    · rw [if_pos hk, if_neg (by omega)]
      exact ⟨[], _, _, _, _, rfl, rfl, by simp⟩
    · rw [if_neg hk]
      by_cases hk' : k' = n + 1
      · rw [if_pos hk']
        exact ⟨[], _, _, _, _, rfl, rfl, by simp⟩
      · rw [if_neg hk']
        exact Apart.cons _ ((ih k k' (by omega) (by omega) hne).before _ |>.before _)

/-- A round of the outer loop. -/
def oneShown (st e : Ptr) (sz : Int) (i k : Nat) : List Leak :=
  moved st (e.addZ ((i : Int) * sz)) (szt sz) ++ (compared sz (e.addZ (((i : Int) - 1) * sz)) st ++
    (shiftShown e sz st i k ++ moved (e.addZ ((k : Int) * sz)) st (szt sz)))

theorem one_shows (cmp : Cmp) (st e : Ptr) (sz : Int) (i : Nat) {m r : Mem} {k : Nat} {t : List Leak}
    (h : insertOneT cmp st e sz i m = .ok (k, t) r) : t = oneShown st e sz i k ∧ k ≤ i := by
  unfold insertOneT at h
  obtain ⟨_, _, t1, h1, e1⟩ := shows_bind (shows_moved _ _ _) (elem_bind h)
  obtain ⟨_, _, t2, h2, e2⟩ := shows_bind (shows_compared _ _ _ _) (elem_bind h1)
  obtain ⟨k1, t3, m1, t4, h3, h4, e3⟩ := bind_cases h2
  obtain ⟨e4, hk⟩ := shift_shows _ _ _ _ _ _ _ _ _ _ h3
  obtain ⟨_, _, t5, h5, e5⟩ := shows_bind (shows_moved _ _ _) (elem_bind h4)
  cases h5
  rw [e1, e2, e3, e4, e5, List.append_nil]
  exact ⟨rfl, hk⟩

theorem one_apart (st e : Ptr) (sz : Int) (i : Nat) {k k' : Nat} (h : k ≤ i) (h' : k' ≤ i) (hne : k ≠ k') :
    Apart (oneShown st e sz i k) (oneShown st e sz i k') :=
  (((shift_apart e sz st i k k' h h' hne).behind _ _).before _).before _

/-! ### Two runs -/

theorem insertOne_step (gt : Cmp) {m0 : Mem} {st b o sz : Nat} {X : List Byte} (hsz : sz < 2 ^ 31)
    {P : List (List Byte)} {e : List Byte} {R : List (List Byte)} (hP : P ≠ [])
    (hf : IFits m0 st b o sz X (P ++ e :: R)) (hlim : ((P ++ e :: R).length - 1) * sz < 2 ^ 31) (ho : sz ≤ o) :
    ∃ A B, insertOne gt st b o sz P.length (imem m0 st b o X (P ++ e :: R)) =
          .ok A.length (imem m0 st b o (splice X 0 e) (A ++ e :: (B ++ R))) ∧ P = A ++ B ∧
        (∀ x ∈ B, gt x e = true) ∧ (∀ a, A.getLast? = some a → gt a e = false) := by
  have hlen : (P ++ e :: R).length = P.length + 1 + R.length := by simp; omega
  have hge : (P ++ e :: R)[P.length]? = some e := by simp
  have hel : e.length = sz := hf.fits.chunks e (by simp)
  have hr := hf.room
  have hf1 : IFits m0 st b o sz (splice X 0 e) (P ++ e :: R) :=
    ⟨hf.fits, hf.apart, by rw [splice_length _ _ _ (by omega)]; exact hr⟩
  have hsl : slice (splice X 0 e) 0 sz = e := by rw [← hel]; exact slice_splice_same _ _ _ (by omega)
  have hlast : P.getLast? = some (P.getLast hP) := List.getLast?_eq_some_getLast hP
  have hPl : 0 < P.length := List.length_pos_iff.mpr hP
  have e2 : ((P.length : Int) - 1) = ((P.length - 1 : Nat) : Int) := by omega
  have g1 : (P ++ e :: R)[P.length - 1]? = some (P.getLast hP) := by
    rw [List.getElem?_append_left (by omega), List.getLast_eq_getElem, ← List.getElem?_eq_getElem]
  unfold insertOne
  rw [C.bind_ok (elemAt_ok (mul_lim hlim (by omega)) _), szt_eq hsz, C.bind_ok (elem_to_st hf hge), e2,
    C.bind_ok (elemAt_ok (mul_lim hlim (by omega)) _), C.bind_ok (compare_st gt hf1 hsl g1)]
  obtain ⟨k1, -⟩ := shift_run gt hsz hsl P.length P e R (gt (P.getLast hP) e) rfl hf1 hlim
    (by intro x hx; rw [hlast] at hx; simp at hx; rw [hx])
  obtain ⟨A1, B, h', j1, j2, j3, j4, j5⟩ := k1 (.inl ho)
  have hl2 : (A1 ++ h' :: (B ++ R)).length = (P ++ e :: R).length := by rw [j2]; simp; omega
  have hf2 : IFits m0 st b o sz (splice X 0 e) (A1 ++ h' :: (B ++ R)) := by
    refine ⟨⟨?_, by rw [hl2]; exact hf.fits.room⟩, hf.apart, hf1.room⟩
    intro x hx
    have hc := hf.fits.chunks
    rw [j2] at hc
    simp only [List.mem_append, List.mem_cons] at hx
    rcases hx with hx | rfl | hx | hx
    · exact hc x (by simp [hx])
    · exact j3
    · exact hc x (by simp [hx])
    · exact hc x (by simp [hx])
  refine ⟨A1, B, ?_, j2, j4, j5⟩
  have hb : A1.length < (A1 ++ h' :: (B ++ R)).length := by simp
  rw [C.bind_ok j1, C.bind_ok (elemAt_ok (mul_lim hlim (by omega)) _), C.bind_ok (st_to_elem hf2 hb hsl), C.pure_run]
  congr 2
  rw [List.set_append, if_neg (by omega)]
  simp

theorem lock_insertOne {g g' : Cmp} {m0 m0' : Mem} {st b o sz : Nat} {Z0 P R : List Twin} {e : Twin} {X X' : List Byte}
    (hP : P ≠ []) (h : ISide m0 st b o sz X ((P ++ e :: R).map Prod.fst))
    (h' : ISide m0' st b o sz X' ((P ++ e :: R).map Prod.snd)) (hZ : Z0.Perm (P ++ e :: R)) :
    Lock (¬ Alike g g' Z0) (insertOneT g (ptr st 0) (ptr b o) sz P.length) (insertOneT g' (ptr st 0) (ptr b o) sz P.length)
      (imem m0 st b o X ((P ++ e :: R).map Prod.fst)) (imem m0' st b o X' ((P ++ e :: R).map Prod.snd))
      (fun _ _ r r' => ∃ Q, Q.length = P.length + 1 ∧ Z0.Perm (Q ++ R) ∧
        r = imem m0 st b o (splice X 0 e.1) ((Q ++ R).map Prod.fst) ∧
        r' = imem m0' st b o (splice X' 0 e.2) ((Q ++ R).map Prod.snd)) := by
  have hmap : ∀ f : Twin → List Byte, (P ++ e :: R).map f = P.map f ++ f e :: R.map f := by intro f; simp
  have hf := h.fits
  have hf' := h'.fits
  have hlim := h.lim
  have hlim' := h'.lim
  rw [hmap] at hf hf' hlim hlim'
  obtain ⟨A, B, i1, i2, i3, i4⟩ := insertOne_step g h.sz_lt (P := P.map Prod.fst) (by simpa using hP) hf hlim h.before
  obtain ⟨A', B', j1, j2, j3, j4⟩ := insertOne_step g' h'.sz_lt (P := P.map Prod.snd) (by simpa using hP) hf' hlim' h'.before
  obtain ⟨C, D, rfl, rfl, rfl⟩ : ∃ C D, P = C ++ D ∧ C.map Prod.fst = A ∧ D.map Prod.fst = B := by
    obtain ⟨C, D, e1, e2, e3⟩ := List.map_eq_append_iff.1 i2
    exact ⟨C, D, e1, e2, e3⟩
  obtain ⟨C', D', e1, rfl, rfl⟩ := List.map_eq_append_iff.1 j2
  rw [List.length_map, ← erase_insertOne, ← hmap] at i1 j1
  rw [List.length_map] at i1 j1
  intro a t r a' t' r' h1 h2
  unfold erase at i1 j1
  rw [h1] at i1
  rw [h2] at j1
  simp only [Res.ok.injEq] at i1 j1
  obtain ⟨rfl, rfl⟩ := i1
  obtain ⟨rfl, rfl⟩ := j1
  obtain ⟨rfl, l1⟩ := one_shows _ _ _ _ _ h1
  obtain ⟨rfl, l2⟩ := one_shows _ _ _ _ _ h2
  by_cases hl : C.length = C'.length
  · obtain ⟨rfl, rfl⟩ := List.append_inj e1 hl
    refine .inl ⟨rfl, C ++ e :: D, by simp; omega, ?_, by simp, by simp⟩
    refine hZ.trans ?_
    simp only [List.append_assoc, List.cons_append]
    exact List.Perm.append_left _ List.perm_middle
  · refine .inr ⟨one_apart _ _ _ _ l1 l2 hl, fun ha0 => hl ?_⟩
    have ha := ha0.perm hZ
    have hag : ∀ p ∈ C ++ D, g p.1 e.1 = g' p.2 e.2 := fun p hp => ha p (by simp at hp ⊢; tauto) e (by simp)
    obtain ⟨rfl, rfl⟩ := split_unique (p := fun p : Twin => g p.1 e.1) e1
      (fun x hx => i3 x.1 (List.mem_map_of_mem hx))
      (fun x hx => i4 x.1 (by rw [List.getLast?_map, hx]; rfl))
      (fun x hx => by
        have := j3 x.2 (List.mem_map_of_mem hx)
        rw [hag x (by rw [e1]; simp [hx])]; exact this)
      (fun x hx => by
        have := j4 x.2 (by rw [List.getLast?_map, hx]; rfl)
        rw [hag x (by rw [e1]; simp [List.mem_of_getLast? hx])]; exact this)
    rfl

theorem lock_insertionSort {g g' : Cmp} {m0 m0' : Mem} {st b o sz : Nat} {Z : List Twin} {X X' : List Byte} (hZ : Z ≠ [])
    (h : ISide m0 st b o sz X (Z.map Prod.fst)) (h' : ISide m0' st b o sz X' (Z.map Prod.snd)) :
    Lock (¬ Alike g g' Z) (insertionSortT (ptr st 0) (ptr b o) Z.length sz g) (insertionSortT (ptr st 0) (ptr b o) Z.length sz g')
      (imem m0 st b o X (Z.map Prod.fst)) (imem m0' st b o X' (Z.map Prod.snd))
      (fun _ _ r r' => ∃ Z1 Y Y', Z.Perm Z1 ∧ r = imem m0 st b o Y (Z1.map Prod.fst) ∧
        r' = imem m0' st b o Y' (Z1.map Prod.snd)) := by
  have hl : 0 < Z.length := List.length_pos_iff.mpr hZ
  unfold insertionSortT
  refine (forNT_lock (fun i (_ : Unit) m m' => ∃ P R Y Y', P.length = i ∧ Z.Perm (P ++ R) ∧
      ISide m0 st b o sz Y ((P ++ R).map Prod.fst) ∧ ISide m0' st b o sz Y' ((P ++ R).map Prod.snd) ∧
      m = imem m0 st b o Y ((P ++ R).map Prod.fst) ∧ m' = imem m0' st b o Y' ((P ++ R).map Prod.snd)) _ _ _ 1 () _ _
    ?_ ?_).mono ?_
  · refine ⟨Z.take 1, Z.drop 1, X, X', by simp; omega, ?_, ?_, ?_, ?_, ?_⟩ <;> rw [List.take_append_drop]
    · exact h
    · exact h'
  · rintro i ⟨⟩ m m' h1 h2 ⟨P, R, Y, Y', rfl, hp, s1, s2, rfl, rfl⟩
    have hpl := hp.length_eq
    rw [List.length_append] at hpl
    cases R with
    | nil => simp at hpl; omega
    | cons e R =>
      refine .bind (lock_insertOne (by rintro rfl; simp at h1) s1 s2 hp) ?_
      rintro a a' r r' ⟨Q, hq, hp2, rfl, rfl⟩
      have hpq := hp.symm.trans hp2
      exact .pure ⟨rfl, Q, R, _, _, hq, hp2, s1.next (hpq.map _) (by simp), s2.next (hpq.map _) (by simp), rfl, rfl⟩
  · rintro _ _ r r' ⟨-, P, R, Y, Y', -, hp, -, -, rfl, rfl⟩
    exact ⟨P ++ R, Y, Y', hp, rfl, rfl⟩

end IMU.Sort
