import Verif.Proofs.PriorityQueueInterrupt

namespace IMU.PQ
open Spec Utils
open IMU.Props (stored)

section
variable {cap esz bb bo pa : Nat} {q : PQueue} {m : Mem} {pre post : List PItem} {x : PItem}

theorem not_full (h : Conf cap esz bb bo pa q m) (hs : q.size.toNat < cap) : full q = false := by
  simp only [full, beq_eq_false_iff_ne, ne_eq, ← BitVec.toNat_inj, h.hcap]; omega

theorem not_empty (hs : 0 < q.size.toNat) : empty q = false := by
  simp only [empty, beq_eq_false_iff_ne, ne_eq, ← BitVec.toNat_inj]; simp; omega

theorem inc_toNat {s : U32} {n : Nat} (h : s.toNat = n) (hn : n + 1 < 2 ^ 32) : (s + 1#32).toNat = n + 1 := by
  rw [BitVec.toNat_add, h]; simp only [BitVec.toNat_ofNat]; omega

theorem dec_toNat {s : U32} {n : Nat} (h : s.toNat = n + 1) : (s - 1#32).toNat = n := by
  have := s.isLt
  rw [BitVec.toNat_sub]; simp only [BitVec.toNat_ofNat]; omega

theorem getLast_get (pre post : List PItem) (x : PItem) :
    (pre ++ x :: post).getLast (by simp) = (pre ++ x :: post)[pre.length + post.length]'(by simp) := by
  rw [List.getLast_eq_getElem]
  congr 1
  simp

/-- Index into the list without its entry behind `pre`. -/
theorem removed_get {k : Nat} (h : k < (pre ++ post).length) :
    (pre ++ post)[k] = if h' : pre.length ≤ k then (pre ++ x :: post)[k + 1]'(by simp at h ⊢; omega)
      else (pre ++ x :: post)[k]'(by simp at h ⊢; omega) := by
  split
  · rename_i h'
    rw [List.getElem_append_right h', List.getElem_append_right (by omega)]
    have e : k + 1 - pre.length = (k - pre.length) + 1 := by omega
    simp only [e, List.getElem_cons_succ]
  · rename_i h'
    rw [List.getElem_append_left (by omega), List.getElem_append_left (by omega)]

variable {eb eo fb fo : Nat}

/-- enqueue with room, interrupted by a dequeue. -/
theorem enq_by_deq (h : Conf cap esz bb bo pa q m)
    (hst : stored q m bb bo pa esz = pre ++ x :: post)
    (h1 : ∀ y ∈ pre, y.1 < x.1) (h2 : ∀ y ∈ post, y.1 ≤ x.1) (hroom : (pre ++ x :: post).length < cap) (p : U32)
    (hne : eb ≠ bb) (he : eo + esz ≤ (m.bytes eb).length)
    (hnf : fb ≠ bb) (hf : fo + esz ≤ (m.bytes fb).length) (pt : EnqPoint)
    (tail : List PItem)
    (ht : (pt, tail) ∈ [(EnqPoint.copy, [(p, ((pre ++ x :: post).getLast (by simp)).2)]),
      (EnqPoint.prio, [(pre ++ x :: post).getLast (by simp)]),
      (EnqPoint.load, [(pre ++ x :: post).getLast (by simp), (p, slice (m.bytes eb) eo esz)])]) :
    ∃ q' m', enqueueInt pt (fun q => dequeue q (ptr fb fo)) q (ptr eb eo) p m = .ok (true, true, q') m' ∧
      slice (m'.bytes fb) fo esz = x.2 ∧ stored q' m' bb bo pa esz = pre ++ post ++ tail := by
  have hsz := size_stored hst
  have hcl := h.cap_lt
  simp only [List.length_append, List.length_cons] at hroom
  have hlast := getLast_get pre post x
  generalize (pre ++ x :: post).getLast (by simp) = last at ht hlast
  obtain ⟨m1, g1, c1, w1, s1, f1⟩ := copy_slot h hsz (by omega) hne he
  have st1 : stored q m1 bb bo pa esz = pre ++ x :: post := by
    rw [← hst]; apply stored_of
    · simp [stored]
    · intro k hk
      simp only [stored, List.length_map, List.length_range] at hk
      rw [s1 k (by omega), if_neg (by omega)]
      simp [stored, slot]
  have hf1 : fo + esz ≤ (m1.bytes fb).length := by rw [f1 fb hnf]; exact hf
  have old : ∀ k (hk : k < pre.length + post.length + 1),
      slot bb bo pa esz m k = (pre ++ x :: post)[k]'(by simp; omega) := fun k hk =>
    slot_stored hst (by simp; omega)
  have hfull := not_full h (by omega)
  simp only [List.mem_cons, List.not_mem_nil, or_false, Prod.mk.injEq] at ht
  rcases ht with ⟨rfl, rfl⟩ | ⟨rfl, rfl⟩ | ⟨rfl, rfl⟩
  · obtain ⟨m2, g2, c2, s2, o2, f2⟩ := deq_slot c1 (by omega) st1 h1 h2 hnf hf1
    have hd : ({ q with size := q.size - 1#32 } : PQueue).size.toNat = pre.length + post.length := dec_toNat hsz
    obtain ⟨m3, g3, c3, b3, s3⟩ := prio_slot (c2.resize (q.size - 1#32)) hd (by omega) p
    refine ⟨{ q with size := q.size - 1#32 + 1#32 }, m3, ?_, by rw [b3]; exact o2, ?_⟩
    · unfold enqueueInt interrupt
      simp only [hfull, Bool.not_false, if_true, C.bind_run, C.pure_run, g1, g2, g3, reduceCtorEq, decide_false,
        decide_true, Bool.false_eq_true, if_false]
    · apply stored_of
      · show (q.size - 1#32 + 1#32).toNat = _
        rw [inc_toNat hd (by omega)]; simp; omega
      · intro k hk
        simp only [List.length_append, List.length_singleton] at hk
        rw [s3 k (by omega), s2 k (by omega)]
        by_cases hkn : k = pre.length + post.length
        · subst hkn
          rw [if_pos rfl, if_neg (by omega), s1 _ (by omega), if_neg (by omega), old _ (by omega),
            List.getElem_append_right (by simp)]
          simp [hlast]
        · rw [if_neg hkn, List.getElem_append_left (by simp; omega), removed_get (x := x)]
          by_cases hkp : pre.length ≤ k
          · rw [if_pos (by omega), dif_pos hkp, s1 _ (by omega), if_neg (by omega), old _ (by omega)]
          · rw [if_neg (by omega), dif_neg hkp, s1 _ (by omega), if_neg (by omega), old _ (by omega)]
  · obtain ⟨m2, g2, c2, b2, s2⟩ := prio_slot c1 hsz (by omega) p
    have st2 : stored q m2 bb bo pa esz = pre ++ x :: post := by
      rw [← st1]; apply stored_of
      · simp [stored]
      · intro k hk
        simp only [stored, List.length_map, List.length_range] at hk
        rw [s2 k (by omega), if_neg (by omega)]
        simp [stored, slot]
    obtain ⟨m3, g3, c3, s3, o3, f3⟩ := deq_slot c2 (by omega) st2 h1 h2 hnf (by rw [b2]; exact hf1)
    have hd : ({ q with size := q.size - 1#32 } : PQueue).size.toNat = pre.length + post.length := dec_toNat hsz
    refine ⟨{ q with size := q.size - 1#32 + 1#32 }, m3, ?_, o3, ?_⟩
    · unfold enqueueInt interrupt
      simp only [hfull, Bool.not_false, if_true, C.bind_run, C.pure_run, g1, g2, g3, reduceCtorEq, decide_false,
        decide_true, Bool.false_eq_true, if_false]
    · apply stored_of
      · show (q.size - 1#32 + 1#32).toNat = _
        rw [inc_toNat hd (by omega)]; simp; omega
      · intro k hk
        simp only [List.length_append, List.length_singleton] at hk
        rw [s3 k (by omega)]
        by_cases hkn : k = pre.length + post.length
        · subst hkn
          rw [if_neg (by omega), s2 _ (by omega), if_neg (by omega), s1 _ (by omega), if_neg (by omega),
            old _ (by omega), List.getElem_append_right (by simp)]
          simp [hlast]
        · rw [List.getElem_append_left (by simp; omega), removed_get (x := x)]
          by_cases hkp : pre.length ≤ k
          · rw [if_pos (by omega), dif_pos hkp, s2 _ (by omega), if_neg (by omega), s1 _ (by omega),
              if_neg (by omega), old _ (by omega)]
          · rw [if_neg (by omega), dif_neg hkp, s2 _ (by omega), if_neg (by omega), s1 _ (by omega),
              if_neg (by omega), old _ (by omega)]
  · obtain ⟨m2, g2, c2, b2, s2⟩ := prio_slot c1 hsz (by omega) p
    have st2 : stored q m2 bb bo pa esz = pre ++ x :: post := by
      rw [← st1]; apply stored_of
      · simp [stored]
      · intro k hk
        simp only [stored, List.length_map, List.length_range] at hk
        rw [s2 k (by omega), if_neg (by omega)]
        simp [stored, slot]
    obtain ⟨m3, g3, c3, s3, o3, f3⟩ := deq_slot c2 (by omega) st2 h1 h2 hnf (by rw [b2]; exact hf1)
    refine ⟨{ q with size := q.size + 1#32 }, m3, ?_, o3, ?_⟩
    · unfold enqueueInt interrupt
      simp only [hfull, Bool.not_false, if_true, C.bind_run, C.pure_run, g1, g2, g3, reduceCtorEq, decide_false,
        decide_true, Bool.false_eq_true, if_false]
    · apply stored_of
      · show (q.size + 1#32).toNat = _
        rw [inc_toNat hsz (by omega)]; simp; omega
      · intro k hk
        simp only [List.length_append, List.length_cons, List.length_nil] at hk
        rw [s3 k (by omega)]
        by_cases hkn : k = pre.length + post.length + 1
        · subst hkn
          rw [if_neg (by omega), s2 _ (by omega), if_pos rfl, s1 _ (by omega), if_pos rfl,
            List.getElem_append_right (by simp)]
          simp only [List.length_append]
          have e : pre.length + post.length + 1 - (pre.length + post.length) = 1 := by omega
          simp only [e]; rfl
        · by_cases hkn : k = pre.length + post.length
          · subst hkn
            rw [if_neg (by omega), s2 _ (by omega), if_neg (by omega), s1 _ (by omega), if_neg (by omega),
              old _ (by omega), List.getElem_append_right (by simp)]
            simp [hlast]
          · rw [List.getElem_append_left (by simp; omega), removed_get (x := x)]
            by_cases hkp : pre.length ≤ k
            · rw [if_pos (by omega), dif_pos hkp, s2 _ (by omega), if_neg (by omega), s1 _ (by omega),
                if_neg (by omega), old _ (by omega)]
            · rw [if_neg (by omega), dif_neg hkp, s2 _ (by omega), if_neg (by omega), s1 _ (by omega),
                if_neg (by omega), old _ (by omega)]

/-- enqueue with room, interrupted by an enqueue. -/
theorem enq_by_enq (h : Conf cap esz bb bo pa q m) {n : Nat} (hsz : q.size.toNat = n)
    (hroom : n < cap) (p p' : U32)
    (hne : eb ≠ bb) (he : eo + esz ≤ (m.bytes eb).length)
    (hnf : fb ≠ bb) (hf : fo + esz ≤ (m.bytes fb).length) (pt : EnqPoint)
    (hpt : pt = .load ∨ n + 1 < cap ∧ (pt = .copy ∨ pt = .prio))
    (tail : List PItem)
    (ht : (pt, tail) ∈ [(EnqPoint.copy, [(p, (slot bb bo pa esz m (n + 1)).2)]),
      (EnqPoint.prio, [slot bb bo pa esz m (n + 1)]), (EnqPoint.load, [])]) :
    ∃ q' m', enqueueInt pt (fun q => enqueue q (ptr fb fo) p') q (ptr eb eo) p m = .ok (true, true, q') m' ∧
      stored q' m' bb bo pa esz = stored q m bb bo pa esz ++ [(p', slice (m.bytes fb) fo esz)] ++ tail := by
  have hcl := h.cap_lt
  obtain ⟨xs, hxs⟩ : ∃ xs, stored q m bb bo pa esz = xs := ⟨_, rfl⟩
  have hlen : xs.length = n := by rw [← hxs]; simp [stored, hsz]
  have old : ∀ k (hk : k < n), xs[k]'(by omega) = slot bb bo pa esz m k := by
    intro k hk; subst hxs; simp [stored, slot]
  rw [hxs]
  obtain ⟨m1, g1, c1, w1, s1, f1⟩ := copy_slot h hsz (by omega) hne he
  have hf1 : fo + esz ≤ (m1.bytes fb).length := by rw [f1 fb hnf]; exact hf
  have hy : slice (m1.bytes fb) fo esz = slice (m.bytes fb) fo esz := by rw [f1 fb hnf]
  have hfull := not_full h (by omega)
  have hi : (q.size + 1#32).toNat = n + 1 := inc_toNat hsz (by omega)
  simp only [List.mem_cons, List.not_mem_nil, or_false, Prod.mk.injEq] at ht
  rcases ht with ⟨rfl, rfl⟩ | ⟨rfl, rfl⟩ | ⟨rfl, rfl⟩
  · have hr2 : n + 1 < cap := by simpa using hpt
    obtain ⟨m2, g2, c2, s2, f2⟩ := enq_slot c1 hsz (by omega) p' hnf hf1
    have hd : ({ q with size := q.size + 1#32 } : PQueue).size.toNat = n + 1 := hi
    obtain ⟨m3, g3, c3, b3, s3⟩ := prio_slot (c2.resize (q.size + 1#32)) hd (by omega) p
    refine ⟨{ q with size := q.size + 1#32 + 1#32 }, m3, ?_, ?_⟩
    · unfold enqueueInt interrupt
      simp only [hfull, Bool.not_false, if_true, C.bind_run, C.pure_run, g1, g2, g3, reduceCtorEq, decide_false,
        decide_true, Bool.false_eq_true, if_false]
    · apply stored_of
      · show (q.size + 1#32 + 1#32).toNat = _
        rw [inc_toNat hd (by omega)]; simp [hlen]
      · intro k hk
        simp only [List.length_append, List.length_singleton, hlen] at hk
        rw [s3 k (by omega), s2 k (by omega), s1 k (by omega)]
        rcases Nat.lt_trichotomy k n with hkn | rfl | hkn
        · rw [if_neg (by omega), if_neg (by omega), if_neg (by omega), List.getElem_append_left (by simp; omega),
            List.getElem_append_left (by omega), old k hkn]
        · rw [if_neg (by omega), if_pos rfl, List.getElem_append_left (by simp; omega),
            List.getElem_append_right (by omega)]
          simp [hy]
        · have : k = n + 1 := by omega
          subst this
          rw [if_pos rfl, if_neg (by omega), if_neg (by omega), List.getElem_append_right (by simp; omega)]
          simp
  · have hr2 : n + 1 < cap := by simpa using hpt
    obtain ⟨m2, g2, c2, b2, s2⟩ := prio_slot c1 hsz (by omega) p
    obtain ⟨m3, g3, c3, s3, f3⟩ := enq_slot c2 hsz (by omega) p' hnf (by rw [b2]; exact hf1)
    refine ⟨{ q with size := q.size + 1#32 + 1#32 }, m3, ?_, ?_⟩
    · unfold enqueueInt interrupt
      simp only [hfull, Bool.not_false, if_true, C.bind_run, C.pure_run, g1, g2, g3, reduceCtorEq, decide_false,
        decide_true, Bool.false_eq_true, if_false]
    · apply stored_of
      · show (q.size + 1#32 + 1#32).toNat = _
        rw [inc_toNat hi (by omega)]; simp [hlen]
      · intro k hk
        simp only [List.length_append, List.length_singleton, hlen] at hk
        rw [s3 k (by omega), s2 k (by omega), s1 k (by omega)]
        rcases Nat.lt_trichotomy k n with hkn | rfl | hkn
        · rw [if_neg (by omega), if_neg (by omega), if_neg (by omega), List.getElem_append_left (by simp; omega),
            List.getElem_append_left (by omega), old k hkn]
        · rw [if_pos rfl, List.getElem_append_left (by simp; omega),
            List.getElem_append_right (by omega)]
          simp [b2, hy]
        · have : k = n + 1 := by omega
          subst this
          rw [if_neg (by omega), if_neg (by omega), if_neg (by omega), List.getElem_append_right (by simp; omega)]
          simp
  · obtain ⟨m2, g2, c2, b2, s2⟩ := prio_slot c1 hsz (by omega) p
    obtain ⟨m3, g3, c3, s3, f3⟩ := enq_slot c2 hsz (by omega) p' hnf (by rw [b2]; exact hf1)
    refine ⟨{ q with size := q.size + 1#32 }, m3, ?_, ?_⟩
    · unfold enqueueInt interrupt
      simp only [hfull, Bool.not_false, if_true, C.bind_run, C.pure_run, g1, g2, g3, reduceCtorEq, decide_false,
        decide_true, Bool.false_eq_true, if_false]
    · apply stored_of
      · show (q.size + 1#32).toNat = _
        rw [hi]; simp [hlen]
      · intro k hk
        simp only [List.length_append, List.length_singleton, List.length_nil, hlen] at hk
        simp only [List.append_nil]
        rw [s3 k (by omega), s2 k (by omega), s1 k (by omega)]
        by_cases hkn : k = n
        · subst hkn
          rw [if_pos rfl, List.getElem_append_right (by omega)]
          simp [b2, hy]
        · rw [if_neg (by omega), if_neg (by omega), if_neg (by omega),
            List.getElem_append_left (by omega), old k (by omega)]

/-- dequeue interrupted by an enqueue. -/
theorem deq_by_enq (h : Conf cap esz bb bo pa q m)
    (hst : stored q m bb bo pa esz = pre ++ x :: post)
    (h1 : ∀ y ∈ pre, y.1 < x.1) (h2 : ∀ y ∈ post, y.1 ≤ x.1)
    (hcapl : (pre ++ x :: post).length ≤ cap) (p : U32)
    (hne : eb ≠ bb) (he : eo + esz ≤ (m.bytes eb).length)
    (hnf : fb ≠ bb) (hef : fb ≠ eb) (hf : fo + esz ≤ (m.bytes fb).length) (pt : DeqPoint)
    (hroom : (pre ++ x :: post).length < cap ∨ pt = .shrink ∨ pt = .shift)
    (res : List PItem)
    (ht : (pt, res) ∈ [(DeqPoint.highest, pre ++ post ++ [(p, slice (m.bytes fb) fo esz)]),
      (DeqPoint.copy, pre ++ post ++ [(p, slice (m.bytes fb) fo esz)]),
      (DeqPoint.load, pre ++ post),
      (DeqPoint.shrink, if post = [] then pre ++ [(p, slice (m.bytes fb) fo esz)]
        else pre ++ post.dropLast ++ [(p, slice (m.bytes fb) fo esz), (p, slice (m.bytes fb) fo esz)]),
      (DeqPoint.shift, pre ++ post ++ [(p, slice (m.bytes fb) fo esz)])]) :
    ∃ q' m', dequeueInt pt (fun q => enqueue q (ptr fb fo) p) q (ptr eb eo) m = .ok (true, true, q') m' ∧
      slice (m'.bytes eb) eo esz = x.2 ∧ stored q' m' bb bo pa esz = res := by
  have hsz := size_stored hst
  have hcl := h.cap_lt
  simp only [List.length_append, List.length_cons] at hcapl hroom
  have old : ∀ k (hk : k < pre.length + post.length + 1),
      slot bb bo pa esz m k = (pre ++ x :: post)[k]'(by simp; omega) := fun k hk =>
    slot_stored hst (by simp; omega)
  have oldx : (slot bb bo pa esz m pre.length).2 = x.2 := by rw [old _ (by omega)]; simp
  have hemp : empty q = false := not_empty (by omega)
  have hhi := highest_slot h (by omega) hst h1 h2
  have hi : (q.size + 1#32 - 1#32).toNat = pre.length + post.length + 1 := by
    rw [BitVec.add_sub_cancel]; exact hsz
  have hd : (q.size - 1#32).toNat = pre.length + post.length := dec_toNat hsz
  have hd' : q.size - 1#32 = BitVec.ofNat 32 (pre.length + post.length) := by
    apply BitVec.eq_of_toNat_eq; rw [hd, ofNat_toNat (by omega)]
  have hs' : q.size + 1#32 - 1#32 = BitVec.ofNat 32 (pre.length + post.length + 1) := by
    apply BitVec.eq_of_toNat_eq; rw [hi, ofNat_toNat (by omega)]
  obtain ⟨m1, g1, c1, w1, s1, o1, l1, f1⟩ := out_slot h (idx := pre.length) (by omega) hne he
  have hy : slice (m1.bytes fb) fo esz = slice (m.bytes fb) fo esz := by rw [f1 fb hef]
  have hf1 : fo + esz ≤ (m1.bytes fb).length := by rw [f1 fb hef]; exact hf
  -- the entries that stay, after the loop ran to `pre.length + post.length` or one further
  have stay : ∀ k (hk : k < pre.length + post.length), (pre ++ post)[k]'(by simp; omega) =
      if pre.length ≤ k then slot bb bo pa esz m (k + 1) else slot bb bo pa esz m k := by
    intro k hk
    rw [removed_get (x := x)]
    split
    · rw [old _ (by omega)]
    · rw [old _ (by omega)]
  simp only [List.mem_cons, List.not_mem_nil, or_false, Prod.mk.injEq] at ht
  rcases ht with ⟨rfl, rfl⟩ | ⟨rfl, rfl⟩ | ⟨rfl, rfl⟩ | ⟨rfl, rfl⟩ | ⟨rfl, rfl⟩
  · have hr : pre.length + (post.length + 1) < cap := by simpa using hroom
    obtain ⟨m2, g2, c2, s2, f2⟩ := enq_slot h hsz (by omega) p hnf hf
    obtain ⟨m3, g3, c3, w3, s3, o3, l3, f3⟩ := out_slot c2 (idx := pre.length) (by omega) hne
      (by rw [f2 eb hne]; exact he)
    obtain ⟨m4, g4, c4, s4, f4⟩ := shift_slot (c3.resize (q.size + 1#32 - 1#32)) (idx := pre.length)
      (cur := pre.length + post.length + 1) (by omega) (by omega)
    rw [← hs'] at g4
    refine ⟨{ q with size := q.size + 1#32 - 1#32 }, m4, ?_, ?_, ?_⟩
    · unfold dequeueInt interrupt
      simp only [hemp, Bool.not_false, if_true, C.bind_run, C.pure_run, hhi, g2, g3, g4, reduceCtorEq, decide_false,
        decide_true, Bool.false_eq_true, if_false]
    · rw [f4 eb hne, o3, s2 _ (by omega), if_neg (by omega), oldx]
    · apply stored_of
      · show (q.size + 1#32 - 1#32).toNat = _
        rw [hi]; simp; omega
      · intro k hk
        simp only [List.length_append, List.length_singleton] at hk
        rw [s4 k (by omega)]
        simp only [s3]
        by_cases hkn : k = pre.length + post.length
        · subst hkn
          rw [if_pos (by omega), s2 _ (by omega), if_pos rfl, List.getElem_append_right (by simp)]
          simp
        · rw [List.getElem_append_left (by simp; omega), stay k (by omega)]
          by_cases hkp : pre.length ≤ k
          · rw [if_pos (by omega), if_pos hkp, s2 _ (by omega), if_neg (by omega)]
          · rw [if_neg (by omega), if_neg hkp, s2 _ (by omega), if_neg (by omega)]
  · have hr : pre.length + (post.length + 1) < cap := by simpa using hroom
    obtain ⟨m2, g2, c2, s2, f2⟩ := enq_slot c1 hsz (by omega) p hnf hf1
    obtain ⟨m4, g4, c4, s4, f4⟩ := shift_slot (c2.resize (q.size + 1#32 - 1#32)) (idx := pre.length)
      (cur := pre.length + post.length + 1) (by omega) (by omega)
    rw [← hs'] at g4
    refine ⟨{ q with size := q.size + 1#32 - 1#32 }, m4, ?_, ?_, ?_⟩
    · unfold dequeueInt interrupt
      simp only [hemp, Bool.not_false, if_true, C.bind_run, C.pure_run, hhi, g1, g2, g4, reduceCtorEq, decide_false,
        decide_true, Bool.false_eq_true, if_false]
    · rw [f4 eb hne, f2 eb hne, o1, oldx]
    · apply stored_of
      · show (q.size + 1#32 - 1#32).toNat = _
        rw [hi]; simp; omega
      · intro k hk
        simp only [List.length_append, List.length_singleton] at hk
        rw [s4 k (by omega)]
        by_cases hkn : k = pre.length + post.length
        · subst hkn
          rw [if_pos (by omega), s2 _ (by omega), if_pos rfl, List.getElem_append_right (by simp)]
          simp [hy]
        · rw [List.getElem_append_left (by simp; omega), stay k (by omega)]
          by_cases hkp : pre.length ≤ k
          · rw [if_pos (by omega), if_pos hkp, s2 _ (by omega), if_neg (by omega), s1]
          · rw [if_neg (by omega), if_neg hkp, s2 _ (by omega), if_neg (by omega), s1]
  · have hr : pre.length + (post.length + 1) < cap := by simpa using hroom
    obtain ⟨m2, g2, c2, s2, f2⟩ := enq_slot c1 hsz (by omega) p hnf hf1
    obtain ⟨m4, g4, c4, s4, f4⟩ := shift_slot (c2.resize (q.size - 1#32)) (idx := pre.length)
      (cur := pre.length + post.length) (by omega) (by omega)
    rw [← hd'] at g4
    refine ⟨{ q with size := q.size - 1#32 }, m4, ?_, ?_, ?_⟩
    · unfold dequeueInt interrupt
      simp only [hemp, Bool.not_false, if_true, C.bind_run, C.pure_run, hhi, g1, g2, g4, reduceCtorEq, decide_false,
        decide_true, Bool.false_eq_true, if_false]
    · rw [f4 eb hne, f2 eb hne, o1, oldx]
    · apply stored_of
      · show (q.size - 1#32).toNat = _
        rw [hd]; simp
      · intro k hk
        simp only [List.length_append] at hk
        rw [s4 k (by omega), stay k (by omega)]
        by_cases hkp : pre.length ≤ k
        · rw [if_pos (by omega), if_pos hkp, s2 _ (by omega), if_neg (by omega), s1]
        · rw [if_neg (by omega), if_neg hkp, s2 _ (by omega), if_neg (by omega), s1]
  · obtain ⟨m2, g2, c2, s2, f2⟩ := enq_slot (c1.resize (q.size - 1#32)) (n := pre.length + post.length) hd
      (by omega) p hnf hf1
    obtain ⟨m4, g4, c4, s4, f4⟩ := shift_slot (c2.resize (q.size - 1#32 + 1#32)) (idx := pre.length)
      (cur := pre.length + post.length) (by omega) (by omega)
    rw [← hd'] at g4
    refine ⟨{ q with size := q.size - 1#32 + 1#32 }, m4, ?_, ?_, ?_⟩
    · unfold dequeueInt interrupt
      simp only [hemp, Bool.not_false, if_true, C.bind_run, C.pure_run, hhi, g1, g2, g4, reduceCtorEq, decide_false,
        decide_true, Bool.false_eq_true, if_false]
    · rw [f4 eb hne, f2 eb hne, o1, oldx]
    · have hdi : (q.size - 1#32 + 1#32).toNat = pre.length + post.length + 1 := inc_toNat hd (by omega)
      by_cases hp : post = []
      · subst hp
        rw [if_pos rfl]
        simp only [List.length_nil, Nat.add_zero] at *
        apply stored_of
        · show (q.size - 1#32 + 1#32).toNat = _
          rw [hdi]; simp
        · intro k hk
          simp only [List.length_append, List.length_singleton] at hk
          rw [s4 k (by omega), if_neg (by omega), s2 k (by omega)]
          by_cases hkn : k = pre.length
          · subst hkn
            rw [if_pos rfl, List.getElem_append_right (by simp)]
            simp [hy]
          · have := stay k (by omega)
            simp only [List.append_nil] at this
            rw [if_neg hkn, s1, List.getElem_append_left (by omega), this, if_neg (by omega)]
      · rw [if_neg hp]
        have hpl : 0 < post.length := List.length_pos_iff.mpr hp
        apply stored_of
        · show (q.size - 1#32 + 1#32).toNat = _
          rw [hdi]; simp; omega
        · intro k hk
          simp only [List.length_append, List.length_dropLast, List.length_cons, List.length_nil] at hk
          rw [s4 k (by omega)]
          rcases Nat.lt_trichotomy k (pre.length + post.length - 1) with hkn | hkn | hkn
          · have e : (pre ++ post.dropLast ++ [(p, slice (m.bytes fb) fo esz), (p, slice (m.bytes fb) fo esz)])[k]'(by
                simp; omega) = (pre ++ post)[k]'(by simp; omega) := by
              rw [List.getElem_append_left (by simp; omega)]
              simp only [← List.dropLast_append_of_ne_nil hp, List.getElem_dropLast]
            rw [e, stay k (by omega)]
            by_cases hkp : pre.length ≤ k
            · rw [if_pos (by omega), if_pos hkp, s2 _ (by omega), if_neg (by omega), s1]
            · rw [if_neg (by omega), if_neg hkp, s2 _ (by omega), if_neg (by omega), s1]
          · rw [if_pos (by omega), s2 _ (by omega), if_pos (by omega), List.getElem_append_right (by simp; omega)]
            have e : k - (pre ++ post.dropLast).length = 0 := by simp; omega
            simp only [e, hy]; rfl
          · rw [if_neg (by omega), s2 _ (by omega), if_pos (by omega), List.getElem_append_right (by simp; omega)]
            have e : k - (pre ++ post.dropLast).length = 1 := by simp; omega
            simp only [e, hy]; rfl
  · obtain ⟨m2, g2, c2, s2, f2⟩ := shift_slot (c1.resize (q.size - 1#32)) (idx := pre.length)
      (cur := pre.length + post.length) (by omega) (by omega)
    rw [← hd'] at g2
    obtain ⟨m4, g4, c4, s4, f4⟩ := enq_slot c2 (n := pre.length + post.length) hd (by omega) p hnf
      (by rw [f2 fb hnf]; exact hf1)
    refine ⟨{ q with size := q.size - 1#32 + 1#32 }, m4, ?_, ?_, ?_⟩
    · unfold dequeueInt interrupt
      simp only [hemp, Bool.not_false, if_true, C.bind_run, C.pure_run, hhi, g1, g2, g4, reduceCtorEq, decide_false,
        decide_true, Bool.false_eq_true, if_false]
    · rw [f4 eb hne, f2 eb hne, o1, oldx]
    · apply stored_of
      · show (q.size - 1#32 + 1#32).toNat = _
        rw [inc_toNat hd (by omega)]; simp; omega
      · intro k hk
        simp only [List.length_append, List.length_singleton] at hk
        rw [s4 k (by omega)]
        by_cases hkn : k = pre.length + post.length
        · subst hkn
          rw [if_pos rfl, List.getElem_append_right (by simp)]
          simp [f2 fb hnf, hy]
        · rw [if_neg hkn, List.getElem_append_left (by simp; omega), stay k (by omega), s2 k (by omega)]
          by_cases hkp : pre.length ≤ k
          · rw [if_pos (by omega), if_pos hkp, s1]
          · rw [if_neg (by omega), if_neg hkp, s1]

end
end IMU.PQ
