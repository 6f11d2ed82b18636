import Verif.Proofs.PriorityQueueInterruptRuns

namespace IMU.PQ
open Spec Utils
open IMU.Props (stored PQFrame)

section
variable {cap esz bb bo pa : Nat} {q : PQueue} {m : Mem} {pre post : List PItem} {x : PItem}
variable {eb eo fb fo : Nat}

theorem shiftDown_none {a b : U32} (h : b.toNat ≤ a.toNat) : shiftDown q a b m = .ok () m := by
  unfold shiftDown
  rw [show b.toNat - a.toNat = 0 by omega]; rfl

/-- dequeue interrupted by a dequeue. -/
theorem deq_by_deq (h : Conf cap esz bb bo pa q m)
    (hst : stored q m bb bo pa esz = pre ++ x :: post)
    (h1 : ∀ y ∈ pre, y.1 < x.1) (h2 : ∀ y ∈ post, y.1 ≤ x.1)
    (hcapl : (pre ++ x :: post).length ≤ cap)
    (hne : eb ≠ bb) (he : eo + esz ≤ (m.bytes eb).length)
    (hnf : fb ≠ bb) (hef : fb ≠ eb) (hf : fo + esz ≤ (m.bytes fb).length) (pt : DeqPoint)
    (hpt : pt = .highest ∨ pt = .copy) (got : PItem) (res : List PItem)
    (hres : (∃ z post', post = z :: post' ∧ got = z ∧ res = pre ++ post') ∨
      (post = [] ∧ pre ≠ [] ∧ got = x ∧ res = pre.dropLast)) :
    ∃ q' m', dequeueInt pt (fun q => dequeue q (ptr fb fo)) q (ptr eb eo) m = .ok (true, true, q') m' ∧
      slice (m'.bytes fb) fo esz = x.2 ∧
      slice (m'.bytes eb) eo esz = (if pt = .copy then x.2 else got.2) ∧
      stored q' m' bb bo pa esz = res := by
  have hsz := size_stored hst
  have hcl := h.cap_lt
  simp only [List.length_append, List.length_cons] at hcapl
  have old : ∀ k (hk : k < pre.length + post.length + 1),
      slot bb bo pa esz m k = (pre ++ x :: post)[k]'(by simp; omega) := fun k hk =>
    slot_stored hst (by simp; omega)
  have oldx : (slot bb bo pa esz m pre.length).2 = x.2 := by rw [old _ (by omega)]; simp
  have hemp : empty q = false := not_empty (by omega)
  have hhi := highest_slot h (by omega) hst h1 h2
  have hd : (q.size - 1#32).toNat = pre.length + post.length := dec_toNat hsz
  have hpos : 0 < pre.length + post.length := by
    rcases hres with ⟨z, post', rfl, -⟩ | ⟨-, hp, -⟩
    · simp
    · have := List.length_pos_iff.mpr hp; omega
  have hdd : (q.size - 1#32 - 1#32).toNat = pre.length + post.length - 1 := dec_toNat (by omega)
  have hdd' : q.size - 1#32 - 1#32 = BitVec.ofNat 32 (pre.length + post.length - 1) := by
    apply BitVec.eq_of_toNat_eq; rw [hdd, ofNat_toNat (by omega)]
  -- after both copies: the places as the first dequeue leaves them
  have two : ∃ m2, Conf cap esz bb bo pa q m2 ∧
      (∀ k, k < cap → slot bb bo pa esz m2 k = if pre.length ≤ k ∧ k < pre.length + post.length
        then slot bb bo pa esz m (k + 1) else slot bb bo pa esz m k) ∧
      slice (m2.bytes fb) fo esz = x.2 ∧
      slice (m2.bytes eb) eo esz = (if pt = .copy then x.2 else got.2) ∧
      dequeueInt pt (fun q => dequeue q (ptr fb fo)) q (ptr eb eo) m =
        (do shiftDown { q with size := q.size - 1#32 - 1#32 } (BitVec.ofNat 32 pre.length) (q.size - 1#32 - 1#32)
            return (true, true, { q with size := q.size - 1#32 - 1#32 }) : C (Bool × Bool × PQueue)) m2 := by
    rcases hpt with rfl | rfl
    · obtain ⟨m1, g1, c1, s1, o1, f1⟩ := deq_slot h (by omega) hst h1 h2 hnf hf
      obtain ⟨m2, g2, c2, w2, s2, o2, l2, f2⟩ := out_slot (c1.resize (q.size - 1#32)) (idx := pre.length) (by omega) hne
        (by rw [f1 eb hne (Ne.symm hef)]; exact he)
      refine ⟨m2, c2.resize q.size, ?_, ?_, ?_, ?_⟩
      · intro k hk; rw [s2, s1 k hk]
      · rw [f2 fb hef, o1]
      · rw [o2, if_neg (by simp), s1 _ (by omega)]
        rcases hres with ⟨z, post', rfl, rfl, -⟩ | ⟨rfl, -, rfl, -⟩
        · rw [if_pos (by simp), old _ (by simp)]; simp
        · rw [if_neg (by simp), oldx]
      · unfold dequeueInt interrupt
        simp only [hemp, Bool.not_false, if_true, C.bind_run, C.pure_run, hhi, g1, g2, reduceCtorEq, decide_false,
          decide_true, Bool.false_eq_true, if_false]
    · obtain ⟨m1, g1, c1, w1, s1, o1, l1, f1⟩ := out_slot h (idx := pre.length) (by omega) hne he
      have st1 : stored q m1 bb bo pa esz = pre ++ x :: post := by
        rw [← hst, stored_slot, stored_slot]
        apply List.map_congr_left; intro k _; exact s1 k
      obtain ⟨m2, g2, c2, s2, o2, f2⟩ := deq_slot c1 (by omega) st1 h1 h2 hnf (by rw [f1 fb hef]; exact hf)
      refine ⟨m2, c2, ?_, o2, ?_, ?_⟩
      · intro k hk; rw [s2 k hk, s1, s1]
      · rw [f2 eb hne (Ne.symm hef), o1, if_pos rfl, oldx]
      · unfold dequeueInt interrupt
        simp only [hemp, Bool.not_false, if_true, C.bind_run, C.pure_run, hhi, g1, g2, reduceCtorEq, decide_false,
          decide_true, Bool.false_eq_true, if_false]
  obtain ⟨m2, c2, s2, of, oe, start⟩ := two
  rw [start]
  rcases hres with ⟨z, post', rfl, rfl, rfl⟩ | ⟨rfl, hp, rfl, rfl⟩
  · simp only [List.length_cons] at *
    obtain ⟨m3, g3, c3, s3, f3⟩ := shift_slot (c2.resize (q.size - 1#32 - 1#32)) (idx := pre.length)
      (cur := pre.length + post'.length) (by omega) (by omega)
    have e : pre.length + (post'.length + 1) - 1 = pre.length + post'.length := by omega
    rw [e] at hdd hdd'
    rw [← hdd'] at g3
    refine ⟨{ q with size := q.size - 1#32 - 1#32 }, m3, ?_, ?_, ?_, ?_⟩
    · simp only [C.bind_run, g3, C.pure_run]
    · rw [f3 fb hnf, of]
    · rw [f3 eb hne, oe]
    · apply stored_of
      · show (q.size - 1#32 - 1#32).toNat = _
        rw [hdd]; simp
      · intro k hk
        have hk' := hk
        simp only [List.length_append] at hk'
        rw [s3 k (by omega)]
        by_cases hkp : pre.length ≤ k
        · rw [if_pos (by omega), s2 _ (by omega), if_pos (by omega), old _ (by omega),
            List.getElem_append_right (by omega), List.getElem_append_right (by omega)]
          have e : k + 1 + 1 - pre.length = (k - pre.length) + 1 + 1 := by omega
          simp only [e, List.getElem_cons_succ]
        · rw [if_neg (by omega), s2 _ (by omega), if_neg (by omega), old _ (by omega),
            List.getElem_append_left (by omega), List.getElem_append_left (by omega)]
  · simp only [List.length_nil, Nat.add_zero] at *
    refine ⟨{ q with size := q.size - 1#32 - 1#32 }, m2, ?_, of, oe, ?_⟩
    · rw [C.bind_run, shiftDown_none (by rw [hdd, ofNat_toNat (by omega)]; omega)]
      simp only [C.pure_run]
    · apply stored_of
      · show (q.size - 1#32 - 1#32).toNat = _
        rw [hdd]; simp
      · intro k hk
        simp only [List.length_dropLast] at hk
        rw [s2 k (by omega), if_neg (by omega), old _ (by omega), List.getElem_append_left (by omega)]
        simp

theorem memcpy_words {d s : Ptr} {n : Nat} {m' : Mem} (h : memcpy d s n m = .ok () m') : m'.words = m.words := by
  unfold memcpy at h
  split at h
  · cases h
  · rw [C.bind_run] at h
    cases hl : loadN s n m with
    | ub e => rw [hl] at h; cases h
    | ok v m1 =>
      rw [hl] at h
      have e1 : m1 = m := by
        unfold loadN at hl; split_ifs at hl <;> cases hl <;> rfl
      subst e1
      simp only at h
      unfold storeN at h; split_ifs at h <;> cases h <;> rfl

theorem storeW_oob {i : Nat} {p : U32} (h : (m.words pa).length ≤ i) : storeW pa i p m = .ub .oobWrite := by
  unfold storeW; rw [if_neg (by omega)]

/-- A moving loop that runs beyond the priority array. -/
theorem shiftDown_ub {a b : U32} (hab : a.toNat < b.toNat) (hw : (m.words q.priority_array).length ≤ b.toNat) :
    ∃ e, shiftDown q a b m = .ub e := by
  unfold shiftDown
  have key : ∀ (n i : Nat) (m : Mem), 0 < n → i + n < 2 ^ 32 → (m.words q.priority_array).length ≤ i + n →
      ∃ e, forN n i (fun i (_ : Unit) => do
        let iw := BitVec.ofNat 32 i
        memcpy (q.buffer.addN (iw * q.element_size).toNat)
          (q.buffer.addN (iw * q.element_size + q.element_size).toNat) q.element_size.toNat
        let p ← loadW q.priority_array (iw + 1#32).toNat
        storeW q.priority_array i p) () m = .ub e := by
    intro n
    induction n with
    | zero => intro i m h; omega
    | succ n ih =>
      intro i m _ hb hl
      rw [forN_succ]
      simp only [C.bind_run]
      cases hm : memcpy (q.buffer.addN (BitVec.ofNat 32 i * q.element_size).toNat)
          (q.buffer.addN (BitVec.ofNat 32 i * q.element_size + q.element_size).toNat) q.element_size.toNat m with
      | ub e => exact ⟨e, rfl⟩
      | ok v m1 =>
        have hmw := memcpy_words hm
        have e3 : (BitVec.ofNat 32 i + 1#32).toNat = i + 1 := by
          rw [BitVec.toNat_add, ofNat_toNat (by omega)]; simp only [BitVec.toNat_ofNat]; omega
        simp only [e3]
        by_cases hi : i + 1 < (m.words q.priority_array).length
        · have hld : loadW q.priority_array (i + 1) m1 = .ok ((m.words q.priority_array)[i + 1]) m1 :=
            loadW_ok (by rw [hmw, List.getElem?_eq_getElem])
          simp only [hld]
          rw [storeW_ok (by rw [hmw]; omega)]
          simp only
          apply ih
          · omega
          · omega
          · rw [Mem.updW_words, if_pos rfl, List.length_set, hmw]; omega
        · refine ⟨.oobRead, ?_⟩
          have : loadW q.priority_array (i + 1) m1 = .ub .oobRead := by
            unfold loadW; rw [hmw, List.getElem?_eq_none (by omega)]
          simp only [this]
  exact key _ _ m (by omega) (by have := b.isLt; omega) (by omega)

/-- enqueue into the last place, interrupted after its check by an enqueue. -/
theorem enq_last_ub (h : Conf cap esz bb bo pa q m) (hsz : q.size.toNat + 1 = cap)
    (hw : (m.words pa).length = cap) (p p' : U32) (e : Ptr)
    (hnf : fb ≠ bb) (hf : fo + esz ≤ (m.bytes fb).length) :
    ∃ u, enqueueInt .guard (fun q => enqueue q (ptr fb fo) p') q e p m = .ub u := by
  have hcl := h.cap_lt
  obtain ⟨m1, g1, c1, s1, f1⟩ := enq_slot h rfl (by omega) p' hnf hf
  obtain ⟨r, q', m', out, xs', g2, -, -, g3⟩ := enqueue_ok (h.rep (by omega)) p' fb fo hnf hf
  rw [g1] at g2
  injection g2 with _ g2
  subst g2
  have hfull := not_full h (by omega)
  have hi : (q.size + 1#32).toNat = cap := by rw [inc_toNat rfl (by omega)]; exact hsz
  unfold enqueueInt
  simp only [hfull, Bool.not_false, if_true, interrupt, C.bind_run, g1, decide_true, hi, h.hpa]
  cases hm : memcpy (q.buffer.addN ((q.size + 1#32) * q.element_size).toNat) e q.element_size.toNat m1 with
  | ub u => exact ⟨u, rfl⟩
  | ok v m2 =>
    refine ⟨.oobWrite, ?_⟩
    have := storeW_oob (m := m2) (pa := pa) (i := cap) (p := p) (by rw [memcpy_words hm, g3.2.1, hw])
    simp only [reduceCtorEq, decide_false, Bool.false_eq_true, if_false, C.pure_run, hi, h.hpa, this]

/-- dequeue of the only entry, interrupted after its check by a dequeue. -/
theorem deq_only_ub (h : Conf cap esz bb bo pa q m) (hst : stored q m bb bo pa esz = [x])
    (hw : (m.words pa).length < 2 ^ 32) 
    (hne : eb ≠ bb) (he : eo + esz ≤ (m.bytes eb).length)
    (hnf : fb ≠ bb) (hef : fb ≠ eb) (hf : fo + esz ≤ (m.bytes fb).length) :
    ∃ u, dequeueInt .guard (fun q => dequeue q (ptr fb fo)) q (ptr eb eo) m = .ub u := by
  have hsz : q.size.toNat = 1 := size_stored (pre := []) (post := []) hst
  have hcp := h.cap_pos
  obtain ⟨m1, g1, c1, s1, o1, f1⟩ := deq_slot h (by omega) (pre := []) (post := []) hst (by simp) (by simp) hnf hf
  obtain ⟨r, q', m', out, xs', g2, -, -, g3⟩ := dequeue_ok (h.rep (by omega)) fb fo hnf hf
  rw [g1] at g2
  injection g2 with _ g2
  subst g2
  have hemp : empty q = false := not_empty (by omega)
  have hz : q.size - 1#32 = 0#32 := by
    apply BitVec.eq_of_toNat_eq; rw [dec_toNat (n := 0) hsz]; rfl
  rw [hz] at g1
  have hwl := c1.hwlen
  have hhi : getHighestPriorityIndex { q with size := 0#32 } m1 = .ok (BitVec.ofNat 32 0) m1 := by
    unfold getHighestPriorityIndex
    have hl : loadW q.priority_array 0 m1 = .ok ((m1.words pa)[0]'(by omega)) m1 :=
      loadW_ok (by rw [h.hpa, List.getElem?_eq_getElem])
    simp only [C.bind_run, hl]
    rfl
  obtain ⟨m2, g4, c2, w2, s2, o2, l2, f2⟩ := out_slot (c1.resize 0#32) (idx := 0) (by omega) hne
    (by rw [f1 eb hne (Ne.symm hef)]; exact he)
  obtain ⟨u, hu⟩ := shiftDown_ub (q := { q with size := 0#32 - 1#32 }) (m := m2) (a := BitVec.ofNat 32 0)
    (b := 0#32 - 1#32) (by decide) (by
      show (m2.words q.priority_array).length ≤ _
      rw [w2, h.hpa, g3.2.1]
      have : (0#32 - 1#32).toNat = 2 ^ 32 - 1 := by decide
      omega)
  refine ⟨u, ?_⟩
  unfold dequeueInt
  simp only [hemp, Bool.not_false, if_true, C.bind_run, C.pure_run, hhi, g1, g4, hu, interrupt, reduceCtorEq,
    decide_false, decide_true, Bool.false_eq_true, if_false]

/-- enqueue on a full queue that evicts, interrupted during the eviction by an enqueue. -/
theorem enq_evict_ub (h : Conf cap esz bb bo pa q m) (hsz : q.size.toNat = cap)
    (hw : (m.words pa).length = cap) (p p' : U32) (hlow : ∃ y ∈ stored q m bb bo pa esz, y.1 < p) (e : Ptr)
    (hnf : fb ≠ bb) (hf : fo + esz ≤ (m.bytes fb).length) :
    ∃ u, enqueueInt .shrink (fun q => enqueue q (ptr fb fo) p') q e p m = .ub u := by
  have hcl := h.cap_lt
  have hcp := h.cap_pos
  have hrep := h.rep (by omega)
  have hfull : full q = true := by
    simp only [full, beq_iff_eq, ← BitVec.toNat_inj, hsz, h.hcap]
  obtain ⟨pre, x, post, hst, hpre, hpost, hlo⟩ := lowest_ok hrep (by
    obtain ⟨y, hy, -⟩ := hlow
    exact List.ne_nil_of_mem hy)
  have hlen := size_stored hst
  have hld : loadW q.priority_array (BitVec.ofNat 32 pre.length).toNat m = .ok x.1 m := by
    rw [ofNat_toNat (by omega), h.hpa]
    exact loadW_ok (hrep.prio _ x (by rw [hst]; simp))
  have hlt : x.1 < p := by
    obtain ⟨y, hy, hyp⟩ := hlow
    rw [hst, List.mem_append, List.mem_cons] at hy
    rcases hy with hy | rfl | hy
    · have := hpre y hy
      simp only [BitVec.lt_def] at *; omega
    · exact hyp
    · have := hpost y hy
      simp only [BitVec.lt_def, BitVec.le_def] at *; omega
  have hd : (q.size - 1#32).toNat = pre.length + post.length := dec_toNat hlen
  have hd' : q.size - 1#32 = BitVec.ofNat 32 (pre.length + post.length) := by
    apply BitVec.eq_of_toNat_eq; rw [hd, ofNat_toNat (by omega)]
  have hc1 := h.resize (q.size - 1#32)
  obtain ⟨m1, g1, c1, s1, f1⟩ := enq_slot hc1 (n := pre.length + post.length) hd (by omega) p' hnf hf
  obtain ⟨r, q', m', out, xs', g2, -, -, g3⟩ := enqueue_ok (hc1.rep (by show (q.size - 1#32).toNat ≤ _; omega)) p' fb fo hnf hf
  rw [g1] at g2
  injection g2 with _ g2
  subst g2
  have hi : q.size - 1#32 + 1#32 = q.size := BitVec.sub_add_cancel _ _
  rw [hi] at g1
  have c1' : Conf cap esz bb bo pa q m1 := c1.resize q.size
  obtain ⟨m2, g4, g5, -⟩ := shiftDown_ok c1'.hbuf c1'.hpa c1'.hes c1'.lim hcl c1'.hlen c1'.hwlen pre.length
    (pre.length + post.length) (by omega) (by omega)
  rw [← hd'] at g4
  unfold enqueueInt
  simp only [hfull, Bool.not_true, Bool.false_eq_true, if_false, C.bind_run, C.pure_run, hlo, hld, if_pos hlt, g1, g4,
    interrupt, reduceCtorEq, decide_false, decide_true, if_true]
  cases hm : memcpy (q.buffer.addN (q.size * q.element_size).toNat) e q.element_size.toNat m2 with
  | ub u => exact ⟨u, rfl⟩
  | ok v m3 =>
    refine ⟨.oobWrite, ?_⟩
    have := storeW_oob (m := m3) (pa := pa) (i := cap) (p := p) (by rw [memcpy_words hm, g5.2.1, g3.2.1, hw])
    simp only [hsz, h.hpa, this]

/-- Interrupted by a handler that does nothing. -/
theorem enqueueInt_quiet (pt : EnqPoint) (q : PQueue) (e : Ptr) (p : U32) (m : Mem) :
    (match enqueueInt pt (fun q => return (true, q)) q e p m with
      | .ok (r, _, q') m' => .ok (r, q') m'
      | .ub u => .ub u) = enqueue q e p m := by
  unfold enqueueInt enqueue
  have hi : ∀ b s, interrupt b (fun q => return (true, q)) s = fun q => (return (b || s, q) : C (Bool × PQueue)) := by
    intro b s; funext q; unfold interrupt; cases b <;> rfl
  cases full q
  · simp only [hi, Bool.not_false, if_true, C.bind_run, C.pure_run]
    cases memcpy (q.buffer.addN (q.size * q.element_size).toNat) e q.element_size.toNat m with
    | ub u => rfl
    | ok v m1 =>
      simp only
      cases storeW q.priority_array q.size.toNat p m1 with
      | ub u => rfl
      | ok v m2 => rfl
  · simp only [hi, Bool.not_true, Bool.false_eq_true, if_false, C.bind_run, C.pure_run]
    cases getLowestPriorityIndex q m with
    | ub u => rfl
    | ok low m1 =>
      simp only
      cases loadW q.priority_array low.toNat m1 with
      | ub u => rfl
      | ok v m2 =>
        simp only
        by_cases hv : v < p
        · simp only [if_pos hv, C.bind_run, C.pure_run]
          cases shiftDown { q with size := q.size - 1#32 } low (q.size - 1#32) m2 with
          | ub u => rfl
          | ok v m3 =>
            simp only
            cases memcpy (q.buffer.addN ((q.size - 1#32) * q.element_size).toNat) e q.element_size.toNat m3 with
            | ub u => rfl
            | ok v m4 =>
              simp only
              cases storeW q.priority_array (q.size - 1#32).toNat p m4 with
              | ub u => rfl
              | ok v m5 => rfl
        · simp only [if_neg hv, C.pure_run]

theorem dequeueInt_quiet (pt : DeqPoint) (q : PQueue) (e : Ptr) (m : Mem) :
    (match dequeueInt pt (fun q => return (true, q)) q e m with
      | .ok (r, _, q') m' => .ok (r, q') m'
      | .ub u => .ub u) = dequeue q e m := by
  unfold dequeueInt dequeue
  have hi : ∀ b s, interrupt b (fun q => return (true, q)) s = fun q => (return (b || s, q) : C (Bool × PQueue)) := by
    intro b s; funext q; unfold interrupt; cases b <;> rfl
  cases empty q
  · simp only [hi, Bool.not_false, if_true, C.bind_run, C.pure_run]
    cases getHighestPriorityIndex q m with
    | ub u => rfl
    | ok high m1 =>
      simp only
      cases memcpy e (q.buffer.addN (high * q.element_size).toNat) q.element_size.toNat m1 with
      | ub u => rfl
      | ok v m2 =>
        simp only
        cases shiftDown { q with size := q.size - 1#32 } high (q.size - 1#32) m2 with
        | ub u => rfl
        | ok v m3 => rfl
  · rfl

/-- Interrupted right after the check, by a handler that leaves the check's answer true. -/
theorem enqueueInt_guard (hd : Handler) (q : PQueue) (e : Ptr) (p : U32) (m : Mem)
    (hg : ∀ s q' m', hd q m = .ok (s, q') m' → full q' = full q) :
    enqueueInt .guard hd q e p m = (do
      let (s, q) ← hd q
      let (r, q) ← enqueue q e p
      return (r, s, q)) m := by
  unfold enqueueInt enqueue
  have hi : ∀ s q, interrupt false hd s q = (return (s, q) : C (Bool × PQueue)) := fun _ _ => rfl
  have ht : ∀ s q, interrupt true hd s q = hd q := fun _ _ => rfl
  simp only [reduceCtorEq, decide_false, decide_true, hi, ht]
  cases hh : hd q m with
  | ub u => split <;> simp only [C.bind_run, hh]
  | ok v m1 =>
    obtain ⟨s, q'⟩ := v
    have hf := hg s q' m1 hh
    split
    · rename_i hc
      simp only [C.bind_run, C.pure_run, hh, hf, hc, if_true]
      cases memcpy (q'.buffer.addN (q'.size * q'.element_size).toNat) e q'.element_size.toNat m1 with
      | ub u => rfl
      | ok v m2 =>
        simp only
        cases storeW q'.priority_array q'.size.toNat p m2 with
        | ub u => rfl
        | ok v m3 => rfl
    · rename_i hc
      simp only [C.bind_run, C.pure_run, hh, hf, hc, Bool.false_eq_true, if_false]
      cases getLowestPriorityIndex q' m1 with
      | ub u => rfl
      | ok low m2 =>
        simp only
        cases loadW q'.priority_array low.toNat m2 with
        | ub u => rfl
        | ok v m3 =>
          simp only
          by_cases hv : v < p
          · simp only [if_pos hv, C.bind_run, C.pure_run]
            cases shiftDown { q' with size := q'.size - 1#32 } low (q'.size - 1#32) m3 with
            | ub u => rfl
            | ok v m4 =>
              simp only
              cases memcpy (q'.buffer.addN ((q'.size - 1#32) * q'.element_size).toNat) e q'.element_size.toNat m4 with
              | ub u => rfl
              | ok v m5 =>
                simp only
                cases storeW q'.priority_array (q'.size - 1#32).toNat p m5 with
                | ub u => rfl
                | ok v m6 => rfl
          · simp only [if_neg hv, C.pure_run]

theorem dequeueInt_guard (hd : Handler) (q : PQueue) (e : Ptr) (m : Mem) (hq : empty q = false)
    (hg : ∀ s q' m', hd q m = .ok (s, q') m' → empty q' = false) :
    dequeueInt .guard hd q e m = (do
      let (s, q) ← hd q
      let (r, q) ← dequeue q e
      return (r, s, q)) m := by
  unfold dequeueInt dequeue
  have hi : ∀ s q, interrupt false hd s q = (return (s, q) : C (Bool × PQueue)) := fun _ _ => rfl
  have ht : ∀ s q, interrupt true hd s q = hd q := fun _ _ => rfl
  simp only [reduceCtorEq, decide_false, decide_true, hi, ht, hq, Bool.not_false, if_true]
  cases hh : hd q m with
  | ub u => simp only [C.bind_run, hh]
  | ok v m1 =>
    obtain ⟨s, q'⟩ := v
    have hf := hg s q' m1 hh
    simp only [C.bind_run, C.pure_run, hh, hf, Bool.not_false, if_true]
    cases getHighestPriorityIndex q' m1 with
    | ub u => rfl
    | ok high m2 =>
      simp only
      cases memcpy e (q'.buffer.addN (high * q'.element_size).toNat) q'.element_size.toNat m2 with
      | ub u => rfl
      | ok v m3 =>
        simp only
        cases shiftDown { q' with size := q'.size - 1#32 } high (q'.size - 1#32) m3 with
        | ub u => rfl
        | ok v m4 => rfl

end
end IMU.PQ
