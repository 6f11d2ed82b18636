import Verif.Proofs.PriorityQueueHistory
import Verif.Model.PriorityQueueInterrupt

namespace IMU.PQ
open Spec Utils
open IMU.Queue (slot_le slot_disj slot_lt mul_toNat)
open IMU.Props (PQFrame stored)

/-- The arrays of the queue, whatever its size. -/
structure Conf (cap esz bb bo pa : Nat) (q : PQueue) (m : Mem) : Prop where
  hcap : q.capacity.toNat = cap
  cap_pos : 0 < cap
  hes : q.element_size.toNat = esz
  esz_pos : 0 < esz
  lim : (cap - 1) * esz < 2 ^ 32
  hbuf : q.buffer = ptr bb bo
  hpa : q.priority_array = pa
  hlen : bo + cap * esz ≤ (m.bytes bb).length
  hwlen : cap ≤ (m.words pa).length

/-- What lies in place `k` of the two arrays, stored or not. -/
def slot (bb bo pa esz : Nat) (m : Mem) (k : Nat) : PItem :=
  (((m.words pa)[k]?).getD 0#32, slice (m.bytes bb) (bo + k * esz) esz)

section
variable {cap esz bb bo pa : Nat} {q : PQueue} {m : Mem}

theorem stored_slot (q : PQueue) (m : Mem) :
    stored q m bb bo pa esz = (List.range q.size.toNat).map (slot bb bo pa esz m) := rfl

theorem Rep.conf {xs} (h : Rep cap esz bb bo pa q m xs) : Conf cap esz bb bo pa q m :=
  ⟨h.hcap, h.cap_pos, h.hes, h.esz_pos, h.lim, h.hbuf, h.hpa, h.hlen, h.hwlen⟩

theorem Conf.cap_lt (h : Conf cap esz bb bo pa q m) : cap < 2 ^ 32 := by
  rw [← h.hcap]; exact q.capacity.isLt

theorem Conf.resize (h : Conf cap esz bb bo pa q m) (s : U32) : Conf cap esz bb bo pa { q with size := s } m :=
  ⟨h.hcap, h.cap_pos, h.hes, h.esz_pos, h.lim, h.hbuf, h.hpa, h.hlen, h.hwlen⟩

theorem Conf.mem (h : Conf cap esz bb bo pa q m) {m' : Mem}
    (h1 : (m'.bytes bb).length = (m.bytes bb).length) (h2 : (m'.words pa).length = (m.words pa).length) :
    Conf cap esz bb bo pa q m' :=
  ⟨h.hcap, h.cap_pos, h.hes, h.esz_pos, h.lim, h.hbuf, h.hpa, by rw [h1]; exact h.hlen, by rw [h2]; exact h.hwlen⟩

theorem Conf.rep (h : Conf cap esz bb bo pa q m) (hs : q.size.toNat ≤ cap) :
    Rep cap esz bb bo pa q m (stored q m bb bo pa esz) := by
  have hw := h.hwlen
  refine ⟨h.hcap, h.cap_pos, h.hes, h.esz_pos, h.lim, h.hbuf, h.hpa, h.hlen, h.hwlen, ?_, ?_, ?_, ?_⟩
  · simp [stored]
  · simp [stored]; exact hs
  · intro k x hk
    have hlt : k < q.size.toNat := by
      have := (List.getElem?_eq_some_iff.1 hk).1
      simpa [stored] using this
    rw [stored_slot, List.getElem?_map, List.getElem?_range hlt] at hk
    simp only [Option.map_some, Option.some.injEq] at hk
    subst hk
    simp only [slot]
    rw [List.getElem?_eq_getElem (by omega)]; simp
  · intro k x hk
    have hlt : k < q.size.toNat := by
      have := (List.getElem?_eq_some_iff.1 hk).1
      simpa [stored] using this
    rw [stored_slot, List.getElem?_map, List.getElem?_range hlt] at hk
    simp only [Option.map_some, Option.some.injEq] at hk
    subst hk
    rfl

/-- The copy into place `q.size`. -/
theorem copy_slot (h : Conf cap esz bb bo pa q m) {n : Nat} (hn : q.size.toNat = n) (hc : n < cap)
    {eb eo : Nat} (hne : eb ≠ bb) (he : eo + esz ≤ (m.bytes eb).length) :
    ∃ m', memcpy (q.buffer.addN (q.size * q.element_size).toNat) (ptr eb eo) q.element_size.toNat m = .ok () m' ∧
      Conf cap esz bb bo pa q m' ∧ m'.words = m.words ∧
      (∀ k, k < cap → slot bb bo pa esz m' k =
        if k = n then ((slot bb bo pa esz m k).1, slice (m.bytes eb) eo esz) else slot bb bo pa esz m k) ∧
      ∀ b, b ≠ bb → m'.bytes b = m.bytes b := by
  have hb := h.hlen
  have hmul : (q.size * q.element_size).toNat = n * esz := mul_toNat hn h.hes hc h.lim
  have hsl := slot_le esz hc
  have hcpy := memcpy_ok (b := bb) (o := bo + n * esz) (b' := eb) (o' := eo) (n := esz) (m := m)
    (by omega) he (.inl (Ne.symm hne))
  have hl : (slice (m.bytes eb) eo esz).length = esz := slice_length _ _ _ he
  refine ⟨m.upd bb (splice (m.bytes bb) (bo + n * esz) (slice (m.bytes eb) eo esz)),
    by rw [h.hbuf, ptr_addN, hmul, h.hes]; exact hcpy, h.mem ?_ rfl, rfl, ?_, ?_⟩
  · rw [Mem.upd_bytes, if_pos rfl, splice_length _ _ _ (by omega)]
  · intro k hk
    unfold slot
    simp only [Mem.upd_bytes, if_true, Mem.upd_words]
    by_cases hkn : k = n
    · subst hkn
      rw [if_pos rfl]
      have := slice_splice_same (m.bytes bb) (bo + k * esz) (slice (m.bytes eb) eo esz) (by omega)
      rw [hl] at this; rw [this]
    · rw [if_neg hkn]
      have hd := slot_disj esz hkn
      rw [slice_splice_disj _ _ _ _ _ (by omega) (by omega)]
  · intro b hb'
    rw [Mem.upd_bytes, if_neg hb']

/-- The priority of place `q.size`. -/
theorem prio_slot (h : Conf cap esz bb bo pa q m) {n : Nat} (hn : q.size.toNat = n) (hc : n < cap) (p : U32) :
    ∃ m', storeW q.priority_array q.size.toNat p m = .ok () m' ∧
      Conf cap esz bb bo pa q m' ∧ m'.bytes = m.bytes ∧
      (∀ k, k < cap → slot bb bo pa esz m' k =
        if k = n then (p, (slot bb bo pa esz m k).2) else slot bb bo pa esz m k) := by
  have hw := h.hwlen
  refine ⟨m.updW pa ((m.words pa).set n p), by rw [hn, h.hpa]; exact storeW_ok (by omega), h.mem rfl ?_, rfl, ?_⟩
  · rw [Mem.updW_words, if_pos rfl, List.length_set]
  · intro k hk
    unfold slot
    simp only [Mem.updW_bytes, Mem.updW_words, if_true]
    by_cases hkn : k = n
    · subst hkn
      rw [if_pos rfl, List.getElem?_set_self (by omega)]; rfl
    · rw [if_neg hkn, List.getElem?_set_ne (Ne.symm hkn)]

/-- The moving loop. -/
theorem shift_slot (h : Conf cap esz bb bo pa q m) {idx cur : Nat} (hic : idx ≤ cur) (hcc : cur < cap) :
    ∃ m', shiftDown q (BitVec.ofNat 32 idx) (BitVec.ofNat 32 cur) m = .ok () m' ∧
      Conf cap esz bb bo pa q m' ∧
      (∀ k, k < cap → slot bb bo pa esz m' k =
        if idx ≤ k ∧ k < cur then slot bb bo pa esz m (k + 1) else slot bb bo pa esz m k) ∧
      ∀ b, b ≠ bb → m'.bytes b = m.bytes b := by
  obtain ⟨m', h1, h2, h3, h4⟩ := shiftDown_ok h.hbuf h.hpa h.hes h.lim h.cap_lt h.hlen h.hwlen idx cur hic hcc
  refine ⟨m', h1, h.mem (h2.2.2.2.1 bb) h2.2.1, ?_, ?_⟩
  · intro k hk
    unfold slot
    rw [h3 k hk, h4 k hk]
    split_ifs <;> rfl
  · intro b hb
    apply List.ext_getElem?; intro i
    exact h2.2.2.2.2 b i (by intro hc; exact hb hc.1) (by omega)

/-- Copying place `idx` out. -/
theorem out_slot (h : Conf cap esz bb bo pa q m) {idx : Nat} (hc : idx < cap)
    {eb eo : Nat} (hne : eb ≠ bb) (he : eo + esz ≤ (m.bytes eb).length) :
    ∃ m', memcpy (ptr eb eo) (q.buffer.addN (BitVec.ofNat 32 idx * q.element_size).toNat) q.element_size.toNat m
        = .ok () m' ∧
      Conf cap esz bb bo pa q m' ∧ m'.words = m.words ∧
      (∀ k, slot bb bo pa esz m' k = slot bb bo pa esz m k) ∧
      slice (m'.bytes eb) eo esz = (slot bb bo pa esz m idx).2 ∧
      (∀ b, (m'.bytes b).length = (m.bytes b).length) ∧
      ∀ b, b ≠ eb → m'.bytes b = m.bytes b := by
  have hcl := h.cap_lt
  have hb := h.hlen
  have hmul : (BitVec.ofNat 32 idx * q.element_size).toNat = idx * esz :=
    mul_toNat (ofNat_toNat (by omega)) h.hes hc h.lim
  have hsl := slot_le esz hc
  have hcpy := memcpy_ok (b := eb) (o := eo) (b' := bb) (o' := bo + idx * esz) (n := esz) (m := m)
    he (by omega) (.inl hne)
  have hl : (slice (m.bytes bb) (bo + idx * esz) esz).length = esz := slice_length _ _ _ (by omega)
  refine ⟨m.upd eb (splice (m.bytes eb) eo (slice (m.bytes bb) (bo + idx * esz) esz)),
    by rw [h.hbuf, ptr_addN, hmul, h.hes]; exact hcpy, h.mem ?_ rfl, rfl, ?_, ?_, ?_, ?_⟩
  · rw [Mem.upd_bytes, if_neg (Ne.symm hne)]
  · intro k
    unfold slot
    rw [Mem.upd_bytes, if_neg (Ne.symm hne)]; rfl
  · rw [Mem.upd_bytes, if_pos rfl]
    have := slice_splice_same (m.bytes eb) eo (slice (m.bytes bb) (bo + idx * esz) esz) (by omega)
    rw [hl] at this; rw [this]; rfl
  · intro b
    rw [Mem.upd_bytes]; split
    · subst b; rw [splice_length _ _ _ (by omega)]
    · rfl
  · intro b hb'
    rw [Mem.upd_bytes, if_neg hb']

/-- Two splits of a list at a first greatest entry are the same. -/
theorem first_max_unique {pre pre' post post' : List PItem} {x x' : PItem}
    (e : pre ++ x :: post = pre' ++ x' :: post')
    (h1 : ∀ y ∈ pre, y.1 < x.1) (h2 : ∀ y ∈ post, y.1 ≤ x.1)
    (h1' : ∀ y ∈ pre', y.1 < x'.1) (h2' : ∀ y ∈ post', y.1 ≤ x'.1) : pre = pre' ∧ x = x' ∧ post = post' := by
  have key : ∀ {a b c d : List PItem} {u v : PItem}, a ++ u :: b = c ++ v :: d → (∀ y ∈ c, y.1 < v.1) →
      (∀ y ∈ b, y.1 ≤ u.1) → a.length < c.length → False := by
    intro a b c d u v e hc hb hlt
    have hu : u ∈ c := by
      have : (c ++ v :: d)[a.length]? = some u := by rw [← e]; simp
      rw [List.getElem?_append_left hlt] at this
      exact List.mem_of_getElem? this
    have hv : v ∈ b := by
      have : (a ++ u :: b)[c.length]? = some v := by rw [e]; simp
      rw [List.getElem?_append_right (by omega), show c.length - a.length = (c.length - a.length - 1) + 1 by omega,
        List.getElem?_cons_succ] at this
      exact List.mem_of_getElem? this
    have := hc u hu
    have := hb v hv
    simp only [BitVec.lt_def, BitVec.le_def] at *
    omega
  have hl : pre.length = pre'.length := by
    rcases Nat.lt_trichotomy pre.length pre'.length with h | h | h
    · exact (key e h1' h2 h).elim
    · exact h
    · exact (key e.symm h1 h2' h).elim
  have := List.append_inj e hl
  simpa using this

theorem highest_slot (h : Conf cap esz bb bo pa q m) (hs : q.size.toNat ≤ cap) {pre post : List PItem} {x : PItem}
    (hst : stored q m bb bo pa esz = pre ++ x :: post)
    (h1 : ∀ y ∈ pre, y.1 < x.1) (h2 : ∀ y ∈ post, y.1 ≤ x.1) :
    getHighestPriorityIndex q m = .ok (BitVec.ofNat 32 pre.length) m := by
  obtain ⟨pre', x', post', e, g1, g2, g3⟩ := highest_ok (h.rep hs) (by rw [hst]; simp)
  obtain ⟨rfl, -, -⟩ := first_max_unique (hst.symm.trans e) h1 h2 g1 g2
  exact g3

theorem size_stored {pre post : List PItem} {x : PItem} (hst : stored q m bb bo pa esz = pre ++ x :: post) :
    q.size.toNat = pre.length + post.length + 1 := by
  have := congrArg List.length hst
  simp [stored] at this; omega

theorem slot_stored {xs : List PItem} (hst : stored q m bb bo pa esz = xs) {k : Nat} (hk : k < xs.length) :
    slot bb bo pa esz m k = xs[k] := by
  subst hst
  simp [stored, slot]

/-- A call of enqueue with room. -/
theorem enq_slot (h : Conf cap esz bb bo pa q m) {n : Nat} (hn : q.size.toNat = n) (hc : n < cap) (p : U32)
    {eb eo : Nat} (hne : eb ≠ bb) (he : eo + esz ≤ (m.bytes eb).length) :
    ∃ m', enqueue q (ptr eb eo) p m = .ok (true, { q with size := q.size + 1#32 }) m' ∧
      Conf cap esz bb bo pa q m' ∧
      (∀ k, k < cap → slot bb bo pa esz m' k =
        if k = n then (p, slice (m.bytes eb) eo esz) else slot bb bo pa esz m k) ∧
      ∀ b, b ≠ bb → m'.bytes b = m.bytes b := by
  obtain ⟨m1, h1, c1, w1, s1, f1⟩ := copy_slot h hn hc hne he
  obtain ⟨m2, h2, c2, b2, s2⟩ := prio_slot c1 hn hc p
  refine ⟨m2, ?_, c2, ?_, ?_⟩
  · unfold enqueue
    have hf : full q = false := by
      simp only [full, beq_eq_false_iff_ne, ne_eq, ← BitVec.toNat_inj, hn, h.hcap]; omega
    simp only [hf, Bool.not_false, if_true, C.bind_run, h1, h2, C.pure_run]
  · intro k hk
    rw [s2 k hk, s1 k hk]
    split_ifs <;> rfl
  · intro b hb
    rw [b2, f1 b hb]

/-- A call of dequeue on a queue with entries. -/
theorem deq_slot (h : Conf cap esz bb bo pa q m) (hs : q.size.toNat ≤ cap) {pre post : List PItem} {x : PItem}
    (hst : stored q m bb bo pa esz = pre ++ x :: post)
    (h1 : ∀ y ∈ pre, y.1 < x.1) (h2 : ∀ y ∈ post, y.1 ≤ x.1)
    {eb eo : Nat} (hne : eb ≠ bb) (he : eo + esz ≤ (m.bytes eb).length) :
    ∃ m', dequeue q (ptr eb eo) m = .ok (true, { q with size := q.size - 1#32 }) m' ∧
      Conf cap esz bb bo pa q m' ∧
      (∀ k, k < cap → slot bb bo pa esz m' k =
        if pre.length ≤ k ∧ k < pre.length + post.length then slot bb bo pa esz m (k + 1) else slot bb bo pa esz m k) ∧
      slice (m'.bytes eb) eo esz = x.2 ∧
      ∀ b, b ≠ bb → b ≠ eb → m'.bytes b = m.bytes b := by
  have hsz := size_stored hst
  have hcl := h.cap_lt
  have hhi := highest_slot h hs hst h1 h2
  obtain ⟨m1, g1, c1, w1, s1, o1, l1, f1⟩ := out_slot h (idx := pre.length) (by omega) hne he
  have hs2 : q.size - 1#32 = BitVec.ofNat 32 (pre.length + post.length) := by
    apply BitVec.eq_of_toNat_eq
    rw [ofNat_toNat (by omega), BitVec.toNat_sub]; simp only [BitVec.toNat_ofNat]; omega
  obtain ⟨m2, g2, c2, s2, f2⟩ := shift_slot (c1.resize (q.size - 1#32)) (idx := pre.length)
    (cur := pre.length + post.length) (by omega) (by omega)
  refine ⟨m2, ?_, ?_, ?_, ?_, ?_⟩
  · unfold dequeue
    have hf : empty q = false := by
      simp only [empty, beq_eq_false_iff_ne, ne_eq, ← BitVec.toNat_inj, hsz]; simp
    simp only [hf, Bool.not_false, if_true, C.bind_run, hhi, g1, C.pure_run]
    rw [hs2] at g2 ⊢
    rw [g2]
  · exact ⟨c2.hcap, c2.cap_pos, c2.hes, c2.esz_pos, c2.lim, c2.hbuf, c2.hpa, c2.hlen, c2.hwlen⟩
  · intro k hk
    rw [s2 k hk, s1, s1]
  · rw [f2 eb hne, o1, slot_stored hst (k := pre.length) (by simp)]
    simp
  · intro b hb hb'
    rw [f2 b hb, f1 b hb']

/-- `stored` from the places. -/
theorem stored_of {xs : List PItem} (hl : q.size.toNat = xs.length)
    (hk : ∀ k (h : k < xs.length), slot bb bo pa esz m k = xs[k]) : stored q m bb bo pa esz = xs := by
  apply List.ext_getElem
  · simp [stored, hl]
  · intro k h1 h2
    have := hk k h2
    simpa [stored, slot] using this

end
end IMU.PQ
