import Verif.Proofs.Queue
import Verif.Spec.PriorityQueueCalls
import Mathlib.Tactic.SplitIfs
import Mathlib.Tactic.Set

namespace IMU.PQ
open Spec Utils
open IMU.Queue (slot_le slot_disj slot_lt mul_toNat)
open IMU.Props (PQFrame)

/-- The priority queue `q` with its arrays in `m` stores the items `xs`, oldest first. -/
structure Rep (cap esz bb bo pa : Nat) (q : PQueue) (m : Mem) (xs : List PItem) : Prop where
  hcap : q.capacity.toNat = cap
  cap_pos : 0 < cap
  hes : q.element_size.toNat = esz
  esz_pos : 0 < esz
  lim : (cap - 1) * esz < 2 ^ 32
  hbuf : q.buffer = ptr bb bo
  hpa : q.priority_array = pa
  hlen : bo + cap * esz ≤ (m.bytes bb).length
  hwlen : cap ≤ (m.words pa).length
  size_eq : q.size.toNat = xs.length
  size_le : xs.length ≤ cap
  prio : ∀ (k : Nat) x, xs[k]? = some x → (m.words pa)[k]? = some x.1
  content : ∀ (k : Nat) x, xs[k]? = some x → slice (m.bytes bb) (bo + k * esz) esz = x.2

section
variable {cap esz bb bo pa : Nat} {q : PQueue} {m : Mem} {xs : List PItem}

theorem Rep.cap_lt (h : Rep cap esz bb bo pa q m xs) : cap < 2 ^ 32 := by
  rw [← h.hcap]; exact q.capacity.isLt

theorem Rep.full_iff (h : Rep cap esz bb bo pa q m xs) : full q = decide (xs.length = cap) := by
  unfold full
  rw [Bool.eq_iff_iff, beq_iff_eq, decide_eq_true_iff, ← h.size_eq, ← h.hcap, BitVec.toNat_inj]

theorem Rep.empty_iff (h : Rep cap esz bb bo pa q m xs) : empty q = decide (xs = []) := by
  unfold empty
  rw [Bool.eq_iff_iff, beq_iff_eq, decide_eq_true_iff, ← List.length_eq_zero_iff, ← h.size_eq,
    ← BitVec.toNat_inj]
  rfl

theorem Rep.of_eq (h : Rep cap esz bb bo pa q m xs) {m' : Mem} (he : m'.bytes bb = m.bytes bb)
    (hw : m'.words pa = m.words pa) : Rep cap esz bb bo pa q m' xs :=
  { h with hlen := by rw [he]; exact h.hlen, content := by rw [he]; exact h.content,
           hwlen := by rw [hw]; exact h.hwlen, prio := by rw [hw]; exact h.prio }

theorem ofNat_toNat {i : Nat} (h : i < 2 ^ 32) : (BitVec.ofNat 32 i).toNat = i := by
  simp only [BitVec.toNat_ofNat]; omega

/-- Index search: the result splits the list at the first item that is extreme for `lt`. -/
theorem search (h : Rep cap esz bb bo pa q m xs) (hne : xs ≠ []) (lt : U32 → U32 → Bool)
    (hirr : ∀ a, lt a a = false) (htr : ∀ a b c, lt b a = false → lt b c = true → lt a c = true)
    (htr2 : ∀ a b c, lt b a = false → lt c b = false → lt c a = false)
    (hasym : ∀ a b, lt a b = true → lt b a = false) :
    ∃ pre x post, xs = pre ++ x :: post ∧ (∀ y ∈ pre, lt y.1 x.1 = true) ∧ (∀ y ∈ post, lt x.1 y.1 = false) ∧
      (do
        let p0 ← loadW q.priority_array 0
        let r ← forN q.size.toNat 0 (fun i (s : U32 × U32) => do
          let p ← loadW q.priority_array i
          if lt s.1 p then return (p, BitVec.ofNat 32 i) else return s) (p0, 0#32)
        return r.2 : C U32) m = .ok (BitVec.ofNat 32 pre.length) m := by
  have hl : 0 < xs.length := List.length_pos_iff.2 hne
  have hcl := h.cap_lt
  have hsl := h.size_le
  let I : Nat → U32 × U32 → Mem → Prop := fun i s m' => m' = m ∧ ∃ (k : Nat) (x : PItem),
    xs[k]? = some x ∧ s = (x.1, BitVec.ofNat 32 k) ∧
    (∀ (j : Nat) (y : PItem), j < k → xs[j]? = some y → lt y.1 x.1 = true) ∧
    (∀ (j : Nat) (y : PItem), j < i → xs[j]? = some y → lt x.1 y.1 = false)
  have h0 : (m.words pa)[0]? = some xs[0].1 := h.prio 0 _ (by simp [hl])
  obtain ⟨s, m', h1, rfl, k, x, hk, rfl, hlo, hhi⟩ := forN_inv I q.size.toNat 0
    (fun i (s : U32 × U32) => do
      let p ← loadW q.priority_array i
      if lt s.1 p then return (p, BitVec.ofNat 32 i) else return s) (xs[0].1, 0#32) m
    ⟨rfl, 0, xs[0], by simp [hl], rfl, by intro j y hj; omega, by intro j y hj; omega⟩ (by
      intro i s m' _ hi ⟨hm, k, x, hk, hs, hlo, hhi⟩
      subst hm
      have hi' : i < xs.length := by rw [h.size_eq] at hi; omega
      have hp := h.prio i _ (List.getElem?_eq_getElem hi')
      simp only [C.bind_run, h.hpa, loadW_ok hp, hs]
      by_cases hc : lt x.1 xs[i].1 = true
      · rw [if_pos hc]
        refine ⟨(xs[i].1, BitVec.ofNat 32 i), m', rfl, rfl, i, xs[i], by simp [hi'], rfl, ?_, ?_⟩
        · intro j y hj hy
          exact htr _ _ _ (hhi j y hj hy) hc
        · intro j y hj hy
          by_cases hji : j = i
          · subst hji
            rw [List.getElem?_eq_getElem hi'] at hy
            simp at hy; subst hy; exact hirr _
          · exact hasym _ _ (htr _ _ _ (hhi j y (by omega) hy) hc)
      · rw [if_neg hc]
        refine ⟨(x.1, BitVec.ofNat 32 k), m', rfl, rfl, k, x, hk, rfl, hlo, ?_⟩
        intro j y hj hy
        by_cases hji : j = i
        · subst hji
          rw [List.getElem?_eq_getElem hi'] at hy
          simp at hy; subst hy; simpa using hc
        · exact hhi j y (by omega) hy)
  have hkl : k < xs.length := (List.getElem?_eq_some_iff.1 hk).1
  refine ⟨xs.take k, x, xs.drop (k + 1), ?_, ?_, ?_, ?_⟩
  · have := (List.getElem?_eq_some_iff.1 hk).2
    rw [← this, List.getElem_cons_drop]; simp
  · intro y hy
    obtain ⟨j, hj, rfl⟩ := List.mem_iff_getElem.1 hy
    simp at hj
    rw [List.getElem_take]
    exact hlo j _ (by omega) (List.getElem?_eq_getElem (by omega))
  · intro y hy
    obtain ⟨j, hj, rfl⟩ := List.mem_iff_getElem.1 hy
    simp at hj
    rw [List.getElem_drop]
    exact hhi (k + 1 + j) _ (by rw [h.size_eq]; omega) (List.getElem?_eq_getElem (by omega))
  · have : (xs.take k).length = k := by simp; omega
    rw [this]
    simp only [C.bind_run]
    rw [h.hpa, loadW_ok h0]
    simp only
    rw [h.hpa] at h1
    rw [h1]; rfl

theorem highest_ok (h : Rep cap esz bb bo pa q m xs) (hne : xs ≠ []) :
    ∃ pre x post, xs = pre ++ x :: post ∧ (∀ y ∈ pre, y.1 < x.1) ∧ (∀ y ∈ post, y.1 ≤ x.1) ∧
      getHighestPriorityIndex q m = .ok (BitVec.ofNat 32 pre.length) m := by
  obtain ⟨pre, x, post, h1, h2, h3, h4⟩ := search h hne (fun a b => decide (a < b))
    (by intro a; simp) (by intro a b c; simp only [decide_eq_false_iff_not, decide_eq_true_eq, BitVec.lt_def]; omega)
    (by intro a b c; simp only [decide_eq_false_iff_not, BitVec.lt_def]; omega)
    (by intro a b; simp only [decide_eq_false_iff_not, decide_eq_true_eq, BitVec.lt_def]; omega)
  refine ⟨pre, x, post, h1, fun y hy => by simpa using h2 y hy, fun y hy => by simpa using h3 y hy, ?_⟩
  rw [← h4]
  simp only [decide_eq_true_eq]; rfl

theorem lowest_ok (h : Rep cap esz bb bo pa q m xs) (hne : xs ≠ []) :
    ∃ pre x post, xs = pre ++ x :: post ∧ (∀ y ∈ pre, x.1 < y.1) ∧ (∀ y ∈ post, x.1 ≤ y.1) ∧
      getLowestPriorityIndex q m = .ok (BitVec.ofNat 32 pre.length) m := by
  obtain ⟨pre, x, post, h1, h2, h3, h4⟩ := search h hne (fun a b => decide (a > b))
    (by intro a; simp) (by intro a b c; simp only [decide_eq_false_iff_not, decide_eq_true_eq, gt_iff_lt, BitVec.lt_def]; omega)
    (by intro a b c; simp only [decide_eq_false_iff_not, gt_iff_lt, BitVec.lt_def]; omega)
    (by intro a b; simp only [decide_eq_false_iff_not, decide_eq_true_eq, gt_iff_lt, BitVec.lt_def]; omega)
  refine ⟨pre, x, post, h1, fun y hy => by simpa using h2 y hy, fun y hy => by simpa using h3 y hy, ?_⟩
  rw [← h4]
  simp only [decide_eq_true_eq]; rfl

theorem frame_refl (m : Mem) (bb bo n pa cap eb eo k : Nat) : PQFrame m m bb bo n pa cap eb eo k :=
  ⟨fun _ _ => rfl, rfl, fun _ _ => rfl, fun _ => rfl, fun _ _ _ _ => rfl⟩

theorem frame_trans {m m' m'' : Mem} {bb bo n pa cap eb eo k : Nat}
    (h : PQFrame m m' bb bo n pa cap eb eo k) (h' : PQFrame m' m'' bb bo n pa cap eb eo k) :
    PQFrame m m'' bb bo n pa cap eb eo k :=
  ⟨fun x hx => (h'.1 x hx).trans (h.1 x hx), h'.2.1.trans h.2.1,
    fun i hi => (h'.2.2.1 i hi).trans (h.2.2.1 i hi),
    fun x => (h'.2.2.2.1 x).trans (h.2.2.2.1 x),
    fun x i h1 h2 => (h'.2.2.2.2 x i h1 h2).trans (h.2.2.2.2 x i h1 h2)⟩

theorem frame_weaken {m m' : Mem} {bb bo n pa cap eb eo k : Nat}
    (h : PQFrame m m' bb bo n pa cap 0 0 0) : PQFrame m m' bb bo n pa cap eb eo k :=
  ⟨h.1, h.2.1, h.2.2.1, h.2.2.2.1, fun x i h1 _ => h.2.2.2.2 x i h1 (by omega)⟩

theorem frame_upd {m : Mem} {bb bo n pa cap o : Nat} {s : List Byte} (h1 : bo ≤ o)
    (h2 : o + s.length ≤ bo + n) (h3 : bo + n ≤ (m.bytes bb).length) :
    PQFrame m (m.upd bb (splice (m.bytes bb) o s)) bb bo n pa cap 0 0 0 := by
  refine ⟨fun _ _ => rfl, rfl, fun _ _ => rfl, ?_, ?_⟩
  · intro x
    rw [Mem.upd_bytes]; split
    · subst x; rw [splice_length _ _ _ (by omega)]
    · rfl
  · intro x i hx _
    rw [Mem.upd_bytes]; split
    · subst x
      rw [getElem?_splice _ _ _ (by omega)]
      split_ifs <;> first | rfl | (exfalso; omega)
    · rfl

theorem frame_updW {m : Mem} {bb bo n pa cap i : Nat} {v : U32} (hi : i < cap) :
    PQFrame m (m.updW pa ((m.words pa).set i v)) bb bo n pa cap 0 0 0 := by
  refine ⟨fun x hx => by simp [hx], by simp, ?_, fun _ => rfl, fun _ _ _ _ => rfl⟩
  intro j hj
  rw [Mem.updW_words, if_pos rfl, List.getElem?_set_ne (by omega)]

/-- The shifting loop closes the gap at `idx`. -/
theorem shiftDown_ok (hbuf : q.buffer = ptr bb bo) (hpa : q.priority_array = pa)
    (hes : q.element_size.toNat = esz) (lim : (cap - 1) * esz < 2 ^ 32)
    (hcl : cap < 2 ^ 32)
    (hlen : bo + cap * esz ≤ (m.bytes bb).length) (hwlen : cap ≤ (m.words pa).length)
    (idx cur : Nat) (hic : idx ≤ cur) (hcc : cur < cap) :
    ∃ m', shiftDown q (BitVec.ofNat 32 idx) (BitVec.ofNat 32 cur) m = .ok () m' ∧
      PQFrame m m' bb bo (cap * esz) pa cap 0 0 0 ∧
      (∀ k, k < cap → (m'.words pa)[k]? = if idx ≤ k ∧ k < cur then (m.words pa)[k + 1]? else (m.words pa)[k]?) ∧
      (∀ k, k < cap → slice (m'.bytes bb) (bo + k * esz) esz =
        if idx ≤ k ∧ k < cur then slice (m.bytes bb) (bo + (k + 1) * esz) esz
        else slice (m.bytes bb) (bo + k * esz) esz) := by
  let I : Nat → Unit → Mem → Prop := fun i _ m' =>
    PQFrame m m' bb bo (cap * esz) pa cap 0 0 0 ∧
    (∀ k, k < cap → (m'.words pa)[k]? = if idx ≤ k ∧ k < i then (m.words pa)[k + 1]? else (m.words pa)[k]?) ∧
    (∀ k, k < cap → slice (m'.bytes bb) (bo + k * esz) esz =
      if idx ≤ k ∧ k < i then slice (m.bytes bb) (bo + (k + 1) * esz) esz
      else slice (m.bytes bb) (bo + k * esz) esz)
  unfold shiftDown
  rw [ofNat_toNat (by omega), ofNat_toNat (by omega)]
  have key := forN_inv I (cur - idx) idx (fun i (_ : Unit) => do
    let iw := BitVec.ofNat 32 i
    memcpy (q.buffer.addN (iw * q.element_size).toNat)
      (q.buffer.addN (iw * q.element_size + q.element_size).toNat) q.element_size.toNat
    let p ← loadW q.priority_array (iw + 1#32).toNat
    storeW q.priority_array i p) () m
    ⟨frame_refl .., fun k _ => by rw [if_neg (by omega)], fun k _ => by rw [if_neg (by omega)]⟩ (by
      intro i s m' hi1 hi2 ⟨hf, hw, hb⟩
      have hi : i + 1 < cap := by omega
      have e1 : (BitVec.ofNat 32 i * q.element_size).toNat = i * esz :=
        mul_toNat (ofNat_toNat (by omega)) hes (show i < cap by omega) lim
      have e2 : (BitVec.ofNat 32 i * q.element_size + q.element_size).toNat = (i + 1) * esz := by
        have := slot_lt hi lim
        rw [BitVec.toNat_add, e1, hes, ← Nat.succ_mul, Nat.mod_eq_of_lt this]
      have e3 : (BitVec.ofNat 32 i + 1#32).toNat = i + 1 := by
        rw [BitVec.toNat_add, ofNat_toNat (by omega)]; simp only [BitVec.toNat_ofNat]; omega
      have s1 := slot_le esz hi
      have s0 := slot_le esz (show i < cap by omega)
      have s2 : i * esz + esz = (i + 1) * esz := by rw [Nat.succ_mul]
      have hl' := hf.2.2.2.1 bb
      have hwl' := hf.2.1
      have hcpy := memcpy_ok (b := bb) (o := bo + i * esz) (b' := bb) (o' := bo + (i + 1) * esz) (n := esz)
        (m := m') (by omega) (by omega) (by omega)
      set s := slice (m'.bytes bb) (bo + (i + 1) * esz) esz with hs
      have hsl : s.length = esz := slice_length _ _ _ (by omega)
      set m1 := m'.upd bb (splice (m'.bytes bb) (bo + i * esz) s) with hm1
      have hp : (m1.words pa)[i + 1]? = some ((m'.words pa)[i + 1]'(by omega)) := by simp [hm1]
      set p := (m'.words pa)[i + 1]'(by omega) with hpdef
      have hst := storeW_ok (b := pa) (i := i) (m := m1) (v := p)
        (show i < (m1.words pa).length by simp only [hm1, Mem.upd_words]; omega)
      refine ⟨(), m1.updW pa ((m1.words pa).set i p), ?_, ?_, ?_, ?_⟩
      · simp only [C.bind_run, hbuf, hpa, ptr_addN, e1, e2, e3, hes, hcpy, loadW_ok hp, hst]
      · exact frame_trans hf (frame_trans (frame_upd (by omega) (by omega) (by omega)) (frame_updW (by omega)))
      · intro k hk
        rw [Mem.updW_words, if_pos rfl]
        by_cases hki : k = i
        · subst hki
          rw [List.getElem?_set_self (by simp only [hm1, Mem.upd_words]; omega), if_pos (by omega)]
          have := hw (k + 1) hi
          rw [if_neg (by omega)] at this
          rw [← this, hpdef, List.getElem?_eq_getElem]
        · rw [List.getElem?_set_ne (Ne.symm hki)]
          simp only [hm1, Mem.upd_words]
          rw [hw k hk]
          split_ifs <;> first | rfl | (exfalso; omega)
      · intro k hk
        rw [Mem.updW_bytes, hm1, Mem.upd_bytes, if_pos rfl]
        by_cases hki : k = i
        · subst hki
          have := slice_splice_same (m'.bytes bb) (bo + k * esz) s (by omega)
          rw [hsl] at this
          rw [this, if_pos (by omega), hs, hb (k + 1) hi, if_neg (by omega)]
        · have hd := slot_disj esz hki
          rw [slice_splice_disj _ _ _ _ _ (by omega) (by omega), hb k hk]
          split_ifs <;> first | rfl | (exfalso; omega))
  obtain ⟨_, m', h1, h2, h3, h4⟩ := key
  rw [show idx + (cur - idx) = cur by omega] at h3 h4
  exact ⟨m', h1, h2, h3, h4⟩

/-- Removing the entry behind `pre`: sizes and contents afterwards. -/
theorem shift_rep {pre post : List PItem} {x : PItem} (h : Rep cap esz bb bo pa q m (pre ++ x :: post)) :
    ∃ m', shiftDown { q with size := q.size - 1#32 } (BitVec.ofNat 32 pre.length) (q.size - 1#32) m = .ok () m' ∧
      PQFrame m m' bb bo (cap * esz) pa cap 0 0 0 ∧
      Rep cap esz bb bo pa { q with size := q.size - 1#32 } m' (pre ++ post) := by
  have hcl := h.cap_lt
  have hsz := h.size_eq
  have hle := h.size_le
  simp only [List.length_append, List.length_cons] at hsz hle
  have hs1 : (q.size - 1#32).toNat = pre.length + post.length := by
    rw [BitVec.toNat_sub]; simp only [BitVec.toNat_ofNat]; omega
  have hs2 : q.size - 1#32 = BitVec.ofNat 32 (pre.length + post.length) := by
    apply BitVec.eq_of_toNat_eq; rw [hs1, ofNat_toNat (by omega)]
  obtain ⟨m', h1, h2, h3, h4⟩ := shiftDown_ok (q := { q with size := q.size - 1#32 }) h.hbuf h.hpa h.hes
    h.lim hcl h.hlen h.hwlen pre.length (pre.length + post.length) (by omega) (by omega)
  have hget : ∀ (k : Nat) (y : PItem), (pre ++ post)[k]? = some y →
      k < pre.length + post.length ∧ (pre ++ x :: post)[if k < pre.length then k else k + 1]? = some y := by
    intro k y hk
    have hkl := (List.getElem?_eq_some_iff.1 hk).1
    rw [List.length_append] at hkl
    refine ⟨hkl, ?_⟩
    split
    · rename_i hlt
      rw [List.getElem?_append_left hlt] at hk ⊢; exact hk
    · rename_i hge
      rw [List.getElem?_append_right (by omega)] at hk
      rw [List.getElem?_append_right (by omega), show k + 1 - pre.length = (k - pre.length) + 1 by omega,
        List.getElem?_cons_succ]
      exact hk
  refine ⟨m', by rw [hs2] at h1 ⊢; exact h1, h2, ?_⟩
  refine { hcap := h.hcap, cap_pos := h.cap_pos, hes := h.hes, esz_pos := h.esz_pos, lim := h.lim,
           hbuf := h.hbuf, hpa := h.hpa, hlen := ?_, hwlen := ?_, size_eq := ?_, size_le := ?_, prio := ?_,
           content := ?_ }
  · rw [h2.2.2.2.1]; exact h.hlen
  · rw [h2.2.1]; exact h.hwlen
  · show (q.size - 1#32).toNat = _
    rw [hs1, List.length_append]
  · rw [List.length_append]; omega
  · intro k y hk
    obtain ⟨hkl, hg⟩ := hget k y hk
    rw [h3 k (by omega)]
    have := h.prio _ y hg
    by_cases hlt : k < pre.length
    · rw [if_pos hlt] at this; rw [if_neg (by omega)]; exact this
    · rw [if_neg hlt] at this; rw [if_pos (by omega)]; exact this
  · intro k y hk
    obtain ⟨hkl, hg⟩ := hget k y hk
    rw [h4 k (by omega)]
    have := h.content _ y hg
    by_cases hlt : k < pre.length
    · rw [if_pos hlt] at this; rw [if_neg (by omega)]; exact this
    · rw [if_neg hlt] at this; rw [if_pos (by omega)]; exact this

/-- Appending an entry when there is room. -/
theorem append_rep (h : Rep cap esz bb bo pa q m xs) (hroom : xs.length < cap) (p : U32)
    (eb eo : Nat) (hne : eb ≠ bb ∨ eo + esz ≤ bo + xs.length * esz ∨ bo + xs.length * esz + esz ≤ eo) (he : eo + esz ≤ (m.bytes eb).length) :
    ∃ m', (do
        memcpy (q.buffer.addN (q.size * q.element_size).toNat) (ptr eb eo) q.element_size.toNat
        storeW q.priority_array q.size.toNat p : C Unit) m = .ok () m' ∧
      PQFrame m m' bb bo (cap * esz) pa cap 0 0 0 ∧
      Rep cap esz bb bo pa { q with size := q.size + 1#32 } m' (xs ++ [(p, slice (m.bytes eb) eo esz)]) := by
  have hcl := h.cap_lt
  have hwl := h.hwlen
  have hb := h.hlen
  have hmul : (q.size * q.element_size).toNat = xs.length * esz := mul_toNat h.size_eq h.hes hroom h.lim
  have hsl := slot_le esz hroom
  set e := slice (m.bytes eb) eo esz with hedef
  have hlen : e.length = esz := slice_length _ _ _ he
  have hcpy := memcpy_ok (b := bb) (o := bo + xs.length * esz) (b' := eb) (o' := eo) (n := esz) (m := m)
    (by omega) he (by omega)
  rw [← hedef] at hcpy
  set m1 := m.upd bb (splice (m.bytes bb) (bo + xs.length * esz) e) with hm1
  have hst := storeW_ok (b := pa) (i := xs.length) (m := m1) (v := p)
    (show xs.length < (m1.words pa).length by simp only [hm1, Mem.upd_words]; omega)
  have hfr : PQFrame m (m1.updW pa ((m1.words pa).set xs.length p)) bb bo (cap * esz) pa cap 0 0 0 :=
    frame_trans (frame_upd (by omega) (by omega) (by omega)) (frame_updW (by omega))
  have hget : ∀ (k : Nat) (y : PItem), (xs ++ [(p, e)])[k]? = some y →
      (k < xs.length ∧ xs[k]? = some y) ∨ (k = xs.length ∧ y = (p, e)) := by
    intro k y hk
    have hkl := (List.getElem?_eq_some_iff.1 hk).1
    simp at hkl
    by_cases hlt : k < xs.length
    · rw [List.getElem?_append_left hlt] at hk; exact .inl ⟨hlt, hk⟩
    · have hke : k = xs.length := by omega
      subst hke
      rw [List.getElem?_append_right (by omega)] at hk
      simp at hk
      exact .inr ⟨rfl, hk.symm⟩
  refine ⟨m1.updW pa ((m1.words pa).set xs.length p), ?_, hfr, ?_⟩
  · simp only [C.bind_run, h.hbuf, h.hpa, ptr_addN, hmul, h.hes, hcpy, h.size_eq, hst]
  · refine { hcap := h.hcap, cap_pos := h.cap_pos, hes := h.hes, esz_pos := h.esz_pos, lim := h.lim,
             hbuf := h.hbuf, hpa := h.hpa, hlen := ?_, hwlen := ?_, size_eq := ?_, size_le := ?_, prio := ?_,
             content := ?_ }
    · rw [hfr.2.2.2.1]; exact hb
    · rw [hfr.2.1]; exact hwl
    · show (q.size + 1#32).toNat = _
      rw [BitVec.toNat_add, h.size_eq, List.length_append]
      simp only [BitVec.toNat_ofNat, List.length_singleton]; omega
    · rw [List.length_append, List.length_singleton]; omega
    · intro k y hk
      rw [Mem.updW_words, if_pos rfl]
      rcases hget k y hk with ⟨hlt, hk⟩ | ⟨rfl, rfl⟩
      · rw [List.getElem?_set_ne (by omega)]; exact h.prio k y hk
      · rw [List.getElem?_set_self (by simp only [hm1, Mem.upd_words]; omega)]
    · intro k y hk
      rw [Mem.updW_bytes, hm1, Mem.upd_bytes, if_pos rfl]
      rcases hget k y hk with ⟨hlt, hk⟩ | ⟨rfl, rfl⟩
      · have hd := slot_disj esz (show k ≠ xs.length by omega)
        rw [slice_splice_disj _ _ _ _ _ (by omega) (by omega)]
        exact h.content k y hk
      · have := slice_splice_same (m.bytes bb) (bo + xs.length * esz) e (by omega)
        rw [hlen] at this; exact this

theorem enqueue_ok (h : Rep cap esz bb bo pa q m xs) (p : U32)
    (eb eo : Nat) (hne : eb ≠ bb) (he : eo + esz ≤ (m.bytes eb).length) :
    ∃ r q' m' out xs', enqueue q (ptr eb eo) p m = .ok (r, q') m' ∧
      PQStep cap xs (.enq p (slice (m.bytes eb) eo esz)) (r, none) out xs' ∧
      Rep cap esz bb bo pa q' m' xs' ∧ PQFrame m m' bb bo (cap * esz) pa cap 0 0 0 := by
  by_cases hroom : xs.length < cap
  · obtain ⟨m', h1, h2, h3⟩ := append_rep h hroom p eb eo (.inl hne) he
    refine ⟨true, { q with size := q.size + 1#32 }, m', [], _, ?_, .enq hroom, h3, h2⟩
    unfold enqueue
    rw [h.full_iff, decide_eq_false (by omega)]
    simp only [Bool.not_false, if_true, C.bind_run, C.pure_run] at h1 ⊢
    cases hm : memcpy (q.buffer.addN (q.size * q.element_size).toNat) (ptr eb eo) q.element_size.toNat m with
    | ub e => rw [hm] at h1; simp at h1
    | ok v m1 => rw [hm] at h1; simp only at h1 ⊢; rw [h1]
  · have hfull : xs.length = cap := by have := h.size_le; omega
    have hcp := h.cap_pos
    obtain ⟨pre, x, post, rfl, hpre, hpost, hlow⟩ := lowest_ok h (by intro h0; rw [h0] at hfull; simp at hfull; omega)
    have hprl : pre.length < cap := by simp at hfull; omega
    have hld : loadW q.priority_array (BitVec.ofNat 32 pre.length).toNat m = .ok x.1 m := by
      have := h.cap_lt
      rw [ofNat_toNat (by omega), h.hpa]
      exact loadW_ok (h.prio _ x (by simp))
    by_cases hlt : x.1 < p
    · obtain ⟨m1, h1, h2, h3⟩ := shift_rep h
      have hle1 : eo + esz ≤ (m1.bytes eb).length := by rw [h2.2.2.2.1]; exact he
      have hsame : slice (m1.bytes eb) eo esz = slice (m.bytes eb) eo esz := by
        have : m1.bytes eb = m.bytes eb := by
          apply List.ext_getElem?; intro i
          exact h2.2.2.2.2 eb i (by intro hc; exact hne hc.1) (by omega)
        rw [this]
      obtain ⟨m', g1, g2, g3⟩ := append_rep h3 (by simp at hfull ⊢; omega) p eb eo (.inl hne) hle1
      rw [hsame] at g3
      refine ⟨true, _, m', [x], _, ?_, .evict hfull hpre hpost hlt, g3, frame_trans h2 g2⟩
      unfold enqueue
      rw [h.full_iff, decide_eq_true hfull]
      simp only [Bool.not_true, Bool.false_eq_true, if_false, C.bind_run, hlow, hld, if_pos hlt, h1, C.pure_run]
      simp only [C.bind_run] at g1
      cases hm : memcpy (q.buffer.addN ((q.size - 1#32) * q.element_size).toNat) (ptr eb eo)
          q.element_size.toNat m1 with
      | ub e => rw [hm] at g1; simp at g1
      | ok v m2 => rw [hm] at g1; simp only at g1 ⊢; rw [g1]
    · refine ⟨false, q, m, [], _, ?_, .reject hfull ?_, h, frame_refl ..⟩
      · unfold enqueue
        rw [h.full_iff, decide_eq_true hfull]
        simp only [Bool.not_true, Bool.false_eq_true, if_false, C.bind_run, hlow, hld, if_neg hlt, C.pure_run]
      · intro y hy
        have hpx : p ≤ x.1 := by simpa using hlt
        simp only [List.mem_append, List.mem_cons] at hy
        rcases hy with hy | rfl | hy
        · have := hpre y hy
          simp only [BitVec.le_def, BitVec.lt_def] at *; omega
        · exact hpx
        · have := hpost y hy
          simp only [BitVec.le_def] at *; omega

theorem dequeue_ok (h : Rep cap esz bb bo pa q m xs)
    (eb eo : Nat) (hne : eb ≠ bb) (he : eo + esz ≤ (m.bytes eb).length) :
    ∃ r q' m' out xs', dequeue q (ptr eb eo) m = .ok (r, q') m' ∧
      PQStep cap xs .deq (r, if r then some (slice (m'.bytes eb) eo esz) else none) out xs' ∧
      Rep cap esz bb bo pa q' m' xs' ∧ PQFrame m m' bb bo (cap * esz) pa cap eb eo esz := by
  by_cases hxs : xs = []
  · subst hxs
    refine ⟨false, q, m, [], [], ?_, .deqEmpty, h, frame_refl ..⟩
    unfold dequeue
    rw [h.empty_iff, decide_eq_true rfl]
    simp only [Bool.not_true, Bool.false_eq_true, if_false, C.pure_run]
  · obtain ⟨pre, x, post, rfl, hpre, hpost, hhigh⟩ := highest_ok h hxs
    have hcl := h.cap_lt
    have hb := h.hlen
    have hprl : pre.length < cap := by have := h.size_le; simp at this; omega
    have hmul : (BitVec.ofNat 32 pre.length * q.element_size).toNat = pre.length * esz :=
      mul_toNat (ofNat_toNat (by omega)) h.hes hprl h.lim
    have hsl := slot_le esz hprl
    have hcpy := memcpy_ok (b := eb) (o := eo) (b' := bb) (o' := bo + pre.length * esz) (n := esz) (m := m)
      he (by omega) (.inl hne)
    rw [h.content pre.length x (by simp)] at hcpy
    have hxl : x.2.length = esz := by
      rw [← h.content pre.length x (by simp)]; exact slice_length _ _ _ (by omega)
    set m1 := m.upd eb (splice (m.bytes eb) eo x.2) with hm1
    have hr1 : Rep cap esz bb bo pa q m1 (pre ++ x :: post) :=
      h.of_eq (by simp [hm1, Ne.symm hne]) rfl
    obtain ⟨m', h1, h2, h3⟩ := shift_rep hr1
    have hel : slice (m'.bytes eb) eo esz = x.2 := by
      have : m'.bytes eb = m1.bytes eb := by
        apply List.ext_getElem?; intro i
        exact h2.2.2.2.2 eb i (by intro hc; exact hne hc.1) (by omega)
      rw [this, hm1, Mem.upd_bytes, if_pos rfl]
      have := slice_splice_same (m.bytes eb) eo x.2 (by omega)
      rw [hxl] at this; exact this
    refine ⟨true, { q with size := q.size - 1#32 }, m', [x], pre ++ post, ?_, ?_, h3, ?_⟩
    · unfold dequeue
      rw [h.empty_iff, decide_eq_false hxs]
      simp only [Bool.not_false, if_true, C.bind_run, hhigh, h.hbuf, ptr_addN, hmul, h.hes, hcpy, C.pure_run]
      simp only [h.hbuf] at h1
      rw [h1]
    · rw [if_pos rfl, hel]; exact .deq hpre hpost
    · refine frame_trans ?_ (frame_weaken h2)
      refine ⟨fun _ _ => rfl, rfl, fun _ _ => rfl, ?_, ?_⟩
      · intro y
        rw [hm1, Mem.upd_bytes]; split
        · subst y; rw [splice_length _ _ _ (by omega)]
        · rfl
      · intro y i _ hy
        rw [hm1, Mem.upd_bytes]; split
        · subst y
          rw [getElem?_splice _ _ _ (by omega)]
          split_ifs <;> first | rfl | (exfalso; omega)
        · rfl

end
end IMU.PQ
