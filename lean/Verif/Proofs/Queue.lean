import Verif.Proofs.Frame
import Verif.Model.Queue
import Verif.Spec.Queue

namespace IMU.Queue
open Spec Utils

/-- The queue `q` with its buffer in memory `m` stores the elements `xs`, oldest first. -/
structure Rep (cap esz bb bo : Nat) (q : Queue) (m : Mem) (xs : List (List Byte)) : Prop where
  hcap : q.capacity.toNat = cap
  cap_pos : 0 < cap
  hes : q.element_size.toNat = esz
  esz_pos : 0 < esz
  lim : (cap - 1) * esz < 2 ^ 32
  hbuf : q.buffer = ptr bb bo
  hlen : bo + cap * esz ≤ (m.bytes bb).length
  front_lt : q.front.toNat < cap
  rear_lt : q.rear.toNat < cap
  rear_eq : (q.rear.toNat + 1) % cap = (q.front.toNat + xs.length) % cap
  size_eq : q.size.toNat = xs.length
  size_le : xs.length ≤ cap
  content : ∀ k x, xs[k]? = some x →
    slice (m.bytes bb) (bo + ((q.front.toNat + k) % cap) * esz) esz = x

theorem mod_cases {a b c : Nat} (ha : a < c) (hb : b ≤ c) :
    (a + b) % c = if a + b < c then a + b else a + b - c := by
  split
  · exact Nat.mod_eq_of_lt ‹_›
  · rw [Nat.mod_eq_sub_mod (by omega), Nat.mod_eq_of_lt (by omega)]

theorem slot_le {i cap : Nat} (esz : Nat) (h : i < cap) : i * esz + esz ≤ cap * esz := by
  have : (i + 1) * esz ≤ cap * esz := Nat.mul_le_mul_right _ h
  rw [Nat.add_mul] at this; omega

theorem slot_disj {i j : Nat} (esz : Nat) (h : i ≠ j) :
    i * esz + esz ≤ j * esz ∨ j * esz + esz ≤ i * esz := by
  rcases Nat.lt_or_gt_of_ne h with h | h
  · exact .inl (slot_le esz h)
  · exact .inr (slot_le esz h)

theorem slot_lt {i cap esz : Nat} (hi : i < cap) (hl : (cap - 1) * esz < 2 ^ 32) :
    i * esz < 2 ^ 32 :=
  Nat.lt_of_le_of_lt (Nat.mul_le_mul_right _ (by omega)) hl

theorem mul_toNat {a b : U32} {i e cap : Nat} (ha : a.toNat = i) (hb : b.toNat = e) (hi : i < cap)
    (hl : (cap - 1) * e < 2 ^ 32) : (a * b).toNat = i * e := by
  rw [BitVec.toNat_mul, ha, hb, Nat.mod_eq_of_lt (slot_lt hi hl)]

section
variable {cap esz bb bo : Nat} {q : Queue} {m : Mem} {xs : List (List Byte)}

theorem Rep.cap_lt (h : Rep cap esz bb bo q m xs) : cap < 2 ^ 32 := by
  rw [← h.hcap]; exact q.capacity.isLt

theorem Rep.full_iff (h : Rep cap esz bb bo q m xs) : full q = decide (xs.length = cap) := by
  unfold full
  rw [Bool.eq_iff_iff, beq_iff_eq, decide_eq_true_iff, ← h.size_eq, ← h.hcap, BitVec.toNat_inj]

theorem Rep.empty_iff (h : Rep cap esz bb bo q m xs) : empty q = decide (xs = []) := by
  unfold empty
  rw [Bool.eq_iff_iff, beq_iff_eq, decide_eq_true_iff, ← List.length_eq_zero_iff, ← h.size_eq,
    ← BitVec.toNat_inj]
  rfl

theorem Rep.cap_ne (h : Rep cap esz bb bo q m xs) : q.capacity ≠ 0#32 := by
  intro hc
  have := h.hcap; rw [hc] at this
  have := h.cap_pos
  simp at *; omega

/-- The representation only depends on the bytes of the buffer. -/
theorem Rep.of_eq (h : Rep cap esz bb bo q m xs) {m' : Mem} (he : m'.bytes bb = m.bytes bb) :
    Rep cap esz bb bo q m' xs :=
  { h with hlen := by rw [he]; exact h.hlen, content := by rw [he]; exact h.content }

theorem rear_succ (h : Rep cap esz bb bo q m xs) :
    ((q.rear + 1#32) % q.capacity).toNat = (q.front.toNat + xs.length) % cap := by
  have h1 := h.cap_lt
  have h2 := h.rear_lt
  rw [BitVec.toNat_umod, BitVec.toNat_add, h.hcap, ← h.rear_eq]
  congr 1
  simp only [BitVec.toNat_ofNat]; omega

/-- Enqueue into a queue with room. -/
theorem enqueue_apart (h : Rep cap esz bb bo q m xs) (hroom : xs.length < cap) (eb eo : Nat)
    (hne : eb ≠ bb ∨ eo + esz ≤ bo + ((q.front.toNat + xs.length) % cap) * esz ∨
      bo + ((q.front.toNat + xs.length) % cap) * esz + esz ≤ eo) (he : eo + esz ≤ (m.bytes eb).length) :
    ∃ q' m', enqueue (some q) (some (ptr eb eo)) m = .ok (true, some q') m' ∧
      Rep cap esz bb bo q' m' (xs ++ [slice (m.bytes eb) eo esz]) ∧
      OnlyChanged m m' bb bo (cap * esz) := by
  have hrs := rear_succ h
  have hfl := h.front_lt
  have hcp := h.cap_pos
  have hi : (q.front.toNat + xs.length) % cap < cap := Nat.mod_lt _ hcp
  generalize hidx : (q.front.toNat + xs.length) % cap = i at *
  have hmul : (((q.rear + 1#32) % q.capacity) * q.element_size).toNat = i * esz :=
    mul_toNat hrs h.hes hi h.lim
  have hsl := slot_le esz hi
  have hb := h.hlen
  have hlen : (slice (m.bytes eb) eo esz).length = esz := slice_length _ _ _ he
  have hcpy := memcpy_ok (b := bb) (o := bo + i * esz) (b' := eb) (o' := eo) (n := esz) (m := m)
    (by omega) he (by omega)
  refine ⟨{ q with rear := (q.rear + 1#32) % q.capacity, size := q.size + 1#32 },
    m.upd bb (splice (m.bytes bb) (bo + i * esz) (slice (m.bytes eb) eo esz)), ?_, ?_, ?_⟩
  · simp only [enqueue]
    rw [h.full_iff, decide_eq_false (by omega)]
    simp only [Bool.not_false, if_true, C.bind_run, C.require_ok h.cap_ne, C.pure_run, hmul, h.hes, h.hbuf,
      ptr_addN, hcpy]
  · refine { hcap := h.hcap, cap_pos := h.cap_pos, hes := h.hes, esz_pos := h.esz_pos, lim := h.lim,
             hbuf := h.hbuf, hlen := ?_, front_lt := h.front_lt, rear_lt := ?_, rear_eq := ?_,
             size_eq := ?_, size_le := ?_, content := ?_ }
    · simp only [Mem.upd_bytes, if_true]
      rw [splice_length _ _ _ (by omega)]; exact hb
    · show ((q.rear + 1#32) % q.capacity).toNat < cap
      rw [hrs]; exact hi
    · show (((q.rear + 1#32) % q.capacity).toNat + 1) % cap = _
      rw [hrs, ← hidx, List.length_append, List.length_singleton]
      rw [Nat.mod_add_mod, Nat.add_assoc]
    · show (q.size + 1#32).toNat = _
      rw [BitVec.toNat_add, h.size_eq, List.length_append, List.length_singleton]
      have := h.cap_lt
      simp only [BitVec.toNat_ofNat]; omega
    · rw [List.length_append, List.length_singleton]; omega
    · intro k x hk
      simp only [Mem.upd_bytes, if_true]
      have hkl : k < xs.length + 1 := by
        have := (List.getElem?_eq_some_iff.1 hk).1; simpa using this
      by_cases hkx : k < xs.length
      · rw [List.getElem?_append_left hkx] at hk
        rw [slice_splice_disj _ _ _ _ _ (by omega)]
        · exact h.content k x hk
        · rw [hlen]
          have hne' : (q.front.toNat + k) % cap ≠ i := by
            rw [← hidx, mod_cases hfl (by omega), mod_cases hfl (by omega)]
            split <;> split <;> omega
          have := slot_disj esz hne'
          omega
      · have : k = xs.length := by omega
        subst this
        rw [List.getElem?_append_right (by omega)] at hk
        simp at hk
        rw [hidx]
        have := slice_splice_same (m.bytes bb) (bo + i * esz) (slice (m.bytes eb) eo esz) (by omega)
        rw [hlen] at this
        rw [this, hk]
  · have := onlyChanged_splice m bb (bo + i * esz) (slice (m.bytes eb) eo esz) (by omega)
    rw [hlen] at this
    refine ⟨this.1, this.2.1, this.2.2.1, fun j hj => this.2.2.2 j (by omega)⟩

theorem enqueue_ok (h : Rep cap esz bb bo q m xs) (hroom : xs.length < cap)
    (eb eo : Nat) (hne : eb ≠ bb) (he : eo + esz ≤ (m.bytes eb).length) :
    ∃ q' m', enqueue (some q) (some (ptr eb eo)) m = .ok (true, some q') m' ∧
      Rep cap esz bb bo q' m' (xs ++ [slice (m.bytes eb) eo esz]) ∧
      OnlyChanged m m' bb bo (cap * esz) := enqueue_apart h hroom eb eo (.inl hne) he

theorem enqueue_full (h : Rep cap esz bb bo q m xs) (hf : xs.length = cap) (el : Ptr) :
    enqueue (some q) (some el) m = .ok (false, some q) m := by
  simp only [enqueue]
  rw [h.full_iff, decide_eq_true hf]
  rfl

/-- Copying out the slot `i` of the buffer. -/
theorem copy_out (h : Rep cap esz bb bo q m xs) (a : U32) (i : Nat) (ha : a.toNat = i) (hi : i < cap)
    (eb eo : Nat) (hne : eb ≠ bb) (he : eo + esz ≤ (m.bytes eb).length) :
    ∃ m', memcpy (ptr eb eo) (q.buffer.addN (a * q.element_size).toNat) q.element_size.toNat m =
        .ok () m' ∧
      slice (m'.bytes eb) eo esz = slice (m.bytes bb) (bo + i * esz) esz ∧
      OnlyChanged m m' eb eo esz := by
  have hmul := mul_toNat ha h.hes hi h.lim
  have hsl := slot_le esz hi
  have hb := h.hlen
  have hlen : (slice (m.bytes bb) (bo + i * esz) esz).length = esz := slice_length _ _ _ (by omega)
  refine ⟨m.upd eb (splice (m.bytes eb) eo (slice (m.bytes bb) (bo + i * esz) esz)), ?_, ?_, ?_⟩
  · rw [hmul, h.hes, h.hbuf, ptr_addN]
    exact memcpy_ok he (by omega) (.inl hne)
  · have := slice_splice_same (m.bytes eb) eo (slice (m.bytes bb) (bo + i * esz) esz) (by omega)
    rw [hlen] at this
    simp only [Mem.upd_bytes, if_true]; exact this
  · have := onlyChanged_splice m eb eo (slice (m.bytes bb) (bo + i * esz) esz) (by omega)
    rw [hlen] at this
    exact this

theorem dequeue_ok {x : List Byte} (h : Rep cap esz bb bo q m (x :: xs))
    (eb eo : Nat) (hne : eb ≠ bb) (he : eo + esz ≤ (m.bytes eb).length) :
    ∃ q' m', dequeue (some q) (some (ptr eb eo)) m = .ok (true, some q') m' ∧
      Rep cap esz bb bo q' m' xs ∧ slice (m'.bytes eb) eo esz = x ∧
      OnlyChanged m m' eb eo esz := by
  obtain ⟨m', h1, h2, h3⟩ := copy_out h q.front q.front.toNat rfl h.front_lt eb eo hne he
  have hx := h.content 0 x rfl
  rw [Nat.add_zero, Nat.mod_eq_of_lt h.front_lt] at hx
  have hcl := h.cap_lt
  have hfl := h.front_lt
  have hcp := h.cap_pos
  have hsl := h.size_le
  have hse := h.size_eq
  rw [List.length_cons] at hsl hse
  have hfront : ((q.front + 1#32) % q.capacity).toNat = (q.front.toNat + 1) % cap := by
    rw [BitVec.toNat_umod, BitVec.toNat_add, h.hcap]
    congr 1
    simp only [BitVec.toNat_ofNat]; omega
  refine ⟨{ q with front := (q.front + 1#32) % q.capacity, size := q.size - 1#32 }, m', ?_, ?_, h2.trans hx, h3⟩
  · simp only [dequeue]
    rw [h.empty_iff, decide_eq_false (by simp)]
    simp only [Bool.not_false, if_true, C.bind_run, h1, C.require_ok h.cap_ne, C.pure_run]
  · have hmb : m'.bytes bb = m.bytes bb := h3.2.1 bb (Ne.symm hne)
    refine { hcap := h.hcap, cap_pos := h.cap_pos, hes := h.hes, esz_pos := h.esz_pos, lim := h.lim,
             hbuf := h.hbuf, hlen := ?_, front_lt := ?_, rear_lt := h.rear_lt, rear_eq := ?_,
             size_eq := ?_, size_le := ?_, content := ?_ }
    · rw [hmb]; exact h.hlen
    · show ((q.front + 1#32) % q.capacity).toNat < cap
      rw [hfront]; exact Nat.mod_lt _ hcp
    · show (q.rear.toNat + 1) % cap = (((q.front + 1#32) % q.capacity).toNat + xs.length) % cap
      rw [hfront, h.rear_eq, List.length_cons, Nat.mod_add_mod]
      congr 1; omega
    · show (q.size - 1#32).toNat = _
      rw [BitVec.toNat_sub, hse]
      simp only [BitVec.toNat_ofNat]; omega
    · omega
    · intro k y hk
      rw [hmb]
      show slice _ (bo + ((((q.front + 1#32) % q.capacity).toNat + k) % cap) * esz) esz = y
      rw [hfront, Nat.mod_add_mod, show q.front.toNat + 1 + k = q.front.toNat + (k+1) by omega]
      exact h.content (k+1) y (by simpa using hk)

theorem dequeue_empty (h : Rep cap esz bb bo q m []) (el : Ptr) :
    dequeue (some q) (some el) m = .ok (false, some q) m := by
  simp only [dequeue]
  rw [h.empty_iff, decide_eq_true rfl]
  rfl

theorem front_ok {x : List Byte} (h : Rep cap esz bb bo q m (x :: xs))
    (eb eo : Nat) (hne : eb ≠ bb) (he : eo + esz ≤ (m.bytes eb).length) :
    ∃ m', front (some q) (some (ptr eb eo)) m = .ok true m' ∧
      slice (m'.bytes eb) eo esz = x ∧ OnlyChanged m m' eb eo esz := by
  obtain ⟨m', h1, h2, h3⟩ := copy_out h q.front q.front.toNat rfl h.front_lt eb eo hne he
  have hx := h.content 0 x rfl
  rw [Nat.add_zero, Nat.mod_eq_of_lt h.front_lt] at hx
  refine ⟨m', ?_, h2.trans hx, h3⟩
  simp only [front]
  rw [h.empty_iff, decide_eq_false (by simp)]
  simp only [Bool.not_false, if_true, C.bind_run, h1, C.pure_run]

theorem rear_ok {x : List Byte} (h : Rep cap esz bb bo q m (xs ++ [x]))
    (eb eo : Nat) (hne : eb ≠ bb) (he : eo + esz ≤ (m.bytes eb).length) :
    ∃ m', rear (some q) (some (ptr eb eo)) m = .ok true m' ∧
      slice (m'.bytes eb) eo esz = x ∧ OnlyChanged m m' eb eo esz := by
  obtain ⟨m', h1, h2, h3⟩ := copy_out h q.rear q.rear.toNat rfl h.rear_lt eb eo hne he
  have hx := h.content xs.length x (by simp)
  have hr : (q.front.toNat + xs.length) % cap = q.rear.toNat := by
    have e := h.rear_eq
    have hfl := h.front_lt
    have hrl := h.rear_lt
    have hsl := h.size_le
    rw [List.length_append, List.length_singleton] at e hsl
    rw [mod_cases hrl (by omega), mod_cases hfl (by omega)] at e
    rw [mod_cases hfl (by omega)]
    split at e <;> split at e <;> split <;> omega
  rw [hr] at hx
  refine ⟨m', ?_, h2.trans hx, h3⟩
  simp only [rear]
  rw [h.empty_iff, decide_eq_false (by simp)]
  simp only [Bool.not_false, if_true, C.bind_run, h1, C.pure_run]

theorem front_empty (h : Rep cap esz bb bo q m []) (el : Ptr) :
    front (some q) (some el) m = .ok false m := by
  simp only [front]
  rw [h.empty_iff, decide_eq_true rfl]; rfl

theorem rear_empty (h : Rep cap esz bb bo q m []) (el : Ptr) :
    rear (some q) (some el) m = .ok false m := by
  simp only [rear]
  rw [h.empty_iff, decide_eq_true rfl]; rfl

end

/-- A freshly initialised queue is empty. -/
theorem init_rep (q0 q : Queue) (cap es : U32) (bb bo : Nat) (m m' : Mem)
    (h : init (some q0) cap es (some (ptr bb bo)) m = .ok (true, some q) m')
    (hlim : (cap.toNat - 1) * es.toNat < 2 ^ 32)
    (hbuf : bo + cap.toNat * es.toNat ≤ (m.bytes bb).length) :
    m' = m ∧ Rep cap.toNat es.toNat bb bo q m [] := by
  unfold init at h
  simp only at h
  split at h
  · rename_i hc
    simp only [C.pure_run, Res.ok.injEq, Prod.mk.injEq, Option.some.injEq, true_and] at h
    obtain ⟨rfl, rfl⟩ := h
    have h1 : cap.toNat ≠ 0 := fun h => hc.2 (BitVec.eq_of_toNat_eq (by simpa using h))
    have h2 : es.toNat ≠ 0 := fun h => hc.1 (BitVec.eq_of_toNat_eq (by simpa using h))
    have hcl := cap.isLt
    have hr : (cap - 1#32).toNat = cap.toNat - 1 := by
      rw [BitVec.toNat_sub]; simp only [BitVec.toNat_ofNat]; omega
    refine ⟨rfl, ?_⟩
    refine { hcap := rfl, cap_pos := by omega, hes := rfl, esz_pos := by omega, lim := hlim,
             hbuf := rfl, hlen := hbuf, front_lt := ?_, rear_lt := ?_, rear_eq := ?_, size_eq := rfl,
             size_le := by simp, content := by simp }
    · show (0#32).toNat < cap.toNat
      simp; omega
    · show (cap - 1#32).toNat < cap.toNat
      omega
    · show ((cap - 1#32).toNat + 1) % cap.toNat = ((0#32).toNat + 0) % cap.toNat
      rw [hr, show cap.toNat - 1 + 1 = cap.toNat by omega]; simp
  · simp at h

end IMU.Queue
