import Verif.Proofs.QueueHistory
import Verif.Proofs.PriorityQueueHistory
import Verif.Proofs.MapOwn
import Verif.Spec.Rollback
import Mathlib.Tactic.ByContra

/-! # Putting back a saved structure -/

namespace IMU.Props
open Spec Utils

section Queue
open IMU.Queue

variable {cap esz bb bo : Nat} {q q0 : Queue} {m : Mem} {xs ys : List (List Byte)}

/-- An accepted element is written to the place behind `rear`. -/
theorem enqueue_place (h : Rep cap esz bb bo q m xs) (hroom : xs.length < cap) (eb eo : Nat) (hne : eb ≠ bb)
    (he : eo + esz ≤ (m.bytes eb).length) :
    enqueue (some q) (some (ptr eb eo)) m =
      .ok (true, some { q with rear := (q.rear + 1#32) % q.capacity, size := q.size + 1#32 })
        (m.upd bb (splice (m.bytes bb) (bo + ((q.rear.toNat + 1) % cap) * esz) (slice (m.bytes eb) eo esz))) := by
  have hrs := rear_succ h
  have hcp := h.cap_pos
  have hi : (q.front.toNat + xs.length) % cap < cap := Nat.mod_lt _ hcp
  rw [h.rear_eq]
  generalize hidx : (q.front.toNat + xs.length) % cap = i at *
  have hmul : (((q.rear + 1#32) % q.capacity) * q.element_size).toNat = i * esz :=
    mul_toNat hrs h.hes hi h.lim
  have hsl := slot_le esz hi
  have hb := h.hlen
  have hcpy := memcpy_ok (b := bb) (o := bo + i * esz) (b' := eb) (o' := eo) (n := esz) (m := m)
    (by omega) he (by omega)
  simp only [enqueue]
  rw [h.full_iff, decide_eq_false (by omega)]
  simp only [Bool.not_false, if_true, C.bind_run, C.require_ok h.cap_ne, C.pure_run, hmul, h.hes, h.hbuf,
    ptr_addN, hcpy]

/-- What the structure `q0` sees of one element written. -/
theorem Rep.written (h : IMU.Queue.Rep cap esz bb bo q0 m ys) (s : Nat) (x : List Byte) (hx : x.length = esz) :
    IMU.Queue.Rep cap esz bb bo q0
      (m.upd bb (splice (m.bytes bb) (bo + ((q0.front.toNat + s) % cap) * esz) x)) (ys.set (s % cap) x) := by
  have hcp := h.cap_pos
  have hi : (q0.front.toNat + s) % cap < cap := Nat.mod_lt _ hcp
  have hsl := slot_le esz hi
  have hb := h.hlen
  have hsc : (q0.front.toNat + s) % cap = (q0.front.toNat + s % cap) % cap := by rw [Nat.add_mod_mod]
  have hs : s % cap < cap := Nat.mod_lt _ hcp
  refine { h with hlen := ?_, rear_eq := ?_, size_eq := ?_, size_le := ?_, content := ?_ }
  · simp only [Mem.upd_bytes, if_true]
    rw [splice_length _ _ _ (by omega)]; exact hb
  · rw [List.length_set]; exact h.rear_eq
  · rw [List.length_set]; exact h.size_eq
  · rw [List.length_set]; exact h.size_le
  · intro k y hk
    simp only [Mem.upd_bytes, if_true]
    have hkl : k < ys.length := by
      have := (List.getElem?_eq_some_iff.1 hk).1; simpa using this
    have hkc : k < cap := by have := h.size_le; omega
    have hkb := slot_le esz (Nat.mod_lt (q0.front.toNat + k) hcp)
    by_cases hks : s % cap = k
    · rw [hks, List.getElem?_set_self hkl] at hk
      obtain rfl := Option.some.inj hk
      rw [hsc, hks]
      have := slice_splice_same (m.bytes bb) (bo + ((q0.front.toNat + k) % cap) * esz) x (by omega)
      rw [hx] at this; exact this
    · rw [List.getElem?_set_ne hks] at hk
      have hne : (q0.front.toNat + k) % cap ≠ (q0.front.toNat + s) % cap := by
        rw [hsc, mod_cases h.front_lt (by omega), mod_cases h.front_lt (by omega)]
        split <;> split <;> omega
      have hd := slot_disj esz hne
      rw [slice_splice_disj _ _ _ _ _ (by omega) (by omega)]
      exact h.content k y hk

theorem dequeue_rear {q' : Queue} {p : Ptr} {m' : Mem} {r : Bool}
    (h : dequeue (some q) (some p) m = .ok (r, some q') m') : q'.rear = q.rear := by
  simp only [dequeue] at h
  by_cases he : empty q = true
  · rw [he] at h
    simp at h
    rw [h.1.2]
  · rw [Bool.not_eq_true] at he
    rw [he] at h
    simp only [Bool.not_false, if_true, C.bind_run] at h
    cases h1 : memcpy p (q.buffer.addN (q.front * q.element_size).toNat) q.element_size.toNat m with
    | ub e => rw [h1] at h; simp at h
    | ok v m1 =>
      rw [h1] at h
      simp only at h
      cases h2 : C.require (q.capacity ≠ 0#32) UB.divByZero m1 with
      | ub e => rw [h2] at h; simp at h
      | ok v m2 =>
        rw [h2] at h
        simp at h
        rw [← h.1.2]

/-- A history of `q`, seen by the structure `q0` of the same buffer. -/
theorem queue_overwrite (cs : List QCall) : ∀ {q : Queue} {m : Mem} {xs ys : List (List Byte)} {s : Nat},
    IMU.Queue.Rep cap esz bb bo q m xs → IMU.Queue.Rep cap esz bb bo q0 m ys →
    (q.rear.toNat + 1) % cap = (q0.front.toNat + s) % cap →
    (∀ c ∈ cs, c.Valid bb esz) →
    ∃ os q' m', execAll bb esz q m cs = some (os, q', m') ∧
      IMU.Queue.Rep cap esz bb bo q0 m' (overwrite cap ys s (taken (cs.map (·.op esz)) os)) := by
  induction cs with
  | nil => intro q m xs ys s _ h0 _ _; exact ⟨[], q, m, rfl, h0⟩
  | cons c cs ih =>
    intro q m xs ys s h h0 hs hv
    have hvc := hv c List.mem_cons_self
    have hvs : ∀ c ∈ cs, c.Valid bb esz := fun c hc => hv c (List.mem_cons_of_mem _ hc)
    obtain ⟨q1, m1, h1, h2, h3⟩ := exec_step h c hvc
    have hm : (c.mem bb m).bytes bb = m.bytes bb := by simp [QCall.mem]
    have quiet : ∀ o, c.exec bb esz q m = some (o, q1, m1) → q1.rear = q.rear → m1.bytes bb = m.bytes bb →
        (∀ os, taken (c.op esz :: cs.map (·.op esz)) (o :: os) = taken (cs.map (·.op esz)) os) →
        ∃ os q' m', execAll bb esz q m (c :: cs) = some (os, q', m') ∧
          IMU.Queue.Rep cap esz bb bo q0 m' (overwrite cap ys s (taken ((c :: cs).map (·.op esz)) os)) := by
      intro o ho hr hb ht
      obtain ⟨os, q', m', g1, g2⟩ := ih (s := s) h2 (h0.of_eq hb) (by rw [hr]; exact hs) hvs
      refine ⟨o :: os, q', m', by simp [execAll, ho, g1], ?_⟩
      rw [List.map_cons, ht]; exact g2
    have hr := h.of_eq hm
    have hwb : (c.mem bb m).bytes c.blk = c.w.bytes c.blk := by simp [QCall.mem, hvc.1]
    have hve : c.off + esz ≤ ((c.mem bb m).bytes c.blk).length := by rw [hwb]; exact hvc.2
    cases hk : c.kind with
    | enq =>
      have hop : c.op esz = .enq (slice (c.w.bytes c.blk) c.off esz) := by simp only [QCall.op, hk]
      by_cases hf : xs.length < cap
      · have he := enqueue_place hr hf c.blk c.off hvc.1 hve
        have hx : c.exec bb esz q m = some ((true, none),
            { q with rear := (q.rear + 1#32) % q.capacity, size := q.size + 1#32 },
            (c.mem bb m).upd bb (splice ((c.mem bb m).bytes bb) (bo + ((q.rear.toNat + 1) % cap) * esz)
              (slice ((c.mem bb m).bytes c.blk) c.off esz))) := by
          simp only [QCall.exec, hk, he]
        rw [hx] at h1
        simp only [Option.some.injEq, Prod.mk.injEq] at h1
        obtain ⟨-, rfl, rfl⟩ := h1
        have hrs := rear_succ h
        rw [← h.rear_eq] at hrs
        have g0 := Rep.written (h0.of_eq hm) s (slice (c.w.bytes c.blk) c.off esz) (slice_length _ _ _ hvc.2)
        rw [← hs] at g0
        rw [hwb] at h2 hx
        obtain ⟨os, q', m', g1, g2⟩ := ih (s := s + 1) h2 g0 (by
          show (((q.rear + 1#32) % q.capacity).toNat + 1) % cap = _
          rw [hrs, Nat.mod_add_mod, ← Nat.add_assoc, Nat.add_mod, hs, ← Nat.add_mod]) hvs
        refine ⟨(true, none) :: os, q', m', by simp [execAll, hx, g1], ?_⟩
        rw [List.map_cons, hop]
        simp only [taken, if_true, overwrite]
        exact g2
      · have he := enqueue_full hr (by have := h.size_le; omega) (ptr c.blk c.off)
        have hx : c.exec bb esz q m = some ((false, none), q, c.mem bb m) := by
          simp only [QCall.exec, hk, he]
        rw [hx] at h1
        simp only [Option.some.injEq, Prod.mk.injEq] at h1
        obtain ⟨-, rfl, rfl⟩ := h1
        exact quiet _ hx rfl hm (fun os => by rw [hop]; simp [taken])
    | deq =>
      have hop : c.op esz = .deq := by simp only [QCall.op, hk]
      simp only [QCall.Frame, hk] at h3
      refine quiet _ h1 ?_ ((h3.2.1 bb (Ne.symm hvc.1)).trans hm) (fun os => by rw [hop]; rfl)
      simp only [QCall.exec, hk] at h1
      split at h1
      · rename_i r q' m' hd
        simp only [Option.some.injEq, Prod.mk.injEq] at h1
        obtain ⟨-, rfl, -⟩ := h1
        exact dequeue_rear hd
      · simp at h1
    | front =>
      have hop : c.op esz = .front := by simp only [QCall.op, hk]
      simp only [QCall.Frame, hk] at h3
      refine quiet _ h1 ?_ ((h3.2.1 bb (Ne.symm hvc.1)).trans hm) (fun os => by rw [hop]; rfl)
      simp only [QCall.exec, hk] at h1
      split at h1
      · simp only [Option.some.injEq, Prod.mk.injEq] at h1
        rw [h1.2.1]
      · simp at h1
    | rear =>
      have hop : c.op esz = .rear := by simp only [QCall.op, hk]
      simp only [QCall.Frame, hk] at h3
      refine quiet _ h1 ?_ ((h3.2.1 bb (Ne.symm hvc.1)).trans hm) (fun os => by rw [hop]; rfl)
      simp only [QCall.exec, hk] at h1
      split at h1
      · simp only [Option.some.injEq, Prod.mk.injEq] at h1
        rw [h1.2.1]
      · simp at h1
    | full =>
      have hop : c.op esz = .full := by simp only [QCall.op, hk]
      simp only [QCall.exec, hk, Option.some.injEq, Prod.mk.injEq] at h1
      obtain ⟨-, rfl, rfl⟩ := h1
      exact quiet (IMU.Queue.full q, none) (by simp only [QCall.exec, hk]) rfl hm (fun os => by rw [hop]; rfl)
    | empty =>
      have hop : c.op esz = .empty := by simp only [QCall.op, hk]
      simp only [QCall.exec, hk, Option.some.injEq, Prod.mk.injEq] at h1
      obtain ⟨-, rfl, rfl⟩ := h1
      exact quiet (IMU.Queue.empty q, none) (by simp only [QCall.exec, hk]) rfl hm (fun os => by rw [hop]; rfl)

theorem overwrite_length (acc : List (List Byte)) : ∀ (ys : List (List Byte)) (s : Nat),
    (overwrite cap ys s acc).length = ys.length := by
  induction acc with
  | nil => intro ys s; rfl
  | cons e acc ih => intro ys s; rw [overwrite, ih, List.length_set]

/-- Free places are written first. -/
theorem overwrite_free (acc : List (List Byte)) : ∀ (ys : List (List Byte)) (s : Nat), ys.length ≤ s →
    s + acc.length ≤ cap → overwrite cap ys s acc = ys := by
  induction acc with
  | nil => intro ys s _ _; rfl
  | cons e acc ih =>
    intro ys s h1 h2
    rw [List.length_cons] at h2
    rw [overwrite, Nat.mod_eq_of_lt (by omega), List.set_eq_of_length_le h1]
    exact ih ys (s + 1) (by omega) (by omega)

/-- Then the oldest elements. -/
theorem overwrite_old (acc : List (List Byte)) : ∀ (ys : List (List Byte)) (k : Nat), k + acc.length ≤ ys.length →
    ys.length ≤ cap → overwrite cap ys (cap + k) acc = ys.take k ++ acc ++ ys.drop (k + acc.length) := by
  induction acc with
  | nil => intro ys k h1 _; simp [overwrite]
  | cons e acc ih =>
    intro ys k h1 h2
    rw [List.length_cons] at h1
    rw [overwrite, Nat.add_mod_left, Nat.mod_eq_of_lt (by omega), Nat.add_assoc,
      ih _ _ (by rw [List.length_set]; omega) (by rw [List.length_set]; exact h2),
      List.take_add_one, List.take_set_of_le (by omega), List.getElem?_set_self (by omega),
      List.drop_set_of_lt (by omega), List.length_cons]
    simp only [Option.toList_some, List.append_assoc, List.cons_append, List.nil_append]
    rw [show k + 1 + acc.length = k + (acc.length + 1) by omega]

theorem overwrite_append (a : List (List Byte)) : ∀ (b ys : List (List Byte)) (s : Nat),
    overwrite cap ys s (a ++ b) = overwrite cap (overwrite cap ys s a) (s + a.length) b := by
  induction a with
  | nil => intro b ys s; rfl
  | cons e a ih =>
    intro b ys s
    rw [List.cons_append, overwrite, overwrite, ih, List.length_cons,
      show s + 1 + a.length = s + (a.length + 1) by omega]

end Queue

section PriorityQueue
open IMU.PQ
open IMU.Queue (slot_le mul_toNat)

variable {cap esz bb bo pa : Nat} {q q0 : PQueue} {m m0 : Mem} {xs xs0 t : List PItem}

/-- A structure of the same arrays that counts fewer entries sees the oldest ones. -/
theorem pq_prefix (h0 : IMU.PQ.Rep cap esz bb bo pa q0 m0 xs0) (h : IMU.PQ.Rep cap esz bb bo pa q m xs)
    (hl : xs0.length ≤ xs.length) : IMU.PQ.Rep cap esz bb bo pa q0 m (xs.take xs0.length) := by
  have hlen : (xs.take xs0.length).length = xs0.length := by rw [List.length_take]; omega
  have hget : ∀ (k : Nat) x, (xs.take xs0.length)[k]? = some x → xs[k]? = some x := by
    intro k x hk
    rw [List.getElem?_take] at hk
    split at hk
    · exact hk
    · simp at hk
  exact { h0 with hlen := h.hlen, hwlen := h.hwlen, size_eq := by rw [hlen]; exact h0.size_eq,
                  size_le := by rw [hlen]; exact h0.size_le,
                  prio := fun k x hk => h.prio k x (hget k x hk),
                  content := fun k x hk => h.content k x (hget k x hk) }

/-- `PriorityQueue_dequeue` seen by a structure `q0` that counts the entries `t` behind those of `q` as well. -/
theorem pq_dequeue_behind (h0 : IMU.PQ.Rep cap esz bb bo pa q0 m (xs ++ t)) (h : IMU.PQ.Rep cap esz bb bo pa q m xs)
    (hne : xs ≠ []) (eb eo : Nat) (heb : eb ≠ bb) (he : eo + esz ≤ (m.bytes eb).length) :
    ∃ q' m' pre x post, xs = pre ++ x :: post ∧ (∀ y ∈ pre, y.1 < x.1) ∧ (∀ y ∈ post, y.1 ≤ x.1) ∧
      dequeue q (ptr eb eo) m = .ok (true, q') m' ∧ slice (m'.bytes eb) eo esz = x.2 ∧
      IMU.PQ.Rep cap esz bb bo pa q' m' (pre ++ post) ∧
      IMU.PQ.Rep cap esz bb bo pa q0 m' (pre ++ post ++ ((x :: post).getLast (by simp) :: t)) := by
  obtain ⟨pre, x, post, rfl, hpre, hpost, hhigh⟩ := highest_ok h hne
  have hcl := h.cap_lt
  have hb := h.hlen
  have hprl : pre.length < cap := by have := h.size_le; simp at this; omega
  have hmul : (BitVec.ofNat 32 pre.length * q.element_size).toNat = pre.length * esz :=
    mul_toNat (ofNat_toNat (by omega)) h.hes hprl h.lim
  have hsl := slot_le esz hprl
  have hcpy := memcpy_ok (b := eb) (o := eo) (b' := bb) (o' := bo + pre.length * esz) (n := esz) (m := m)
    he (by omega) (.inl heb)
  rw [h.content pre.length x (by simp)] at hcpy
  have hxl : x.2.length = esz := by
    rw [← h.content pre.length x (by simp)]; exact slice_length _ _ _ (by omega)
  set m1 := m.upd eb (splice (m.bytes eb) eo x.2) with hm1
  have hr1 : IMU.PQ.Rep cap esz bb bo pa q m1 (pre ++ x :: post) := h.of_eq (by simp [hm1, Ne.symm heb]) rfl
  have hr0 : IMU.PQ.Rep cap esz bb bo pa q0 m1 ((pre ++ x :: post) ++ t) := h0.of_eq (by simp [hm1, Ne.symm heb]) rfl
  obtain ⟨m', h1, h2, h3⟩ := shift_rep hr1
  have hsz := h.size_eq
  have hle0 := h0.size_le
  simp only [List.length_append, List.length_cons] at hsz hle0
  have hs1 : (q.size - 1#32).toNat = pre.length + post.length := by
    rw [BitVec.toNat_sub]; simp only [BitVec.toNat_ofNat]; omega
  have hs2 : q.size - 1#32 = BitVec.ofNat 32 (pre.length + post.length) := by
    apply BitVec.eq_of_toNat_eq; rw [hs1, ofNat_toNat (by omega)]
  obtain ⟨m2, g1, g2, g3, g4⟩ := shiftDown_ok (q := { q with size := q.size - 1#32 }) (m := m1) hr1.hbuf hr1.hpa hr1.hes
    hr1.lim hcl hr1.hlen hr1.hwlen pre.length (pre.length + post.length) (by omega) (by omega)
  have hmm : m2 = m' := by
    rw [hs2] at h1 g1
    rw [h1] at g1
    simp only [Res.ok.injEq] at g1
    exact g1.2.symm
  subst hmm
  have hel : slice (m2.bytes eb) eo esz = x.2 := by
    have : m2.bytes eb = m1.bytes eb := by
      apply List.ext_getElem?; intro i
      exact h2.2.2.2.2 eb i (by intro hc; exact heb hc.1) (by omega)
    rw [this, hm1, Mem.upd_bytes, if_pos rfl]
    have := slice_splice_same (m.bytes eb) eo x.2 (by omega)
    rw [hxl] at this; exact this
  -- where the entries seen by `q0` were before
  have hlast : ∀ (k : Nat) y, (pre ++ post ++ ((x :: post).getLast (by simp) :: t))[k]? = some y →
      k < cap ∧ ((pre ++ x :: post) ++ t)[if pre.length ≤ k ∧ k < pre.length + post.length then k + 1 else k]? = some y := by
    intro k y hk
    have hkl := (List.getElem?_eq_some_iff.1 hk).1
    simp only [List.length_append, List.length_cons] at hkl
    refine ⟨by omega, ?_⟩
    by_cases c1 : k < pre.length
    · rw [if_neg (by omega)]
      rw [List.append_assoc, List.getElem?_append_left c1] at hk
      rw [List.append_assoc, List.getElem?_append_left c1]
      exact hk
    · by_cases c2 : k < pre.length + post.length
      · rw [if_pos (by omega)]
        rw [List.getElem?_append_left (by simpa using c2), List.getElem?_append_right (by omega)] at hk
        rw [List.getElem?_append_left (by simp; omega), List.getElem?_append_right (by omega),
          show k + 1 - pre.length = (k - pre.length) + 1 by omega, List.getElem?_cons_succ]
        exact hk
      · rw [if_neg (by omega)]
        rw [List.getElem?_append_right (by simpa using c2)] at hk
        by_cases c3 : k = pre.length + post.length
        · subst c3
          rw [List.length_append, Nat.sub_self, List.getElem?_cons_zero] at hk
          rw [List.getElem?_append_left (by simp), List.getElem?_append_right (by omega), Nat.add_sub_cancel_left,
            ← hk, List.getLast_eq_getElem, List.getElem?_eq_getElem (by simp)]
          simp
        · rw [List.length_append, show k - (pre.length + post.length) = (k - (pre.length + post.length) - 1) + 1 by omega,
            List.getElem?_cons_succ] at hk
          rw [List.getElem?_append_right (by simp; omega), List.length_append, List.length_cons,
            show k - (pre.length + (post.length + 1)) = k - (pre.length + post.length) - 1 by omega]
          exact hk
  have hlen : (pre ++ post ++ ((x :: post).getLast (by simp) :: t)).length = ((pre ++ x :: post) ++ t).length := by
    simp only [List.length_append, List.length_cons]; omega
  refine ⟨{ q with size := q.size - 1#32 }, m2, pre, x, post, rfl, hpre, hpost, ?_, hel, h3, ?_⟩
  · unfold dequeue
    rw [h.empty_iff, decide_eq_false hne]
    simp only [Bool.not_false, if_true, C.bind_run, hhigh, h.hbuf, ptr_addN, hmul, h.hes, hcpy, C.pure_run]
    simp only [h.hbuf] at h1
    rw [h1]
  · refine { h0 with hlen := ?_, hwlen := ?_, size_eq := ?_, size_le := ?_, prio := ?_, content := ?_ }
    · rw [h2.2.2.2.1]; exact hr1.hlen
    · rw [h2.2.1]; exact hr1.hwlen
    · rw [hlen]; exact h0.size_eq
    · rw [hlen]; exact h0.size_le
    · intro k y hk
      obtain ⟨hkc, hg⟩ := hlast k y hk
      have := hr0.prio _ y hg
      rw [g3 k hkc]
      split
      · rename_i hc; rw [if_pos hc] at this; exact this
      · rename_i hc; rw [if_neg hc] at this; exact this
    · intro k y hk
      obtain ⟨hkc, hg⟩ := hlast k y hk
      have := hr0.content _ y hg
      rw [g4 k hkc]
      split
      · rename_i hc; rw [if_pos hc] at this; exact this
      · rename_i hc; rw [if_neg hc] at this; exact this

/-- A history of dequeues, seen by the structure `q0`. -/
theorem pq_dequeues_behind (cs : List PQCall) : ∀ {q : PQueue} {m : Mem} {xs t : List PItem},
    IMU.PQ.Rep cap esz bb bo pa q0 m (xs ++ t) → IMU.PQ.Rep cap esz bb bo pa q m xs →
    (∀ c ∈ cs, c.Valid bb esz ∧ c.kind = .deq) →
    ∃ os q' m' zs u, pqExecAll bb pa esz q m cs = some (os, q', m') ∧ IMU.PQ.Rep cap esz bb bo pa q' m' zs ∧
      IMU.PQ.Rep cap esz bb bo pa q0 m' (zs ++ u ++ t) ∧ (∀ y ∈ u, y ∈ xs) ∧ (zs ++ u).getLast? = xs.getLast? := by
  induction cs with
  | nil => intro q m xs t h0 h _; exact ⟨[], q, m, xs, [], rfl, h, by simpa using h0, by simp, by simp⟩
  | cons c cs ih =>
    intro q m xs t h0 h hv
    obtain ⟨hvc, hk⟩ := hv c List.mem_cons_self
    have hvs : ∀ c ∈ cs, c.Valid bb esz ∧ c.kind = .deq := fun c hc => hv c (List.mem_cons_of_mem _ hc)
    have hm : (c.mem bb pa m).bytes bb = m.bytes bb := by simp [PQCall.mem]
    have hmw : (c.mem bb pa m).words pa = m.words pa := by simp [PQCall.mem]
    have hr := h.of_eq hm hmw
    have hr0 := h0.of_eq hm hmw
    have hwb : (c.mem bb pa m).bytes c.blk = c.w.bytes c.blk := by simp [PQCall.mem, hvc.1]
    have hve : c.off + esz ≤ ((c.mem bb pa m).bytes c.blk).length := by rw [hwb]; exact hvc.2
    by_cases hne : xs = []
    · subst hne
      have hd : dequeue q (ptr c.blk c.off) (c.mem bb pa m) = .ok (false, q) (c.mem bb pa m) := by
        unfold dequeue
        rw [h.empty_iff, decide_eq_true rfl]
        rfl
      obtain ⟨os, q', m', zs, u, g1, g2, g3, g4, g5⟩ := ih hr0 hr hvs
      exact ⟨(false, none) :: os, q', m', zs, u, by simp [pqExecAll, PQCall.exec, hk, hd, g1], g2, g3, g4, g5⟩
    · obtain ⟨q1, m1, pre, x, post, rfl, -, -, hd, -, k1, k2⟩ := pq_dequeue_behind hr0 hr hne c.blk c.off hvc.1 hve
      obtain ⟨os, q', m', zs, u, g1, g2, g3, g4, g5⟩ := ih k2 k1 hvs
      refine ⟨(true, some (slice (m1.bytes c.blk) c.off esz)) :: os, q', m', zs,
        u ++ [(x :: post).getLast (by simp)], by simp [pqExecAll, PQCall.exec, hk, hd, g1], g2, ?_, ?_, ?_⟩
      · simpa only [List.append_assoc, List.cons_append, List.nil_append] using g3
      · intro y hy
        rw [List.mem_append, List.mem_singleton] at hy
        rcases hy with hy | rfl
        · have := g4 y hy
          simp only [List.mem_append, List.mem_cons] at this ⊢
          tauto
        · exact List.mem_append_right _ (List.getLast_mem _)
      · rw [← List.append_assoc, List.getLast?_append, List.getLast?_singleton, Option.some_or,
          List.getLast?_append_of_ne_nil _ (List.cons_ne_nil x post),
          List.getLast?_eq_some_getLast (List.cons_ne_nil x post)]

end PriorityQueue

section Map
open IMU.Map

variable {n ks vs kb ko vb vo : Nat} {map map0 : MapT} {m m0 : Mem} {es es0 : List (Bytes × Bytes)}

/-- A structure of the same arrays that counts fewer entries sees the first ones. -/
theorem map_prefix (h0 : IMU.Map.Rep n ks vs n kb ko vb vo map0 m0 es0) (h : IMU.Map.Rep n ks vs n kb ko vb vo map m es)
    (hl : es0.length ≤ es.length) : IMU.Map.Rep n ks vs n kb ko vb vo map0 m (es.take es0.length) := by
  have hlen : (es.take es0.length).length = es0.length := by rw [List.length_take]; omega
  have hget : ∀ (k : Nat) x, (es.take es0.length)[k]? = some x → es[k]? = some x := by
    intro k x hk
    rw [List.getElem?_take] at hk
    split at hk
    · exact hk
    · simp at hk
  exact { h0 with klen := h.klen, vlen := h.vlen, size := by rw [hlen]; exact h0.size,
                  size_le := by rw [hlen]; exact h0.size_le,
                  ck := fun k x hk => h.ck k x (hget k x hk), cv := fun k x hk => h.cv k x (hget k x hk),
                  nodup := h.nodup.sublist ((List.take_sublist _ _).map _) }

/-- No call moves or changes the keys of the entries. -/
theorem map_keys_step (h : IMU.Map.Rep n ks vs n kb ko vb vo map m es) (c : MapCall) (hv : c.Valid kb vb ks vs) :
    ∃ o map' m' es', c.exec kb vb vs map m = .ok (o, map', m') ∧ IMU.Map.Rep n ks vs n kb ko vb vo map' m' es' ∧
      es.map Prod.fst <+: es'.map Prod.fst ∧
      ∀ es0, es0 <+: es → (c.kind = .ins → c.key ks ∉ es0.map Prod.fst) → es0 <+: es' := by
  have hr := Rep.atCall h c
  obtain ⟨ek, ev⟩ := call_key (m := m) c hv
  have hkl := hv.kl
  have hvl := hv.vl
  rw [← ek] at hkl
  rw [← ev] at hvl
  have hsk := slice_length _ _ _ hkl
  have hsv := slice_length _ _ _ hvl
  cases hk : c.kind with
  | ins =>
    rcases getIndex_ok hr c.kblk c.koff hkl with ⟨j, e, he, hek, hidx⟩ | ⟨hnone, hidx⟩
    · have hins := insert_update hr c.kblk c.koff c.vblk c.voff hkl hvl hv.v2 he hidx
      refine ⟨(true, none), map, _, _, by simp only [MapCall.exec, hk, hins], hr.setValue he _ hsv, ?_, ?_⟩
      swap
      · intro es0 h0 hnin
        have hj := (List.getElem?_eq_some_iff.1 he).1
        have hle : es0.length ≤ j := by
          by_contra hc
          rw [List.prefix_iff_eq_take.1 h0] at hnin
          refine hnin rfl (List.mem_map.2 ⟨e, ?_, by rw [hek, ek]; rfl⟩)
          refine List.mem_of_getElem? (i := j) ?_
          rw [List.getElem?_take, if_pos (by omega)]; exact he
        rw [List.prefix_iff_eq_take, List.take_set_of_le hle]
        exact List.prefix_iff_eq_take.1 h0
      rw [List.map_set]
      have : (es.map Prod.fst).set j e.1 = es.map Prod.fst := by
        apply List.ext_getElem?; intro i
        by_cases hij : j = i
        · subst hij
          have hj := (List.getElem?_eq_some_iff.1 he).1
          rw [List.getElem?_set_self (by simpa using hj), List.getElem?_map, he]; rfl
        · rw [List.getElem?_set_ne hij]
      rw [this]
    · by_cases hroom : es.length < n
      · have hins := insert_new hr hroom (by omega) c.kblk c.koff c.vblk c.voff hkl hvl hv.k1 hv.v1 hv.v2 hidx rfl rfl
        refine ⟨(true, none), _, _, _, by simp only [MapCall.exec, hk, hins], hr.append hroom _ _ hsk hsv hnone rfl rfl, ?_,
          fun es0 h0 _ => h0.trans (List.prefix_append _ _)⟩
        rw [List.map_append]
        exact List.prefix_append _ _
      · have hins := insert_full hr (by have := h.size_le; omega) c.kblk c.koff (ptr c.vblk c.voff) hidx
        exact ⟨(false, none), _, _, _, by simp only [MapCall.exec, hk, hins], hr, List.prefix_rfl, fun _ h0 _ => h0⟩
  | get =>
    obtain ⟨map', m', es', h1, h2, -, h4⟩ := map_step h rfl (tracks_self h.nodup) c hv
    simp only [MapCall.Frame, hk] at h4
    refine ⟨_, map', m', es, h1, ?_, List.prefix_rfl, fun _ h0 _ => h0⟩
    have hmap : map' = map := by
      simp only [MapCall.exec, hk] at h1
      split at h1
      · simp only [Except.ok.injEq, Prod.mk.injEq] at h1
        exact h1.2.1.symm
      · simp at h1
    rw [hmap]
    exact hr.of_eq (h4.2.1 kb (Ne.symm hv.v1)) (h4.2.1 vb (Ne.symm hv.v2))

theorem map_keys_all (cs : List MapCall) : ∀ {map : MapT} {m : Mem} {es : List (Bytes × Bytes)},
    IMU.Map.Rep n ks vs n kb ko vb vo map m es → (∀ c ∈ cs, c.Valid kb vb ks vs) →
    ∃ os map' m' es', mapExecAll kb vb vs map m cs = .ok (os, map', m') ∧
      IMU.Map.Rep n ks vs n kb ko vb vo map' m' es' ∧ es.map Prod.fst <+: es'.map Prod.fst ∧
      ∀ es0, es0 <+: es → (∀ c ∈ cs, c.kind = .ins → c.key ks ∉ es0.map Prod.fst) → es0 <+: es' := by
  induction cs with
  | nil => intro map m es h _; exact ⟨[], map, m, es, rfl, h, List.prefix_rfl, fun _ h0 _ => h0⟩
  | cons c cs ih =>
    intro map m es h hv
    obtain ⟨o, map1, m1, es1, h1, h2, h3, h4⟩ := map_keys_step h c (hv c List.mem_cons_self)
    obtain ⟨os, map2, m2, es2, g1, g2, g3, g4⟩ := ih h2 (fun c hc => hv c (List.mem_cons_of_mem _ hc))
    exact ⟨o :: os, map2, m2, es2, by simp [mapExecAll, h1, g1], g2, h3.trans g3,
      fun es0 h0 hk => g4 es0 (h4 es0 h0 (hk c List.mem_cons_self)) fun c hc => hk c (List.mem_cons_of_mem _ hc)⟩

end Map
end IMU.Props
