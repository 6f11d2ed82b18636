import Verif.Proofs.PriorityQueueHistory
import Verif.Proofs.QueueHistory

/-! # Priority queues whose offsets exceed 32 bits -/

namespace IMU.Props
open Spec Utils IMU.PQ

/-- The call with an element of `n` bytes `v` in an object of its own. -/
def pconst (k : PQKind) (bb n : Nat) (v : Byte) : PQCall := ⟨k, constMem (bb + 1) n v, bb + 1, 0⟩

theorem pconst_valid (k : PQKind) (bb n : Nat) (v : Byte) : (pconst k bb n v).Valid bb n := by
  constructor
  · show bb + 1 ≠ bb; omega
  · show 0 + n ≤ (if bb + 1 = bb + 1 then List.replicate n v else []).length
    simp

theorem pconst_op (p : U32) (bb n : Nat) (v : Byte) :
    (pconst (.enq p) bb n v).op n = .enq p (List.replicate n v) := by
  show PQOp.enq p (slice (if bb + 1 = bb + 1 then List.replicate n v else []) 0 n) = _
  simp [slice]

/-- A queue of any size into which `i` items of priority zero were put. -/
structure Filled (cap es : U32) (bb bo pa : Nat) (i : Nat) (q : PQueue) (m : Mem) : Prop where
  hcap : q.capacity = cap
  hes : q.element_size = es
  hbuf : q.buffer = ptr bb bo
  hpa : q.priority_array = pa
  hsize : q.size.toNat = i
  hlen : bo + cap.toNat * es.toNat ≤ (m.bytes bb).length
  hwlen : cap.toNat ≤ (m.words pa).length
  hprio : ∀ k, k < i → (m.words pa)[k]? = some 0#32

theorem penq_raw {cap es : U32} {bb bo pa i : Nat} {q : PQueue} {m : Mem} (h : Filled cap es bb bo pa i q m)
    (hi : i < cap.toNat) (v : Byte) :
    ∃ q' m', (pconst (.enq 0#32) bb es.toNat v).exec bb pa es.toNat q m = some ((true, none), q', m') ∧
      Filled cap es bb bo pa (i + 1) q' m' ∧
      m'.bytes bb = splice (m.bytes bb) (bo + (i * es.toNat) % 2 ^ 32) (List.replicate es.toNat v) := by
  obtain ⟨rfl, rfl, hb, hp, hs, hl, hw, hpr⟩ := h
  set es := q.element_size.toNat with hes
  set c := pconst (.enq 0#32) bb es v with hc
  have hcl := q.capacity.isLt
  have hmul : (q.size * q.element_size).toNat = (i * es) % 2 ^ 32 := by rw [BitVec.toNat_mul, hs]
  have hle : (i * es) % 2 ^ 32 + es ≤ q.capacity.toNat * es := by
    have := IMU.Queue.slot_le es hi
    have := Nat.mod_le (i * es) (2 ^ 32)
    omega
  have hbb : (c.mem bb pa m).bytes bb = m.bytes bb := by simp [PQCall.mem]
  have hww : (c.mem bb pa m).words pa = m.words pa := by simp [PQCall.mem]
  have hbe : (c.mem bb pa m).bytes (bb + 1) = List.replicate es v := by
    simp [PQCall.mem, hc, pconst, constMem]
  have hcpy := memcpy_ok (b := bb) (o := bo + (i * es) % 2 ^ 32) (b' := bb + 1) (o' := 0) (n := es)
    (m := c.mem bb pa m) (by rw [hbb]; omega) (by rw [hbe]; simp) (.inl (by omega))
  rw [hbb, hbe, show slice (List.replicate es v) 0 es = List.replicate es v by simp [slice]] at hcpy
  have hnf : full q = false := by
    unfold full
    rw [beq_eq_false_iff_ne]; intro h; rw [h] at hs; omega
  set m1 := (c.mem bb pa m).upd bb (splice (m.bytes bb) (bo + (i * es) % 2 ^ 32) (List.replicate es v)) with hm1
  have hst : storeW pa q.size.toNat 0#32 m1 = .ok () (m1.updW pa ((m.words pa).set i 0#32)) := by
    rw [storeW_ok (by show q.size.toNat < ((c.mem bb pa m).words pa).length; rw [hww, hs]; omega), hs]
    show Res.ok () (m1.updW pa (((c.mem bb pa m).words pa).set i 0#32)) = _
    rw [hww]
  refine ⟨{ q with size := q.size + 1#32 }, m1.updW pa ((m.words pa).set i 0#32), ?_, ?_, ?_⟩
  · have he : enqueue q (ptr (bb + 1) 0) 0#32 (c.mem bb pa m) =
        .ok (true, { q with size := q.size + 1#32 }) (m1.updW pa ((m.words pa).set i 0#32)) := by
      simp only [enqueue]
      rw [hnf]
      simp only [Bool.not_false, if_true]
      rw [hmul, hb, ptr_addN, ← hes, C.bind_ok hcpy, hp, C.bind_ok hst]
      rfl
    show (match enqueue q (ptr (bb + 1) 0) 0#32 (c.mem bb pa m) with
      | .ok (r, q') m' => some ((r, none), q', m')
      | .ub _ => none) = _
    rw [he]
  · refine ⟨rfl, rfl, hb, hp, ?_, ?_, ?_, ?_⟩
    · show (q.size + 1#32).toNat = i + 1
      rw [BitVec.toNat_add, hs]; simp only [BitVec.toNat_ofNat]; omega
    · show bo + _ ≤ (m1.bytes bb).length
      rw [hm1, Mem.upd_bytes, if_pos rfl, splice_length _ _ _ (by simp; omega)]
      exact hl
    · simp [Mem.updW, hw]
    · intro k hk
      simp only [Mem.updW, if_true]
      rw [List.getElem?_set]
      split
      · simp only [show i < (m.words pa).length by omega, if_true]
      · exact hpr k (by omega)
  · show m1.bytes bb = _
    rw [hm1, Mem.upd_bytes, if_pos rfl]

theorem penq_many {cap es : U32} {bb bo pa : Nat} (v : Byte) (n : Nat) : ∀ {i : Nat} {q : PQueue} {m : Mem},
    Filled cap es bb bo pa i q m → i + n ≤ cap.toNat →
    ∃ q' m', pqExecAll bb pa es.toNat q m (List.replicate n (pconst (.enq 0#32) bb es.toNat v)) =
        some (List.replicate n (true, none), q', m') ∧ Filled cap es bb bo pa (i + n) q' m' := by
  induction n with
  | zero => intro i q m h _; exact ⟨q, m, rfl, h⟩
  | succ n ih =>
    intro i q m h hi
    obtain ⟨q1, m1, a1, a2, -⟩ := penq_raw h (by omega) v
    obtain ⟨q2, m2, b1, b2⟩ := ih a2 (by omega)
    refine ⟨q2, m2, ?_, by rw [show i + (n + 1) = i + 1 + n by omega]; exact b2⟩
    rw [List.replicate_succ, pqExecAll, a1]
    simp only [b1]
    rfl

theorem highest_zero {cap es : U32} {bb bo pa i : Nat} {q : PQueue} {m : Mem} (h : Filled cap es bb bo pa i q m)
    (hi : 0 < i) : getHighestPriorityIndex q m = .ok 0#32 m := by
  unfold getHighestPriorityIndex
  rw [h.hpa, C.bind_ok (loadW_ok (h.hprio 0 hi))]
  have : ∀ (n k : Nat), k + n ≤ i → forN n k (fun i (s : U32 × U32) => do
      let p ← loadW pa i
      if s.1 < p then return (p, BitVec.ofNat 32 i) else return s) (0#32, 0#32) m = .ok (0#32, 0#32) m := by
    intro n
    induction n with
    | zero => intro k _; rfl
    | succ n ih =>
      intro k hk
      rw [forN_succ, C.bind_ok (loadW_ok (h.hprio k (by omega)))]
      simp only [BitVec.lt_irrefl, if_false, C.pure_run]
      exact ih (k + 1) (by omega)
  rw [C.bind_ok (this q.size.toNat 0 (by rw [h.hsize]; omega))]
  rfl

theorem memcpy_frame {b o : Nat} {k : Nat} {src : Ptr} {n x : Nat} {m m' : Mem} (hx : x ≠ b)
    (h : memcpy ((ptr b o).addN k) src n m = .ok () m') : m'.bytes x = m.bytes x := by
  unfold memcpy at h
  split at h
  · exact absurd h (by simp [C.ub])
  · simp only [C.bind_run] at h
    unfold loadN at h
    have key : ∀ s, storeN ((ptr b o).addN k) s m = .ok () m' → m'.bytes x = m.bytes x := by
      intro s hs
      unfold storeN at hs
      split at hs
      · cases hs; rfl
      · split at hs
        · cases hs
          rw [Mem.upd_bytes]
          exact if_neg hx
        · cases hs
    split at h
    · rename_i a m1 e
      split at e
      · cases e; exact key _ h
      · split at e
        · cases e; exact key _ h
        · cases e
    · cases h

theorem shiftDown_frame {q : PQueue} {bb bo : Nat} (hb : q.buffer = ptr bb bo) {index size : U32} {m m' : Mem} {x : Nat}
    (hx : x ≠ bb) (h : shiftDown q index size m = .ok () m') : m'.bytes x = m.bytes x := by
  unfold shiftDown at h
  generalize size.toNat - index.toNat = n at h
  generalize index.toNat = k at h
  induction n generalizing k m with
  | zero => cases h; rfl
  | succ n ih =>
    rw [forN_succ] at h
    simp only [C.bind_run] at h
    split at h
    · rename_i u m1 e1
      rw [ih _ h]
      split at e1
      · rename_i u2 m2 e2
        rw [hb] at e2
        rw [← memcpy_frame hx e2]
        unfold loadW at e1
        split at e1
        · rename_i p m3 e3
          split at e3
          · cases e3
            unfold storeW at e1
            split at e1
            · cases e1; rfl
            · cases e1
          · cases e3
        · cases e1
      · cases e1
    · cases h

theorem pdeq_raw {cap es : U32} {bb bo pa i : Nat} {q : PQueue} {m : Mem} (h : Filled cap es bb bo pa i q m)
    (hi : 0 < i) (hce : es.toNat ≤ cap.toNat * es.toNat) {o : PQObs} {q' : PQueue} {m' : Mem}
    (he : (pconst .deq bb es.toNat 0#8).exec bb pa es.toNat q m = some (o, q', m')) :
    o = (true, some (slice (m.bytes bb) bo es.toNat)) := by
  set c := pconst .deq bb es.toNat 0#8 with hc
  have hbb : (c.mem bb pa m).bytes bb = m.bytes bb := by simp [PQCall.mem]
  have hww : (c.mem bb pa m).words pa = m.words pa := by simp [PQCall.mem]
  have hbe : (c.mem bb pa m).bytes (bb + 1) = List.replicate es.toNat 0#8 := by
    simp [PQCall.mem, hc, pconst, constMem]
  have h' : Filled cap es bb bo pa i q (c.mem bb pa m) :=
    ⟨h.hcap, h.hes, h.hbuf, h.hpa, h.hsize, by rw [hbb]; exact h.hlen, by rw [hww]; exact h.hwlen,
      by rw [hww]; exact h.hprio⟩
  have hl := h.hlen
  have hsl : (slice (m.bytes bb) bo es.toNat).length = es.toNat := slice_length _ _ _ (by omega)
  have hcpy := memcpy_ok (b := bb + 1) (o := 0) (b' := bb) (o' := bo) (n := es.toNat)
    (m := c.mem bb pa m) (by rw [hbe]; simp) (by rw [hbb]; omega) (.inl (by omega))
  rw [hbb, hbe] at hcpy
  have hne : IMU.PQ.empty q = false := by
    unfold IMU.PQ.empty
    rw [beq_eq_false_iff_ne]; intro e; have := h.hsize; rw [e] at this; simp at this; omega
  change (match dequeue q (ptr (bb + 1) 0) (c.mem bb pa m) with
    | .ok (r, q') m' => some ((r, if r then some (slice (m'.bytes (bb + 1)) 0 es.toNat) else none), q', m')
    | .ub _ => none) = _ at he
  simp only [dequeue] at he
  rw [hne] at he
  simp only [Bool.not_false, if_true] at he
  rw [C.bind_ok (highest_zero h' hi)] at he
  rw [show ((0#32 : U32) * q.element_size).toNat = 0 by simp, h.hbuf, h.hes, ptr_addN, Nat.add_zero bo, C.bind_ok hcpy] at he
  simp only [C.bind_run] at he
  split at he
  · rename_i r q1 m1 e1
    split at e1
    · rename_i u m2 e2
      cases e1
      have := shiftDown_frame (x := bb + 1) (bb := bb) (bo := bo) rfl (by omega) e2
      simp only [if_true, Option.some.injEq, Prod.mk.injEq] at he
      rw [← he.1, this, Mem.upd_bytes, if_pos rfl]
      have e3 := slice_splice_same (List.replicate es.toNat 0#8) 0 (slice (m.bytes bb) bo es.toNat) (by simp; omega)
      rw [hsl] at e3
      rw [e3]
    · cases e1
  · cases he

theorem pqExecAll_append (bb pa esz : Nat) (cs ds : List PQCall) : ∀ (q : PQueue) (m : Mem),
    pqExecAll bb pa esz q m (cs ++ ds) = match pqExecAll bb pa esz q m cs with
      | none => none
      | some (os, q', m') => match pqExecAll bb pa esz q' m' ds with
        | none => none
        | some (os', q'', m'') => some (os ++ os', q'', m'') := by
  induction cs with
  | nil => intro q m; simp only [List.nil_append, pqExecAll]; cases pqExecAll bb pa esz q m ds <;> rfl
  | cons c cs ih =>
    intro q m
    simp only [List.cons_append, pqExecAll]
    cases h : c.exec bb pa esz q m with
    | none => rfl
    | some r =>
      obtain ⟨o, q', m'⟩ := r
      simp only [ih]
      cases pqExecAll bb pa esz q' m' cs with
      | none => rfl
      | some r =>
        obtain ⟨os, q2, m2⟩ := r
        simp only
        cases pqExecAll bb pa esz q2 m2 ds <;> rfl

/-- What the ideal queue does with items of priority zero. -/
theorem ideal_enq {cap : Nat} {ops : List PQOp} {e : List Byte} (n : Nat) : ∀ {xs : List PItem} {o : List PQObs} {out ys : List PItem},
    xs.length + n ≤ cap → PQRun cap xs (List.replicate n (.enq 0#32 e) ++ ops) o out ys →
    ∃ o' out', o = List.replicate n (true, none) ++ o' ∧ PQRun cap (xs ++ List.replicate n (0#32, e)) ops o' out' ys := by
  induction n with
  | zero => intro xs o out ys _ h; exact ⟨o, out, rfl, by simpa using h⟩
  | succ n ih =>
    intro xs o out ys hl h
    rw [List.replicate_succ, List.cons_append] at h
    cases h with
    | cons h1 h2 =>
      obtain ⟨rfl, rfl, rfl⟩ := pqStep_det h1 (.enq (by omega))
      obtain ⟨o', out', e1, e2⟩ := ih (by simp; omega) h2
      refine ⟨o', out', by rw [e1]; rfl, ?_⟩
      rw [List.replicate_succ, show xs ++ (0#32, e) :: List.replicate n (0#32, e) =
        xs ++ [(0#32, e)] ++ List.replicate n (0#32, e) by simp]
      exact e2

end IMU.Props
