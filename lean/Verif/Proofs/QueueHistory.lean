import Verif.Proofs.Queue
import Verif.Spec.QueueCalls
import Mathlib.Tactic.Set

/-! # Queue histories simulate the ideal FIFO -/

namespace IMU.Props
open Spec Utils IMU.Queue

theorem onlyChanged_refl (m : Mem) (b o n : Nat) : OnlyChanged m m b o n :=
  ⟨rfl, fun _ _ => rfl, rfl, fun _ _ => rfl⟩

/-- One step of the simulation. -/
theorem exec_step {cap esz bb bo : Nat} {q : Queue} {m : Mem} {xs : List (List Byte)}
    (h : Rep cap esz bb bo q m xs) (c : QCall) (hv : c.Valid bb esz) :
    ∃ q' m', c.exec bb esz q m = some ((fifoStep cap xs (c.op esz)).1, q', m') ∧
      Rep cap esz bb bo q' m' (fifoStep cap xs (c.op esz)).2 ∧
      c.Frame bb bo cap esz (c.mem bb m) m' := by
  have hm : (c.mem bb m).bytes bb = m.bytes bb := by simp [QCall.mem]
  have hr : Rep cap esz bb bo q (c.mem bb m) xs := h.of_eq hm
  have hwb : (c.mem bb m).bytes c.blk = c.w.bytes c.blk := by simp [QCall.mem, hv.1]
  have hve : c.off + esz ≤ ((c.mem bb m).bytes c.blk).length := by rw [hwb]; exact hv.2
  obtain ⟨kind, w, blk, off⟩ := c
  cases kind with
  | enq =>
    by_cases hf : xs.length < cap
    · obtain ⟨q', m', h1, h2, h3⟩ := enqueue_ok hr hf _ _ hv.1 hve
      rw [hwb] at h2
      refine ⟨q', m', ?_, ?_, h3⟩
      · simp only [QCall.exec, h1, QCall.op, fifoStep, hf, if_true]
      · simpa only [QCall.op, fifoStep, hf, if_true] using h2
    · have h1 := enqueue_full hr (by have := h.size_le; omega) (ptr blk off)
      refine ⟨q, _, ?_, ?_, onlyChanged_refl _ _ _ _⟩
      · simp only [QCall.exec, h1, QCall.op, fifoStep, hf, if_false]
      · simpa only [QCall.op, fifoStep, hf, if_false] using hr
  | deq =>
    cases xs with
    | nil =>
      have h1 := dequeue_empty hr (ptr blk off)
      exact ⟨q, _, by simp [QCall.exec, h1, QCall.op, fifoStep, delivered], hr,
        onlyChanged_refl _ _ _ _⟩
    | cons x xs =>
      obtain ⟨q', m', h1, h2, h3, h4⟩ := dequeue_ok hr _ _ hv.1 hve
      refine ⟨q', m', ?_, h2, h4⟩
      simp only [QCall.exec, h1, QCall.op, fifoStep, delivered, if_true]
      rw [h3]
  | front =>
    cases xs with
    | nil =>
      have h1 := front_empty hr (ptr blk off)
      exact ⟨q, _, by simp [QCall.exec, h1, QCall.op, fifoStep, delivered], hr,
        onlyChanged_refl _ _ _ _⟩
    | cons x xs =>
      obtain ⟨m', h1, h3, h4⟩ := front_ok hr _ _ hv.1 hve
      refine ⟨q, m', ?_, hr.of_eq (h4.2.1 bb (Ne.symm hv.1)), h4⟩
      simp only [QCall.exec, h1, QCall.op, fifoStep, delivered, if_true, List.head?_cons,
        Option.isSome_some]
      rw [h3]
  | rear =>
    rcases List.eq_nil_or_concat xs with rfl | ⟨ys, x, rfl⟩
    · have h1 := rear_empty hr (ptr blk off)
      exact ⟨q, _, by simp [QCall.exec, h1, QCall.op, fifoStep, delivered], hr,
        onlyChanged_refl _ _ _ _⟩
    · rw [List.concat_eq_append] at *
      obtain ⟨m', h1, h3, h4⟩ := rear_ok hr _ _ hv.1 hve
      refine ⟨q, m', ?_, hr.of_eq (h4.2.1 bb (Ne.symm hv.1)), h4⟩
      simp only [QCall.exec, h1, QCall.op, fifoStep, delivered, if_true, List.getLast?_append,
        List.getLast?_singleton, Option.some_or, Option.isSome_some]
      rw [h3]
  | full =>
    exact ⟨q, _, by simp [QCall.exec, QCall.op, fifoStep, hr.full_iff], hr, rfl⟩
  | empty =>
    exact ⟨q, _, by simp [QCall.exec, QCall.op, fifoStep, hr.empty_iff], hr, rfl⟩

theorem execAll_sim {cap esz bb bo : Nat} (cs : List QCall) :
    ∀ {q : Queue} {m : Mem} {xs : List (List Byte)}, Rep cap esz bb bo q m xs →
      (∀ c ∈ cs, c.Valid bb esz) →
      ∃ q' m' xs', execAll bb esz q m cs =
          some (fifoRun cap xs (cs.map (·.op esz)), q', m') ∧ Rep cap esz bb bo q' m' xs' := by
  induction cs with
  | nil => intro q m xs h _; exact ⟨q, m, xs, rfl, h⟩
  | cons c cs ih =>
    intro q m xs h hv
    obtain ⟨q', m', h1, h2, _⟩ := exec_step h c (hv c (List.mem_cons_self))
    obtain ⟨q'', m'', xs'', h3, h4⟩ := ih h2 (fun c hc => hv c (List.mem_cons_of_mem _ hc))
    exact ⟨q'', m'', xs'', by simp [execAll, h1, h3, fifoRun], h4⟩

/-- Memory in which object `b` consists of `n` bytes `v`. -/
def constMem (b n : Nat) (v : Byte) : Mem := ⟨fun x => if x = b then List.replicate n v else [], fun _ => []⟩

/-- The call with an element of `n` bytes `v` in an object of its own. -/
def constCall (k : QKind) (bb n : Nat) (v : Byte) : QCall := ⟨k, constMem (bb + 1) n v, bb + 1, 0⟩

theorem constCall_valid (k : QKind) (bb n : Nat) (v : Byte) : (constCall k bb n v).Valid bb n := by
  constructor
  · show bb + 1 ≠ bb; omega
  · show 0 + n ≤ (if bb + 1 = bb + 1 then List.replicate n v else []).length
    simp

theorem constCall_elem (k : QKind) (bb n : Nat) (v : Byte) :
    slice ((constCall k bb n v).w.bytes (bb + 1)) 0 n = List.replicate n v := by
  show slice (if bb + 1 = bb + 1 then List.replicate n v else []) 0 n = _
  simp [slice]

/-- Enqueue number `i` of a freshly initialised queue of any size writes at the offset `i * es`
reduced modulo 2^32. -/
theorem enq_raw (q : Queue) (bb bo i : Nat) (m : Mem) (v : Byte)
    (hb : q.buffer = ptr bb bo) (hi : i < q.capacity.toNat) (hs : q.size.toNat = i)
    (hr : (q.rear.toNat + 1) % q.capacity.toNat = i) (hrl : q.rear.toNat < q.capacity.toNat)
    (hbuf : bo + q.capacity.toNat * q.element_size.toNat ≤ (m.bytes bb).length) :
    ∃ q' m', (constCall .enq bb q.element_size.toNat v).exec bb q.element_size.toNat q m =
        some ((true, none), q', m') ∧
      q'.buffer = ptr bb bo ∧ q'.capacity = q.capacity ∧ q'.element_size = q.element_size ∧
      q'.front = q.front ∧ q'.size.toNat = i + 1 ∧ q'.rear.toNat = i ∧
      m'.bytes bb = splice (m.bytes bb) (bo + (i * q.element_size.toNat) % 2 ^ 32)
        (List.replicate q.element_size.toNat v) := by
  set es := q.element_size.toNat with hes
  set c := constCall .enq bb es v with hc
  have hcl := q.capacity.isLt
  have hrs : ((q.rear + 1#32) % q.capacity).toNat = i := by
    rw [BitVec.toNat_umod, BitVec.toNat_add, ← hr]
    simp only [BitVec.toNat_ofNat]
    rw [Nat.mod_eq_of_lt (a := q.rear.toNat + 1 % 2 ^ 32) (by omega)]
  have hmul : (((q.rear + 1#32) % q.capacity) * q.element_size).toNat = (i * es) % 2 ^ 32 := by
    rw [BitVec.toNat_mul, hrs]
  have hle : (i * es) % 2 ^ 32 + es ≤ q.capacity.toNat * es := by
    have := slot_le es hi
    have := Nat.mod_le (i * es) (2 ^ 32)
    omega
  have hbb : (c.mem bb m).bytes bb = m.bytes bb := by simp [QCall.mem]
  have hbe : (c.mem bb m).bytes (bb + 1) = List.replicate es v := by
    simp [QCall.mem, hc, constCall, constMem]
  have hcpy := memcpy_ok (b := bb) (o := bo + (i * es) % 2 ^ 32) (b' := bb + 1) (o' := 0) (n := es)
    (m := c.mem bb m) (by rw [hbb]; omega) (by rw [hbe]; simp) (.inl (by omega))
  rw [hbb, hbe, show slice (List.replicate es v) 0 es = List.replicate es v by simp [slice]] at hcpy
  have hnf : IMU.Queue.full q = false := by
    unfold IMU.Queue.full
    rw [beq_eq_false_iff_ne]; intro h; rw [h] at hs; omega
  have hc0 : q.capacity ≠ 0#32 := by
    intro h; rw [h] at hi; simp at hi
  refine ⟨{ q with rear := (q.rear + 1#32) % q.capacity, size := q.size + 1#32 },
    (c.mem bb m).upd bb (splice (m.bytes bb) (bo + (i * es) % 2 ^ 32) (List.replicate es v)),
    ?_, hb, rfl, rfl, rfl, ?_, hrs, ?_⟩
  · have he : enqueue (some q) (some (ptr (bb + 1) 0)) (c.mem bb m) =
        .ok (true, some { q with rear := (q.rear + 1#32) % q.capacity, size := q.size + 1#32 })
          ((c.mem bb m).upd bb (splice (m.bytes bb) (bo + (i * es) % 2 ^ 32) (List.replicate es v))) := by
      simp only [enqueue]
      rw [hnf]
      simp only [Bool.not_false, if_true, C.bind_run, C.require_ok hc0, C.pure_run, hmul, hb, ptr_addN,
        ← hes, hcpy]
    show (match enqueue (some q) (some (ptr (bb + 1) 0)) (c.mem bb m) with
      | .ok (r, some q') m' => some ((r, none), q', m')
      | _ => none) = _
    rw [he]
  · show (q.size + 1#32).toNat = i + 1
    rw [BitVec.toNat_add, hs]; simp only [BitVec.toNat_ofNat]; omega
  · simp

/-- `n` enqueues in a row. -/
theorem enq_many (bb bo : Nat) (v : Byte) (n : Nat) : ∀ (q : Queue) (m : Mem) (i : Nat),
    q.buffer = ptr bb bo → i + n ≤ q.capacity.toNat → 0 < n → q.size.toNat = i →
    (q.rear.toNat + 1) % q.capacity.toNat = i → q.rear.toNat < q.capacity.toNat →
    bo + q.capacity.toNat * q.element_size.toNat ≤ (m.bytes bb).length →
    ∃ os q' m', execAll bb q.element_size.toNat q m
        (List.replicate n (constCall .enq bb q.element_size.toNat v)) = some (os, q', m') ∧
      q'.buffer = ptr bb bo ∧ q'.capacity = q.capacity ∧ q'.element_size = q.element_size ∧
      q'.front = q.front ∧ q'.size.toNat = i + n ∧ q'.rear.toNat + 1 = i + n ∧
      (m'.bytes bb).length = (m.bytes bb).length := by
  induction n with
  | zero => intro q m i _ _ h; omega
  | succ n ih =>
    intro q m i hb hi _ hs hr hrl hbuf
    obtain ⟨q', m', h1, h2, h3, h4, h5, h6, h7, h8⟩ := enq_raw q bb bo i m v hb (by omega) hs hr hrl hbuf
    have hle : (i * q.element_size.toNat) % 2 ^ 32 + q.element_size.toNat ≤
        q.capacity.toNat * q.element_size.toNat := by
      have := slot_le q.element_size.toNat (show i < q.capacity.toNat by omega)
      have := Nat.mod_le (i * q.element_size.toNat) (2 ^ 32)
      omega
    have hl : (m'.bytes bb).length = (m.bytes bb).length := by
      rw [h8, splice_length _ _ _ (by simp; omega)]
    by_cases hn : n = 0
    · subst hn
      exact ⟨[(true, none)], q', m', by simp [execAll, h1], h2, h3, h4, h5, h6, by omega, hl⟩
    · obtain ⟨os, q2, m2, g1, g2, g3, g4, g5, g6, g7, g8⟩ := ih q' m' (i + 1) h2 (by rw [h3]; omega)
        (by omega) h6 (by rw [h7, h3, Nat.mod_eq_of_lt (by omega)]) (by rw [h7, h3]; omega)
        (by rw [hl, h3, h4]; exact hbuf)
      rw [h4] at g1
      exact ⟨(true, none) :: os, q2, m2, by simp [List.replicate_succ, execAll, h1, g1], g2, by rw [g3, h3],
        by rw [g4, h4], by rw [g5, h5], by omega, by omega, by rw [g8, hl]⟩

theorem execAll_append (bb esz : Nat) (cs ds : List QCall) : ∀ (q : Queue) (m : Mem),
    execAll bb esz q m (cs ++ ds) = match execAll bb esz q m cs with
      | none => none
      | some (os, q', m') => match execAll bb esz q' m' ds with
        | none => none
        | some (os', q'', m'') => some (os ++ os', q'', m'') := by
  induction cs with
  | nil => intro q m; simp only [List.nil_append, execAll]; cases execAll bb esz q m ds <;> rfl
  | cons c cs ih =>
    intro q m
    simp only [List.cons_append, execAll]
    cases h : c.exec bb esz q m with
    | none => rfl
    | some r =>
      obtain ⟨o, q', m'⟩ := r
      simp only [ih]
      cases execAll bb esz q' m' cs with
      | none => rfl
      | some r =>
        obtain ⟨os, q', m'⟩ := r
        simp only
        cases execAll bb esz q' m' ds with
        | none => rfl
        | some r => rfl

theorem execAll_length (bb esz : Nat) (cs : List QCall) : ∀ (q : Queue) (m : Mem) os q' m',
    execAll bb esz q m cs = some (os, q', m') → os.length = cs.length := by
  induction cs with
  | nil => intro q m os q' m' h; simp [execAll] at h; simp [← h.1]
  | cons c cs ih =>
    intro q m os q' m' h
    simp only [execAll] at h
    cases h1 : c.exec bb esz q m with
    | none => rw [h1] at h; simp at h
    | some r =>
      obtain ⟨o, q1, m1⟩ := r
      rw [h1] at h
      simp only at h
      cases h2 : execAll bb esz q1 m1 cs with
      | none => rw [h2] at h; simp at h
      | some r =>
        obtain ⟨os1, q2, m2⟩ := r
        rw [h2] at h
        simp at h
        rw [← h.1, List.length_cons, List.length_cons, ih _ _ _ _ _ h2]

/-- Observations of the ideal FIFO: after `j` enqueues (`j` positive, room for all) of `x`, one of
`y`, a dequeue delivers `x`. -/
theorem fifoRun_last (cap : Nat) (x y : List Byte) (j : Nat) : ∀ xs : List (List Byte),
    xs.length + j + 1 ≤ cap → (xs ++ List.replicate j x).head? = some x →
    (fifoRun cap xs (List.replicate j (.enq x) ++ [.enq y, .deq])).getLast? = some (true, some x) := by
  induction j with
  | zero =>
    intro xs h hh
    cases xs with
    | nil => simp at hh
    | cons a xs =>
      simp at hh h
      simp [fifoRun, fifoStep, hh, show xs.length + 1 < cap by omega]
  | succ j ih =>
    intro xs h hh
    rw [List.replicate_succ, List.cons_append]
    have hl : xs.length < cap := by omega
    simp only [fifoRun, fifoStep, hl, if_true]
    have := ih (xs ++ [x]) (by simp; omega) (by rw [List.append_assoc]; exact hh)
    rw [List.getLast?_cons, this]; rfl

end IMU.Props
