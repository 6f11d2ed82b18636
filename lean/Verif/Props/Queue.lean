import Verif.Proofs.QueueHistory
import Verif.Props.Utils

/-!
# Properties C21 - C25: Src/queue.c
-/

namespace IMU.Props
open Spec Utils IMU.Queue

/-- C21: after a successful `Queue_init`, every history of valid calls is free of undefined behaviour
and shows exactly the observations of the ideal bounded FIFO.  The buffer object may end right behind
the `capacity * element_size` bytes. -/
theorem C21_queue_is_fifo (q0 q : Queue) (cap es : U32) (bb bo : Nat) (m m' : Mem)
    (hi : init (some q0) cap es (some (ptr bb bo)) m = .ok (true, some q) m')
    (hlim : (cap.toNat - 1) * es.toNat < 2 ^ 32)
    (hbuf : bo + cap.toNat * es.toNat ≤ (m.bytes bb).length)
    (cs : List QCall) (hv : ∀ c ∈ cs, c.Valid bb es.toNat) :
    ∃ q' m'', execAll bb es.toNat q m' cs =
      some (fifoRun cap.toNat [] (cs.map (·.op es.toNat)), q', m'') := by
  obtain ⟨rfl, hrep⟩ := init_rep q0 q cap es bb bo m m' hi hlim hbuf
  obtain ⟨q', m'', _, h1, _⟩ := execAll_sim cs hrep hv
  exact ⟨q', m'', h1⟩

/-- Non-vacuity of C21: a ring of two one-byte places, driven around the wrap. -/
def exQ0 : Queue := ⟨0, 0, 0, 0, 0, ptr 0 0⟩
def exCall (k : QKind) (v : Byte) : QCall := ⟨k, mem2 [] [v], 1, 0⟩
example : ∃ q m', init (some exQ0) 2 1 (some (ptr 0 0)) (mem2 [0, 0] []) = .ok (true, some q) m' ∧
    (execAll 0 1 q m' [exCall .enq 5, exCall .enq 6, exCall .enq 7, exCall .deq 0, exCall .enq 8,
      exCall .rear 0, exCall .deq 0, exCall .deq 0, exCall .deq 0]).map (·.1) =
    some [(true, none), (true, none), (false, none), (true, some [5]), (true, none),
      (true, some [8]), (true, some [6]), (true, some [8]), (false, none)] := ⟨_, _, rfl, by decide⟩
example : (exCall .enq 5).Valid 0 1 := by constructor <;> decide

/-- C22: calls on a full/empty queue or with null pointers return false and change nothing, in every
state whatsoever. -/
theorem C22_rejected_calls (q : Queue) (el : Ptr) (m : Mem) :
    (IMU.Queue.full q = true → enqueue (some q) (some el) m = .ok (false, some q) m) ∧
    (IMU.Queue.empty q = true → dequeue (some q) (some el) m = .ok (false, some q) m ∧
      IMU.Queue.front (some q) (some el) m = .ok false m ∧
      IMU.Queue.rear (some q) (some el) m = .ok false m) ∧
    (enqueue (some q) none m = .ok (false, some q) m ∧ dequeue (some q) none m = .ok (false, some q) m ∧
      IMU.Queue.front (some q) none m = .ok false m ∧ IMU.Queue.rear (some q) none m = .ok false m) ∧
    (enqueue none (some el) m = .ok (false, none) m ∧ dequeue none (some el) m = .ok (false, none) m ∧
      IMU.Queue.front none (some el) m = .ok false m ∧ IMU.Queue.rear none (some el) m = .ok false m) := by
  refine ⟨?_, ?_, ⟨rfl, rfl, rfl, rfl⟩, rfl, rfl, rfl, rfl⟩
  · intro h; simp [enqueue, h]
  · intro h; simp [dequeue, IMU.Queue.front, IMU.Queue.rear, h]

/-- C22: in every reachable state, `full` and `empty` are exactly the conditions under which the calls
are rejected. -/
theorem C22_accepted_calls (q0 q : Queue) (cap es : U32) (bb bo : Nat) (m m' : Mem)
    (hi : init (some q0) cap es (some (ptr bb bo)) m = .ok (true, some q) m')
    (hlim : (cap.toNat - 1) * es.toNat < 2 ^ 32)
    (hbuf : bo + cap.toNat * es.toNat ≤ (m.bytes bb).length)
    (cs : List QCall) (hv : ∀ c ∈ cs, c.Valid bb es.toNat) (c : QCall) (hc : c.Valid bb es.toNat)
    (os : List QObs) (q1 : Queue) (m1 : Mem) (hx : execAll bb es.toNat q m' cs = some (os, q1, m1)) :
    (c.kind = .enq → ∃ q2 m2, c.exec bb es.toNat q1 m1 = some ((!IMU.Queue.full q1, none), q2, m2)) ∧
    (c.kind = .deq ∨ c.kind = .front ∨ c.kind = .rear →
      ∃ e q2 m2, c.exec bb es.toNat q1 m1 = some ((!IMU.Queue.empty q1, e), q2, m2)) := by
  obtain ⟨rfl, hrep⟩ := init_rep q0 q cap es bb bo m m' hi hlim hbuf
  obtain ⟨q', m'', xs, h1, h2⟩ := execAll_sim cs hrep hv
  rw [hx] at h1
  simp only [Option.some.injEq, Prod.mk.injEq] at h1
  obtain ⟨-, rfl, rfl⟩ := h1
  obtain ⟨q2, m2, h3, -, -⟩ := exec_step h2 c hc
  have hle := h2.size_le
  constructor
  · intro hk
    refine ⟨q2, m2, ?_⟩
    rw [h3, h2.full_iff]
    simp only [QCall.op, hk, fifoStep]
    by_cases hlt : xs.length < cap.toNat
    · have : ¬ xs.length = cap.toNat := by omega
      simp [hlt, this]
    · have : xs.length = cap.toNat := by omega
      simp [this]
  · intro hk
    refine ⟨(fifoStep cap.toNat xs (c.op es.toNat)).1.2, q2, m2, ?_⟩
    rw [h3, h2.empty_iff]
    rcases hk with hk | hk | hk
    · cases xs <;> simp [QCall.op, hk, fifoStep]
    · cases xs <;> simp [QCall.op, hk, fifoStep]
    · rcases List.eq_nil_or_concat xs with rfl | ⟨ys, x, rfl⟩ <;> simp [QCall.op, hk, fifoStep]

/-- C23: in every reachable state, every valid call is free of undefined behaviour (the buffer object
may be exactly `capacity * element_size` bytes long) and changes memory only where it should. -/
theorem C23_queue_stays_inside (q0 q : Queue) (cap es : U32) (bb bo : Nat) (m m' : Mem)
    (hi : init (some q0) cap es (some (ptr bb bo)) m = .ok (true, some q) m')
    (hlim : (cap.toNat - 1) * es.toNat < 2 ^ 32)
    (hbuf : bo + cap.toNat * es.toNat ≤ (m.bytes bb).length)
    (cs : List QCall) (hv : ∀ c ∈ cs, c.Valid bb es.toNat) (c : QCall) (hc : c.Valid bb es.toNat) :
    ∃ os q1 m1, execAll bb es.toNat q m' cs = some (os, q1, m1) ∧
      ∃ o q2 m2, c.exec bb es.toNat q1 m1 = some (o, q2, m2) ∧
        c.Frame bb bo cap.toNat es.toNat (c.mem bb m1) m2 := by
  obtain ⟨rfl, hrep⟩ := init_rep q0 q cap es bb bo m m' hi hlim hbuf
  obtain ⟨q', m'', xs, h1, h2⟩ := execAll_sim cs hrep hv
  obtain ⟨q2, m2, h3, -, h4⟩ := exec_step h2 c hc
  exact ⟨_, q', m'', h1, _, q2, m2, h3, h4⟩

/-- C24: the limit in C21 is necessary.  For every larger ring (with a buffer that is large enough)
there is a history of valid calls, free of undefined behaviour, whose observations differ from those of
the ideal FIFO: the 32-bit offset of a later element wraps onto the first one, and dequeue delivers a
corrupted element. -/
theorem C24_limit_necessary (q0 q : Queue) (cap es : U32) (bb bo : Nat) (m m' : Mem)
    (hi : init (some q0) cap es (some (ptr bb bo)) m = .ok (true, some q) m')
    (hlim : 2 ^ 32 ≤ (cap.toNat - 1) * es.toNat)
    (hbuf : bo + cap.toNat * es.toNat ≤ (m.bytes bb).length) :
    ∃ cs : List QCall, (∀ c ∈ cs, c.Valid bb es.toNat) ∧ ∃ os q' m'',
      execAll bb es.toNat q m' cs = some (os, q', m'') ∧
      os ≠ fifoRun cap.toNat [] (cs.map (·.op es.toNat)) := by
  unfold init at hi
  simp only at hi
  split at hi
  case isFalse => simp at hi
  rename_i hc
  simp only [C.pure_run, Res.ok.injEq, Prod.mk.injEq, Option.some.injEq, true_and] at hi
  obtain ⟨rfl, rfl⟩ := hi
  have hcap0 : cap.toNat ≠ 0 := fun h => hc.2 (BitVec.eq_of_toNat_eq (by simpa using h))
  have hes0 : es.toNat ≠ 0 := fun h => hc.1 (BitVec.eq_of_toNat_eq (by simpa using h))
  have hcl := cap.isLt
  have hel := es.isLt
  have hr : (cap - 1#32).toNat = cap.toNat - 1 := by
    rw [BitVec.toNat_sub]; simp only [BitVec.toNat_ofNat]; omega
  -- the first place whose offset wraps
  obtain ⟨j, hj1, hj2, hj3⟩ : ∃ j, j + 1 ≤ cap.toNat ∧ 2 ^ 32 ≤ j * es.toNat ∧ j * es.toNat < 2 ^ 32 + es.toNat := by
    refine ⟨(2 ^ 32 + es.toNat - 1) / es.toNat, ?_, ?_, ?_⟩
    · have : (2 ^ 32 + es.toNat - 1) / es.toNat < cap.toNat := by
        rw [Nat.div_lt_iff_lt_mul (by omega)]
        have : cap.toNat * es.toNat = (cap.toNat - 1) * es.toNat + es.toNat := by
          conv_lhs => rw [show cap.toNat = (cap.toNat - 1) + 1 by omega, Nat.add_mul, Nat.one_mul]
        omega
      omega
    · have := Nat.lt_div_mul_add (a := 2 ^ 32 + es.toNat - 1) (b := es.toNat) (by omega)
      omega
    · have := Nat.div_mul_le_self (2 ^ 32 + es.toNat - 1) es.toNat
      omega
  have hj0 : 0 < j := by
    rcases Nat.eq_zero_or_pos j with h | h
    · rw [h] at hj2; simp at hj2
    · exact h
  have hmod : (j * es.toNat) % 2 ^ 32 = j * es.toNat - 2 ^ 32 := by
    rw [Nat.mod_eq_sub_mod hj2, Nat.mod_eq_of_lt (by omega)]
  set off := j * es.toNat - 2 ^ 32 with hoff
  have hofl : off < es.toNat := by omega
  set q : Queue := ⟨cap, 0#32, cap - 1#32, 0#32, es, ptr bb bo⟩ with hq
  obtain ⟨os1, q1, m1, a1, a2, a3, a4, a5, a6, a7, a8⟩ := enq_many bb bo 0#8 j q m 0 rfl
    (show 0 + j ≤ cap.toNat by omega) hj0 rfl
    (show ((cap - 1#32).toNat + 1) % cap.toNat = 0 by
      rw [hr, show cap.toNat - 1 + 1 = cap.toNat by omega]; simp)
    (show (cap - 1#32).toNat < cap.toNat by omega) hbuf
  change execAll bb es.toNat q m _ = _ at a1
  change q1.capacity = cap at a3
  change q1.element_size = es at a4
  obtain ⟨q2, m2, b1, b2, b3, b4, b5, b6, b7, b8⟩ := enq_raw q1 bb bo j m1 1#8 a2 (by rw [a3]; omega)
    (by omega) (by rw [a3, show q1.rear.toNat + 1 = j by omega, Nat.mod_eq_of_lt (by omega)])
    (by rw [a3]; omega) (by rw [a3, a4, a8]; exact hbuf)
  rw [a4] at b1 b8
  rw [hmod] at b8
  have hce : es.toNat ≤ cap.toNat * es.toNat := by
    have := slot_le es.toNat (show 0 < cap.toNat by omega); omega
  have hce2 : off + es.toNat ≤ cap.toNat * es.toNat := by
    have := slot_le es.toNat (show 1 < cap.toNat by omega); omega
  -- the dequeue
  set c := constCall .deq bb es.toNat 0#8 with hcdef
  have hbb : (c.mem bb m2).bytes bb = m2.bytes bb := by simp [QCall.mem]
  have hbe : (c.mem bb m2).bytes (bb + 1) = List.replicate es.toNat 0#8 := by
    simp [QCall.mem, hcdef, constCall, constMem]
  have hl2 : (m2.bytes bb).length = (m.bytes bb).length := by
    rw [b8, splice_length _ _ _ (by simp; omega), a8]
  have hcpy := memcpy_ok (b := bb + 1) (o := 0) (b' := bb) (o' := bo) (n := es.toNat)
    (m := c.mem bb m2) (by rw [hbe]; simp) (by rw [hbb]; omega) (.inl (by omega))
  rw [hbb, hbe] at hcpy
  have hsl : (slice (m2.bytes bb) bo es.toNat).length = es.toNat := slice_length _ _ _ (by omega)
  have hne2 : IMU.Queue.empty q2 = false := by
    unfold IMU.Queue.empty
    rw [beq_eq_false_iff_ne]; intro h; rw [h] at b6; simp at b6
  have hc2 : q2.capacity ≠ 0#32 := by rw [b3, a3]; exact hc.2
  have hf2 : (q2.front * q2.element_size).toNat = 0 := by
    rw [b5, a5]; show ((0#32) * q2.element_size).toNat = 0; simp
  rw [b4, a4] at hf2
  have hdeq : c.exec bb es.toNat q2 m2 = some ((true, some (slice (m2.bytes bb) bo es.toNat)),
      { q2 with front := (q2.front + 1#32) % q2.capacity, size := q2.size - 1#32 },
      (c.mem bb m2).upd (bb + 1) (splice (List.replicate es.toNat 0#8) 0 (slice (m2.bytes bb) bo es.toNat))) := by
    have he : dequeue (some q2) (some (ptr (bb + 1) 0)) (c.mem bb m2) =
        .ok (true, some { q2 with front := (q2.front + 1#32) % q2.capacity, size := q2.size - 1#32 })
          ((c.mem bb m2).upd (bb + 1)
            (splice (List.replicate es.toNat 0#8) 0 (slice (m2.bytes bb) bo es.toNat))) := by
      simp only [dequeue]
      rw [hne2]
      simp only [Bool.not_false, if_true, C.bind_run, C.require_ok hc2, C.pure_run, hf2, b2, ptr_addN, b4,
        a4, Nat.add_zero, hcpy]
    show (match dequeue (some q2) (some (ptr (bb + 1) 0)) (c.mem bb m2) with
      | .ok (r, some q') m' => some ((r, delivered r m' c es.toNat), q', m')
      | _ => none) = _
    rw [he]
    have := slice_splice_same (List.replicate es.toNat 0#8) 0 (slice (m2.bytes bb) bo es.toNat)
      (by simp; omega)
    rw [hsl] at this
    simp only [delivered, if_true]
    rw [show c.blk = bb + 1 from rfl, show c.off = 0 from rfl, Mem.upd_bytes, if_pos rfl, this]
  refine ⟨List.replicate j (constCall .enq bb es.toNat 0#8) ++ [constCall .enq bb es.toNat 1#8, c], ?_,
    os1 ++ [(true, none), (true, some (slice (m2.bytes bb) bo es.toNat))],
    { q2 with front := (q2.front + 1#32) % q2.capacity, size := q2.size - 1#32 },
    (c.mem bb m2).upd (bb + 1)
      (splice (List.replicate es.toNat 0#8) 0 (slice (m2.bytes bb) bo es.toNat)), ?_, ?_⟩
  · intro d hd
    simp only [List.mem_append, List.mem_replicate, List.mem_cons, List.not_mem_nil, or_false] at hd
    rcases hd with hd | hd | hd
    · rw [hd.2]; exact constCall_valid ..
    · rw [hd]; exact constCall_valid ..
    · rw [hd]; exact constCall_valid ..
  · rw [execAll_append, a1]
    simp only [execAll, b1, hdeq]
  · intro heq
    have hlast := congrArg List.getLast? heq
    rw [List.map_append, List.map_replicate, List.map_cons, List.map_cons, List.map_nil] at hlast
    rw [show (constCall .enq bb es.toNat 0#8).op es.toNat = .enq (List.replicate es.toNat 0#8) from
        congrArg QOp.enq (constCall_elem .enq bb es.toNat 0#8),
      show (constCall .enq bb es.toNat 1#8).op es.toNat = .enq (List.replicate es.toNat 1#8) from
        congrArg QOp.enq (constCall_elem .enq bb es.toNat 1#8),
      show c.op es.toNat = .deq from rfl, fifoRun_last _ _ _ _ _ (by simpa using hj1)
        (by obtain ⟨k, rfl⟩ : ∃ k, j = k + 1 := ⟨j - 1, by omega⟩
            simp [List.replicate_succ])] at hlast
    simp only [List.getLast?_append, List.getLast?_cons_cons, List.getLast?_singleton, Option.some_or,
      Option.some.injEq, Prod.mk.injEq, true_and] at hlast
    have h1 := congrArg (fun l => l[off]?) hlast
    simp only [getElem?_slice, hofl, if_true, List.getElem?_replicate] at h1
    rw [b8, getElem?_splice _ _ _ (by simp; omega)] at h1
    simp [show 0 < es.toNat by omega, List.getElem?_replicate] at h1

/-- Non-vacuity of C24: 65537 elements of 65537 bytes. -/
example : 2 ^ 32 ≤ ((65537#32).toNat - 1) * (65537#32).toNat := by decide

/-- C25: `Queue_init` accepts exactly non-zero sizes and a non-null buffer, yields an empty queue with
the given parameters, and otherwise leaves the structure unchanged. -/
theorem C25_init_validates (q0 : Queue) (cap es : U32) (buf : Option Ptr) (m : Mem) :
    ∃ r q, init (some q0) cap es buf m = .ok (r, some q) m ∧
      (r = true ↔ cap ≠ 0 ∧ es ≠ 0 ∧ buf ≠ none) ∧
      (r = true → IMU.Queue.empty q = true ∧ q.capacity = cap ∧ q.element_size = es ∧
        some q.buffer = buf) ∧
      (r = false → q = q0) := by
  cases buf with
  | none => exact ⟨false, q0, rfl, by simp, by simp, by simp⟩
  | some p =>
    by_cases h : es ≠ 0#32 ∧ cap ≠ 0#32
    · refine ⟨true, ⟨cap, 0#32, cap - 1#32, 0#32, es, p⟩, ?_, ?_, ?_, by simp⟩
      · simp [init, h]
      · simpa using ⟨h.2, h.1⟩
      · intro _; simp [IMU.Queue.empty]
    · refine ⟨false, q0, ?_, ?_, by simp, by simp⟩
      · simp only [init, if_neg h, C.pure_run]
      · simp only [Bool.false_eq_true, false_iff]
        intro hc; exact h ⟨hc.2.1, hc.1⟩

/-- C25: the structure pointer itself is not validated: a null pointer with otherwise acceptable arguments is
dereferenced; with unacceptable ones the call reports failure. -/
theorem C25_null_queue (cap es : U32) (buf : Option Ptr) (m : Mem) :
    (cap ≠ 0 ∧ es ≠ 0 ∧ buf ≠ none → init none cap es buf m = .ub .nullDeref) ∧
    (¬ (cap ≠ 0 ∧ es ≠ 0 ∧ buf ≠ none) → init none cap es buf m = .ok (false, none) m) := by
  cases buf with
  | none => exact ⟨fun h => absurd rfl h.2.2, fun _ => rfl⟩
  | some p =>
    constructor
    · rintro ⟨h1, h2, -⟩
      simp only [init, if_pos (show es ≠ 0#32 ∧ cap ≠ 0#32 from ⟨h2, h1⟩)]; rfl
    · intro h
      have h' : ¬ (es ≠ 0#32 ∧ cap ≠ 0#32) := fun hc => h ⟨hc.2, hc.1, by simp⟩
      simp only [init, if_neg h']; rfl
example : init none 2 1 (some (ptr 0 0)) (mem2 [0, 0] []) = .ub .nullDeref := rfl

end IMU.Props
