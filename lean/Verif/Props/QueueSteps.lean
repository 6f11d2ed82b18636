import Verif.Proofs.QueueStepsAlone
import Verif.Proofs.Linearizable

/-!
# C92, C93: the queue shared by two callers that interrupt each other
-/

namespace IMU.Props
open Queue Spec

/-- Every element pointer is in range, in an object of its own, not in the buffer object `bb`. -/
def SharedArgs (esz bb : Nat) (m : Mem) (ps : List Ptr) : Prop :=
  ∀ p ∈ ps, ∃ b o, p = ptr b o ∧ b ≠ bb ∧ o + esz ≤ (m.bytes b).length

/-- The two callers before their first call: `a` makes the calls `Queue_enqueue` with the elements `ps`, `b` makes the
calls `Queue_dequeue` to the places `rs`. -/
def twoCallers (q : Queue) (m : Mem) (ps rs : List Ptr) : Sys :=
  ⟨⟨ps.map .enq, .idle⟩, ⟨rs.map .deq, .idle⟩, q, m⟩

/-- **C92**: a caller that nobody interrupts makes exactly the call of the model of `Queue_enqueue` (and undefined
behaviour corresponds to undefined behaviour), with the update of the counter in one step or in two. -/
theorem C92_uninterrupted_enqueue (atomic : Bool) (other : Caller) (q : Queue) (p : Ptr) (m : Mem) (n : Nat)
    (hn : q.element_size.toNat + 8 ≤ n) :
    interleave atomic ⟨⟨[.enq p], .idle⟩, other, q, m⟩ (List.replicate n false) =
      match enqueue (some q) (some p) m with
      | .ok (b, q') m' => some (⟨⟨[], .idle⟩, other, q'.getD q, m'⟩,
          [(false, .call (.enq p) m), (false, .ret b none m')])
      | .ub _ => none :=
  alone_enqueue atomic other q p m n hn

/-- **C92**: the same for `Queue_dequeue`. -/
theorem C92_uninterrupted_dequeue (atomic : Bool) (other : Caller) (q : Queue) (p : Ptr) (m : Mem) (n : Nat)
    (hn : q.element_size.toNat + 8 ≤ n) :
    interleave atomic ⟨⟨[.deq p], .idle⟩, other, q, m⟩ (List.replicate n false) =
      match dequeue (some q) (some p) m with
      | .ok (b, q') m' => some (⟨⟨[], .idle⟩, other, q'.getD q, m'⟩,
          [(false, .call (.deq p) m), (false, .ret b (if b then some p else none) m')])
      | .ub _ => none :=
  alone_dequeue atomic other q p m n hn

/-- **C92**: one producer, one consumer, the counter updated in one step: however the two interrupt each other, nothing
undefined happens and the history is linearizable: every call takes effect at one instant between its start and its
answer, and the answers are those of the ideal bounded FIFO. -/
theorem C92_linearizable (q0 q : Queue) (cap es : U32) (bb bo : Nat) (m m' : Mem)
    (h : init (some q0) cap es (some (ptr bb bo)) m = .ok (true, some q) m')
    (hlim : (cap.toNat - 1) * es.toNat < 2 ^ 32) (hbuf : bo + cap.toNat * es.toNat ≤ (m.bytes bb).length)
    (ps rs : List Ptr) (hps : SharedArgs es.toNat bb m ps) (hrs : SharedArgs es.toNat bb m rs)
    (hsep : ∀ p ∈ ps, ∀ r ∈ rs, p.blk ≠ r.blk) (sched : List Bool) :
    ∃ s h, interleave true (twoCallers q m' ps rs) sched = some (s, h) ∧
      Linearizable (fifoStep cap.toNat) [] (queueHistory es.toNat h) := by
  obtain ⟨rfl, hrep⟩ := init_rep q0 q cap es bb bo m m' h hlim hbuf
  have hi : Inv cap.toNat es.toNat bb bo (fun b => ∃ p ∈ ps, p.blk = b) (fun b => ∃ r ∈ rs, r.blk = b)
      (twoCallers q m' ps rs) .idle .idle [] q.front.toNat := by
    refine Inv.of_rep hrep rfl rfl ?_ ?_
    · intro x hx
      obtain ⟨p, hp, rfl⟩ := List.mem_map.1 hx
      obtain ⟨b, o, h1, -, h3⟩ := hps p hp
      exact ⟨p, rfl, b, o, h1, ⟨p, hp, by rw [h1]⟩, h3⟩
    · intro x hx
      obtain ⟨p, hp, rfl⟩ := List.mem_map.1 hx
      obtain ⟨b, o, h1, -, h3⟩ := hrs p hp
      exact ⟨p, rfl, b, o, h1, ⟨p, hp, by rw [h1]⟩, h3⟩
  obtain ⟨s, es', h1, -, l, h2, h3, h4, h5⟩ := interleave_ok
    (by rintro b ⟨p, hp, rfl⟩; obtain ⟨b, o, rfl, hb, -⟩ := hps p hp; exact hb)
    (by rintro b ⟨p, hp, rfl⟩; obtain ⟨b, o, rfl, hb, -⟩ := hrs p hp; exact hb)
    (by rintro b ⟨p, hp, rfl⟩ ⟨r, hr, hb⟩; exact hsep p hp r hr hb.symm) sched _ _ _ _ _ hi
  exact ⟨s, es', h1, l, h2, fun t => by cases t; exacts [h3, h4], h5⟩

/-- **C92**: in plain words: what the consumer has got at any time is a prefix of what the producer's calls accepted;
nothing is lost, duplicated, reordered or torn. -/
theorem C92_fifo (q0 q : Queue) (cap es : U32) (bb bo : Nat) (m m' : Mem)
    (h : init (some q0) cap es (some (ptr bb bo)) m = .ok (true, some q) m')
    (hlim : (cap.toNat - 1) * es.toNat < 2 ^ 32) (hbuf : bo + cap.toNat * es.toNat ≤ (m.bytes bb).length)
    (ps rs : List Ptr) (hps : SharedArgs es.toNat bb m ps) (hrs : SharedArgs es.toNat bb m rs)
    (hsep : ∀ p ∈ ps, ∀ r ∈ rs, p.blk ≠ r.blk) (sched : List Bool) :
    ∃ s h, interleave true (twoCallers q m' ps rs) sched = some (s, h) ∧
      delivered (eventsOf true (queueHistory es.toNat h)) <+: accepted (eventsOf false (queueHistory es.toNat h)) := by
  obtain ⟨s, hh, h1, h2⟩ := C92_linearizable q0 q cap es bb bo m m' h hlim hbuf ps rs hps hrs hsep sched
  refine ⟨s, hh, h1, fifo_of_linearizable h2 ?_ ?_⟩
  · intro op hop
    obtain ⟨x, mm, hx, hq⟩ := mem_eventsOf hop
    obtain ⟨p, -, rfl⟩ := List.mem_map.1 ((calls_todo _ _ _ _ _ h1).1 x mm hx)
    simp only [queueEvent, HEv.call.injEq] at hq
    exact ⟨_, hq.symm⟩
  · intro op hop
    obtain ⟨x, mm, hx, hq⟩ := mem_eventsOf hop
    obtain ⟨p, -, rfl⟩ := List.mem_map.1 ((calls_todo _ _ _ _ _ h1).2 x mm hx)
    simp only [queueEvent, HEv.call.injEq] at hq
    exact hq.symm

/-- **C92**: nobody waits for the other: whatever the other caller does, a caller has finished its `k` calls when it has
made `k * (element_size + 8)` steps of its own (also with the counter updated in two steps). -/
theorem C92_wait_free (atomic : Bool) (q : Queue) (m : Mem) (calls others : List Act) (sched : List Bool) (s : Sys)
    (h : List (Bool × Event)) (hrun : interleave atomic ⟨⟨calls, .idle⟩, ⟨others, .idle⟩, q, m⟩ sched = some (s, h)) :
    (calls.length * (q.element_size.toNat + 8) ≤ sched.count false → s.a = ⟨[], .idle⟩) ∧
    (others.length * (q.element_size.toNat + 8) ≤ sched.count true → s.b = ⟨[], .idle⟩) := by
  have := interleave_measure _ _ _ _ _ hrun
  have ha : Queue.measure q.element_size.toNat ⟨calls, .idle⟩ = calls.length * (q.element_size.toNat + 8) := by
    simp [Queue.measure, rank]
  have hb : Queue.measure q.element_size.toNat ⟨others, .idle⟩ = others.length * (q.element_size.toNat + 8) := by
    simp [Queue.measure, rank]
  simp only [ha, hb] at this
  exact ⟨fun hc => measure_zero (esz := q.element_size.toNat) (by omega),
    fun hc => measure_zero (esz := q.element_size.toNat) (by omega)⟩

/-! ### The counter updated in two steps -/

/-- Object 0 is the buffer (two places of one byte), objects 1 and 2 hold the elements 7 and 9, object 3 is for results,
object 4 too. -/
def exStepsMem : Mem := ⟨fun b => [[0, 0], [7], [9], [0], [0]].getD b [], fun _ => []⟩

/-- The queue of capacity 2 just after `Queue_init`. -/
def exStepsQ : Queue := ⟨2#32, 0#32, 1#32, 0#32, 1#32, ptr 0 0⟩

/-- The hypotheses of C92 are met by this queue and these calls. -/
example : init (some exStepsQ) 2#32 1#32 (some (ptr 0 0)) exStepsMem = .ok (true, some exStepsQ) exStepsMem ∧
    SharedArgs 1 0 exStepsMem [ptr 1 0, ptr 2 0] ∧ SharedArgs 1 0 exStepsMem [ptr 3 0, ptr 4 0] ∧
    (∀ p ∈ [ptr 1 0, ptr 2 0], ∀ r ∈ [ptr 3 0, ptr 4 0], p.blk ≠ r.blk) := by
  refine ⟨rfl, ?_, ?_, by decide⟩
  · intro p hp
    simp only [List.mem_cons, List.not_mem_nil, or_false] at hp
    rcases hp with rfl | rfl
    · exact ⟨1, 0, rfl, by decide, by decide⟩
    · exact ⟨2, 0, rfl, by decide, by decide⟩
  · intro p hp
    simp only [List.mem_cons, List.not_mem_nil, or_false] at hp
    rcases hp with rfl | rfl
    · exact ⟨3, 0, rfl, by decide, by decide⟩
    · exact ⟨4, 0, rfl, by decide, by decide⟩

/-- … and a run in which the calls do overlap: the dequeue runs while the second enqueue copies. -/
example : (interleave true (twoCallers exStepsQ exStepsMem [ptr 1 0, ptr 2 0] [ptr 3 0, ptr 4 0])
      (List.replicate 11 false ++ List.replicate 8 true ++ List.replicate 8 false ++ List.replicate 8 true)).map
        (fun r => queueHistory 1 r.2) =
    some [(false, .call (.enq [7])), (false, .ret (true, none)), (false, .call (.enq [9])), (true, .call .deq),
      (true, .ret (true, some [7])), (false, .ret (true, none)), (true, .call .deq), (true, .ret (true, some [9]))] := by
  decide +kernel

/-- **C93**: with the counter read and written back in two steps, an interrupt handler that dequeues in between makes
the queue hand out an element that it already handed out: two elements are enqueued, three come out.  (Every call of the
handler `b` runs without being interrupted itself.) -/
theorem C93_duplicated :
    (interleave false (twoCallers exStepsQ exStepsMem [ptr 1 0, ptr 2 0] [ptr 3 0, ptr 3 0, ptr 4 0])
      (List.replicate 16 false ++ List.replicate 9 true ++ List.replicate 2 false ++ List.replicate 18 true)).map
        (fun r => queueHistory 1 r.2) =
    some [(false, .call (.enq [7])), (false, .ret (true, none)), (false, .call (.enq [9])), (true, .call .deq),
      (true, .ret (true, some [7])), (false, .ret (true, none)), (true, .call .deq), (true, .ret (true, some [9])),
      (true, .call .deq), (true, .ret (true, some [7]))] := by
  decide +kernel

/-- **C93**: no order of the calls explains this. -/
theorem C93_not_linearizable :
    ∃ s h, interleave false (twoCallers exStepsQ exStepsMem [ptr 1 0, ptr 2 0] [ptr 3 0, ptr 3 0, ptr 4 0])
      (List.replicate 16 false ++ List.replicate 9 true ++ List.replicate 2 false ++ List.replicate 18 true) =
        some (s, h) ∧ ¬ Linearizable (fifoStep 2) [] (queueHistory 1 h) := by
  have hrun := C93_duplicated
  cases hr : interleave false (twoCallers exStepsQ exStepsMem [ptr 1 0, ptr 2 0] [ptr 3 0, ptr 3 0, ptr 4 0])
      (List.replicate 16 false ++ List.replicate 9 true ++ List.replicate 2 false ++ List.replicate 18 true) with
  | none => rw [hr] at hrun; simp at hrun
  | some r =>
    rw [hr] at hrun
    obtain ⟨s, hh⟩ := r
    simp only [Option.map_some, Option.some.injEq] at hrun
    refine ⟨s, hh, rfl, fun hl => ?_⟩
    rw [hrun] at hl
    have := fifo_of_linearizable hl
      (by
        intro op hop
        have : op = .enq [7] ∨ op = .enq [9] := by simpa [eventsOf] using hop
        rcases this with rfl | rfl <;> exact ⟨_, rfl⟩)
      (by
        intro op hop
        simpa [eventsOf] using hop)
    revert this
    decide +kernel

/-- **C93**: and a handler that enqueues while the main program dequeues can make an accepted element vanish: the
answer to the second enqueue was "accepted", the queue then reports that it is empty. -/
theorem C93_lost :
    (interleave false (twoCallers exStepsQ exStepsMem [ptr 1 0, ptr 2 0] [ptr 3 0, ptr 4 0])
      (List.replicate 9 false ++ List.replicate 7 true ++ List.replicate 9 false ++ List.replicate 5 true)).map
        (fun r => queueHistory 1 r.2) =
    some [(false, .call (.enq [7])), (false, .ret (true, none)), (true, .call .deq), (false, .call (.enq [9])),
      (false, .ret (true, none)), (true, .ret (true, some [7])), (true, .call .deq), (true, .ret (false, none))] := by
  decide +kernel

/-- **C93**: two producers need a lock even if the counter is updated in one step: both write the same place.  The
element 9 is accepted and lost, and a byte that nobody enqueued comes out. -/
theorem C93_two_producers :
    (interleave true ⟨⟨[.enq (ptr 1 0), .deq (ptr 3 0), .deq (ptr 4 0)], .idle⟩, ⟨[.enq (ptr 2 0)], .idle⟩, exStepsQ, exStepsMem⟩
      (List.replicate 3 false ++ List.replicate 8 true ++ List.replicate 21 false)).map
        (fun r => queueHistory 1 r.2) =
    some [(false, .call (.enq [7])), (true, .call (.enq [9])), (true, .ret (true, none)), (false, .ret (true, none)),
      (false, .call .deq), (false, .ret (true, some [7])), (false, .call .deq), (false, .ret (true, some [0]))] := by
  decide +kernel

/-- **C93**: so do two consumers: the same element goes to both. -/
theorem C93_two_consumers :
    (interleave true ⟨⟨[.enq (ptr 1 0), .enq (ptr 2 0), .deq (ptr 3 0)], .idle⟩, ⟨[.deq (ptr 4 0)], .idle⟩, exStepsQ, exStepsMem⟩
      (List.replicate 19 false ++ List.replicate 8 true ++ List.replicate 5 false)).map
        (fun r => queueHistory 1 r.2) =
    some [(false, .call (.enq [7])), (false, .ret (true, none)), (false, .call (.enq [9])), (false, .ret (true, none)),
      (false, .call .deq), (true, .call .deq), (true, .ret (true, some [7])), (false, .ret (true, some [7]))] := by
  decide +kernel

end IMU.Props
