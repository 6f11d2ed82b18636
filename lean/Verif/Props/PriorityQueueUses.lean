import Verif.Proofs.PriorityQueueUses
import Verif.Props.PriorityQueueOrder
import Verif.Props.Queue

/-!
# Property C127: the priority queue as a FIFO and as a stack

Specification: `Verif/Spec/PriorityQueueUses.lean`.
-/

namespace IMU.Props
open Spec IMU.PQ

variable {cap es : U32} {bb bo pa : Nat} {cs : List PQCall} {os : List PQObs} {q : PQueue} {m : Mem}

/-- C127: if no element is offered with a priority above that of an earlier one (stored or offered), the priority queue
answers every call as the FIFO. -/
theorem C127_fifo (h : PQReach cap es bb bo pa cs os q m) (cs' : List PQCall) (hv : ∀ c ∈ cs', c.Valid bb es.toNat)
    (hp : (stored q m bb bo pa es.toNat ++ offered (cs'.map (·.op es.toNat))).Pairwise fun a b => b.1 ≤ a.1) :
    ∃ q' m', pqExecAll bb pa es.toNat q m cs' =
      some (fifoRun cap.toNat ((stored q m bb bo pa es.toNat).map (·.2)) ((cs'.map (·.op es.toNat)).map PQOp.toQ), q', m') := by
  obtain ⟨os', q', m', out, h1, h2⟩ := h.go cs' hv
  exact ⟨q', m', by rw [h1, fifo_run h2 hp]⟩

/-- C127: with one and the same priority for all elements a priority queue and a queue of the same capacity give the same
answers to the same calls. -/
theorem C127_queue (p : U32) (q0 q : PQueue) (r0 r : IMU.Queue.Queue) (cap es : U32) (bb bo pa cb co : Nat)
    (m n n' : Mem)
    (hi : init (some q0) cap es (some ⟨pa, ptr bb bo⟩) = (true, some q))
    (hj : IMU.Queue.init (some r0) cap es (some (ptr cb co)) n = .ok (true, some r) n')
    (hlim : (cap.toNat - 1) * es.toNat < 2 ^ 32)
    (hbuf : bo + cap.toNat * es.toNat ≤ (m.bytes bb).length) (hpa : cap.toNat ≤ (m.words pa).length)
    (hbuf' : co + cap.toNat * es.toNat ≤ (n.bytes cb).length)
    (cs : List PQCall) (hv : ∀ c ∈ cs, c.Valid bb es.toNat) (ds : List QCall) (hv' : ∀ c ∈ ds, c.Valid cb es.toNat)
    (hp : ∀ c ∈ cs, ∀ k, c.kind = .enq k → k = p)
    (hcd : (cs.map (·.op es.toNat)).map PQOp.toQ = ds.map (·.op es.toNat)) :
    ∃ os q' m' r' n'', pqExecAll bb pa es.toNat q m cs = some (os, q', m') ∧
      execAll cb es.toNat r n' ds = some (os, r', n'') := by
  obtain ⟨r', n'', h1⟩ := C21_queue_is_fifo r0 r cap es cb co n n' hj hlim hbuf' ds hv'
  obtain ⟨os, q', m', out, h2, h3⟩ := C26_pq_refines q0 q cap es bb bo pa m hi hlim hbuf hpa cs hv
  have := fifo_run h3 (by
    have hall : ∀ y ∈ offered (cs.map (·.op es.toNat)), y.1 = p := by
      clear hcd h2 h3 hv
      induction cs with
      | nil => simp [offered]
      | cons c t ih =>
        have ih' := ih (fun c hc => hp c (by simp [hc]))
        have hc := hp c (by simp)
        rw [List.map_cons, offered_cons]
        intro y hy
        rcases List.mem_append.1 hy with hy | hy
        · unfold PQCall.op at hy
          cases hk : c.kind with
          | enq k =>
            rw [hk] at hy
            simp only [offered, List.mem_singleton] at hy
            rw [hy]
            exact hc k hk
          | deq => rw [hk] at hy; simp [offered] at hy
          | empty => rw [hk] at hy; simp [offered] at hy
        · exact ih' y hy
    rw [List.nil_append]
    apply List.pairwise_of_forall_mem_list
    intro a ha b hb
    rw [hall a ha, hall b hb]
    exact BitVec.le_refl _)
  rw [hcd] at this
  exact ⟨os, q', m', r', n'', h2, by rw [h1, this]; rfl⟩

/-- C127: if every element is offered with a priority above those of all earlier ones (a count of calls, for instance), the
priority queue is a stack: a dequeue delivers the newest element, an enqueue is never refused and drops the oldest
element of a full queue. -/
theorem C127_stack (h : PQReach cap es bb bo pa cs os q m) (cs' : List PQCall) (hv : ∀ c ∈ cs', c.Valid bb es.toNat)
    (hp : (stored q m bb bo pa es.toNat ++ offered (cs'.map (·.op es.toNat))).Pairwise fun a b => a.1 < b.1) :
    ∃ os' q' m', pqExecAll bb pa es.toNat q m cs' = some (os', q', m') ∧
      stackRun cap.toNat ((stored q m bb bo pa es.toNat).map (·.2)) (cs'.map (·.op es.toNat)) =
        (os', (stored q' m' bb bo pa es.toNat).map (·.2)) := by
  obtain ⟨os', q', m', out, h1, h2⟩ := h.go cs' hv
  have hc : 0 < cap.toNat := by
    obtain ⟨q0, q1, m1, g1, -⟩ := h.start
    have := (C26_init (some q0) cap es (some ⟨pa, ptr bb bo⟩)).1.1 (by rw [g1])
    have h3 := this.2.2.1
    have h4 : cap.toNat ≠ 0 := fun e => h3 (BitVec.eq_of_toNat_eq (by rw [e]; rfl))
    omega
  exact ⟨os', q', m', h1, stack_run hc h2 hp⟩

/-- Non-vacuity: a fresh queue with two places. -/
theorem exReach : PQReach 2 1 0 0 0 [] [] ⟨2, 0, 1, 0, ptr 0 0⟩ exMem :=
  ⟨⟨exPQ0, _, exMem, rfl, by decide, by decide, rfl⟩, by decide, by simp⟩

/-- Three elements pushed with ascending priorities: the first one is dropped, the others are popped in reverse order. -/
def exPush : List PQCall := [exPCall (.enq 1) 7, exPCall (.enq 2) 8, exPCall (.enq 3) 9, exPCall .deq 0, exPCall .deq 0,
  exPCall .deq 0]

example : ∃ q' m', pqExecAll 0 0 1 ⟨2, 0, 1, 0, ptr 0 0⟩ exMem exPush = some ([(true, none), (true, none), (true, none),
    (true, some [9]), (true, some [8]), (false, none)], q', m') := by
  obtain ⟨os', q', m', h1, h2⟩ := C127_stack exReach exPush (by
    intro c hc
    simp only [exPush, List.mem_cons, List.not_mem_nil, or_false] at hc
    rcases hc with rfl | rfl | rfl | rfl | rfl | rfl <;> constructor <;> decide) (by decide)
  have h3 : os' = [(true, none), (true, none), (true, none), (true, some [9]), (true, some [8]), (false, none)] :=
    (congrArg Prod.fst h2).symm.trans (by decide)
  exact ⟨q', m', by rw [← h3]; exact h1⟩

/-- The same elements with descending priorities: the third one is refused, the others are delivered in order. -/
def exLine : List PQCall := [exPCall (.enq 3) 7, exPCall (.enq 2) 8, exPCall (.enq 2) 9, exPCall .deq 0, exPCall .deq 0,
  exPCall .deq 0]

example : ∃ q' m', pqExecAll 0 0 1 ⟨2, 0, 1, 0, ptr 0 0⟩ exMem exLine = some ([(true, none), (true, none), (false, none),
    (true, some [7]), (true, some [8]), (false, none)], q', m') := by
  obtain ⟨q', m', h1⟩ := C127_fifo exReach exLine (by
    intro c hc
    simp only [exLine, List.mem_cons, List.not_mem_nil, or_false] at hc
    rcases hc with rfl | rfl | rfl | rfl | rfl | rfl <;> constructor <;> decide) (by decide)
  exact ⟨q', m', h1⟩

end IMU.Props
