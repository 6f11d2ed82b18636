import Verif.Proofs.PriorityQueueHistory
import Verif.Props.Utils

/-!
# Properties C26 - C30: Src/priority_queue.c
-/

namespace IMU.Props
open Spec Utils IMU.PQ

/-- `(q1, m1)` is reached from a successful initialisation by a history `cs` of valid calls that shows
the observations `os`. -/
structure PQReach (cap es : U32) (bb bo pa : Nat) (cs : List PQCall) (os : List PQObs) (q1 : PQueue) (m1 : Mem) :
    Prop where
  start : ∃ q0 q m, init (some q0) cap es (some ⟨pa, ptr bb bo⟩) = (true, some q) ∧
    bo + cap.toNat * es.toNat ≤ (m.bytes bb).length ∧ cap.toNat ≤ (m.words pa).length ∧
    pqExecAll bb pa es.toNat q m cs = some (os, q1, m1)
  lim : (cap.toNat - 1) * es.toNat < 2 ^ 32
  valid : ∀ c ∈ cs, c.Valid bb es.toNat

theorem PQReach.rep {cap es : U32} {bb bo pa : Nat} {cs : List PQCall} {os : List PQObs} {q1 : PQueue} {m1 : Mem}
    (h : PQReach cap es bb bo pa cs os q1 m1) : ∃ out xs,
      PQRun cap.toNat [] (cs.map (·.op es.toNat)) os out xs ∧
      Rep cap.toNat es.toNat bb bo pa q1 m1 xs := by
  obtain ⟨q0, q, m, h1, h2, h3, h4⟩ := h.start
  obtain ⟨os', q', m', out, xs, g1, g2, g3⟩ := pq_all cs (pq_init h1 h.lim h2 h3) h.valid
  rw [h4] at g1
  simp only [Option.some.injEq, Prod.mk.injEq] at g1
  obtain ⟨rfl, rfl, rfl⟩ := g1
  exact ⟨out, xs, g2, g3⟩

/-- C26: every history of valid calls after initialisation is free of undefined behaviour and shows the
observations of the ideal bounded priority queue, whose final content is what is physically stored. -/
theorem C26_pq_refines (q0 q : PQueue) (cap es : U32) (bb bo pa : Nat) (m : Mem)
    (hi : init (some q0) cap es (some ⟨pa, ptr bb bo⟩) = (true, some q))
    (hlim : (cap.toNat - 1) * es.toNat < 2 ^ 32)
    (hbuf : bo + cap.toNat * es.toNat ≤ (m.bytes bb).length) (hpa : cap.toNat ≤ (m.words pa).length)
    (cs : List PQCall) (hv : ∀ c ∈ cs, c.Valid bb es.toNat) :
    ∃ os q' m' out, pqExecAll bb pa es.toNat q m cs = some (os, q', m') ∧
      PQRun cap.toNat [] (cs.map (·.op es.toNat)) os out (stored q' m' bb bo pa es.toNat) := by
  obtain ⟨os, q', m', out, xs, h1, h2, h3⟩ := pq_all cs (pq_init hi hlim hbuf hpa) hv
  exact ⟨os, q', m', out, h1, by rw [stored_eq h3]; exact h2⟩

/-- C26: the ideal priority queue is deterministic, so the observations are fixed by the operations. -/
theorem C26_spec_deterministic (cap : Nat) (xs : List PItem) (ops : List PQOp) (o o' : List PQObs)
    (out out' ys ys' : List PItem) (h : PQRun cap xs ops o out ys) (h' : PQRun cap xs ops o' out' ys') :
    o = o' ∧ out = out' ∧ ys = ys' := pqRun_det h h'

/-- C26: `PriorityQueue_init` accepts exactly non-null arguments and non-zero sizes, and yields an empty
queue; otherwise it changes nothing. -/
theorem C26_init (queue : Option PQueue) (cap es : U32) (items : Option Items) :
    ((init queue cap es items).1 = true ↔ queue ≠ none ∧ items ≠ none ∧ cap ≠ 0 ∧ es ≠ 0) ∧
    ((init queue cap es items).1 = false → (init queue cap es items).2 = queue) ∧
    ((init queue cap es items).1 = true → ∃ q, (init queue cap es items).2 = some q ∧ IMU.PQ.empty q = true) := by
  cases queue with
  | none => simp [init]
  | some q =>
    cases items with
    | none => simp [init]
    | some it =>
      by_cases h : cap ≠ 0#32 ∧ es ≠ 0#32
      · simp [init, h, IMU.PQ.empty]
      · simp only [init, if_neg h]
        simp only [Bool.false_eq_true, false_iff, ne_eq, reduceCtorEq, not_false_eq_true, true_and, forall_const,
          false_implies, and_true]
        exact h

/-- Non-vacuity: a queue of two one-byte elements; full enqueue evicts, ties leave in order. -/
def exPQ0 : PQueue := ⟨0, 0, 0, 0, ptr 0 0⟩
def exMem : Mem := ⟨fun b => if b = 0 then [0, 0] else [], fun b => if b = 0 then [0, 0] else []⟩
def exPCall (k : PQKind) (v : Byte) : PQCall := ⟨k, mem2 [] [v], 1, 0⟩
def exCalls : List PQCall := [exPCall (.enq 5) 1, exPCall (.enq 3) 2, exPCall (.enq 3) 3, exPCall (.enq 5) 4,
  exPCall .deq 0, exPCall .deq 0, exPCall .deq 0, exPCall .empty 0]
example : ∃ q, init (some exPQ0) 2 1 (some ⟨0, ptr 0 0⟩) = (true, some q) ∧
    (pqExecAll 0 0 1 q exMem exCalls).map (·.1) =
    some [(true, none), (true, none), (false, none), (true, none), (true, some [1]), (true, some [4]),
      (false, none), (true, none)] := ⟨_, rfl, by decide +kernel⟩
example : ∃ os q1 m1, PQReach 2 1 0 0 0 (exCalls.take 4) os q1 m1 := by
  have h : (pqExecAll 0 0 1 ⟨2, 0, 1, 0, ptr 0 0⟩ exMem (exCalls.take 4)).isSome = true := by decide
  obtain ⟨⟨os, q1, m1⟩, h⟩ := Option.isSome_iff_exists.1 h
  refine ⟨os, q1, m1, ⟨exPQ0, _, exMem, rfl, by decide, by decide, h⟩, by decide, ?_⟩
  intro c hc
  simp only [exCalls, List.take, List.mem_cons, List.not_mem_nil, or_false] at hc
  rcases hc with rfl | rfl | rfl | rfl <;> constructor <;> decide

/-- C27: a dequeue of a non-empty queue succeeds and delivers an element whose priority is maximal,
the earliest enqueued among equals; exactly this entry is removed, the others keep their order. -/
theorem C27_dequeue_max (cap es : U32) (bb bo pa : Nat) (cs : List PQCall) (os : List PQObs) (q1 : PQueue)
    (m1 : Mem) (h : PQReach cap es bb bo pa cs os q1 m1) (c : PQCall) (hc : c.Valid bb es.toNat)
    (hk : c.kind = .deq) (hne : stored q1 m1 bb bo pa es.toNat ≠ []) :
    ∃ pre x post q2 m2, stored q1 m1 bb bo pa es.toNat = pre ++ x :: post ∧
      (∀ y ∈ pre, y.1 < x.1) ∧ (∀ y ∈ post, y.1 ≤ x.1) ∧
      c.exec bb pa es.toNat q1 m1 = some ((true, some x.2), q2, m2) ∧
      stored q2 m2 bb bo pa es.toNat = pre ++ post := by
  obtain ⟨out, xs, -, hrep⟩ := h.rep
  rw [stored_eq hrep] at hne ⊢
  obtain ⟨o, q2, m2, out', xs', h1, h2, h3, -⟩ := pq_step hrep c hc
  rw [show c.op es.toNat = .deq by simp only [PQCall.op, hk]] at h2
  cases h2 with
  | @deq pre x post ha hb => exact ⟨pre, x, post, q2, m2, rfl, ha, hb, h1, stored_eq h3⟩
  | deqEmpty => exact absurd rfl hne

/-- C27: a dequeue of an empty queue reports failure. -/
theorem C27_dequeue_empty (q : PQueue) (p : Ptr) (m : Mem) (h : IMU.PQ.empty q = true) :
    dequeue q p m = .ok (false, q) m := by simp [dequeue, h]

/-- C28: an enqueue into a full queue succeeds exactly if some stored priority is strictly lower; it then
removes exactly the earliest of the lowest-priority entries and appends the new one; otherwise nothing
changes. -/
theorem C28_eviction (cap es : U32) (bb bo pa : Nat) (cs : List PQCall) (os : List PQObs) (q1 : PQueue)
    (m1 : Mem) (h : PQReach cap es bb bo pa cs os q1 m1) (c : PQCall) (hc : c.Valid bb es.toNat)
    (p : U32) (hk : c.kind = .enq p) (hfull : (stored q1 m1 bb bo pa es.toNat).length = cap.toNat) :
    ∃ r q2 m2, c.exec bb pa es.toNat q1 m1 = some ((r, none), q2, m2) ∧
      (r = true ↔ ∃ y ∈ stored q1 m1 bb bo pa es.toNat, y.1 < p) ∧
      (r = true → ∃ pre x post, stored q1 m1 bb bo pa es.toNat = pre ++ x :: post ∧
        (∀ y ∈ pre, x.1 < y.1) ∧ (∀ y ∈ post, x.1 ≤ y.1) ∧
        stored q2 m2 bb bo pa es.toNat = pre ++ post ++ [(p, slice (c.w.bytes c.blk) c.off es.toNat)]) ∧
      (r = false → stored q2 m2 bb bo pa es.toNat = stored q1 m1 bb bo pa es.toNat) := by
  obtain ⟨out, xs, -, hrep⟩ := h.rep
  rw [stored_eq hrep] at hfull ⊢
  obtain ⟨o, q2, m2, out', xs', h1, h2, h3, -⟩ := pq_step hrep c hc
  rw [show c.op es.toNat = .enq p (slice (c.w.bytes c.blk) c.off es.toNat) by simp only [PQCall.op, hk]] at h2
  generalize slice (c.w.bytes c.blk) c.off es.toNat = e at h2
  cases h2 with
  | enq hl => omega
  | @evict pre x post _ _ hf ha hb hlt =>
    refine ⟨true, q2, m2, h1, ⟨fun _ => ⟨x, by simp, hlt⟩, fun _ => rfl⟩,
      fun _ => ⟨pre, x, post, rfl, ha, hb, stored_eq h3⟩, by simp⟩
  | reject hf hr =>
    refine ⟨false, q2, m2, h1, ?_, by simp, fun _ => stored_eq h3⟩
    simp only [Bool.false_eq_true, false_iff]
    rintro ⟨y, hy, hlt⟩
    have := hr y hy
    simp only [BitVec.lt_def, BitVec.le_def] at *; omega

/-- C28: an enqueue with room left always succeeds and appends. -/
theorem C28_room (cap es : U32) (bb bo pa : Nat) (cs : List PQCall) (os : List PQObs) (q1 : PQueue)
    (m1 : Mem) (h : PQReach cap es bb bo pa cs os q1 m1) (c : PQCall) (hc : c.Valid bb es.toNat)
    (p : U32) (hk : c.kind = .enq p) (hroom : (stored q1 m1 bb bo pa es.toNat).length ≠ cap.toNat) :
    ∃ q2 m2, c.exec bb pa es.toNat q1 m1 = some ((true, none), q2, m2) ∧
      stored q2 m2 bb bo pa es.toNat =
        stored q1 m1 bb bo pa es.toNat ++ [(p, slice (c.w.bytes c.blk) c.off es.toNat)] := by
  obtain ⟨out, xs, -, hrep⟩ := h.rep
  rw [stored_eq hrep] at hroom ⊢
  obtain ⟨o, q2, m2, out', xs', h1, h2, h3, -⟩ := pq_step hrep c hc
  rw [show c.op es.toNat = .enq p (slice (c.w.bytes c.blk) c.off es.toNat) by simp only [PQCall.op, hk]] at h2
  generalize slice (c.w.bytes c.blk) c.off es.toNat = e at h2
  cases h2 with
  | enq hl => exact ⟨q2, m2, h1, stored_eq h3⟩
  | evict hf => exact absurd hf hroom
  | reject hf => exact absurd hf hroom

/-- Items delivered by the successful dequeues of a history. -/
def deliveredAll (os : List PQObs) : List (List Byte) := os.filterMap (·.2)

/-- Evictions of a history of the ideal queue: items that left in an enqueue. -/
inductive PQRunE (cap : Nat) : List PItem → List PQOp → List PQObs → List PItem → List PItem → List PItem → Prop where
  | nil {xs} : PQRunE cap xs [] [] [] [] xs
  | enq {xs p e obs out ys ops obss ev del zs} : PQStep cap xs (.enq p e) obs out ys →
      PQRunE cap ys ops obss ev del zs → PQRunE cap xs (.enq p e :: ops) (obs :: obss) (out ++ ev) del zs
  | deq {xs obs out ys ops obss ev del zs} : PQStep cap xs .deq obs out ys →
      PQRunE cap ys ops obss ev del zs → PQRunE cap xs (.deq :: ops) (obs :: obss) ev (out ++ del) zs
  | empty {xs obs out ys ops obss ev del zs} : PQStep cap xs .empty obs out ys →
      PQRunE cap ys ops obss ev del zs → PQRunE cap xs (.empty :: ops) (obs :: obss) ev del zs

/-- C29: at every point of every history, the accepted items are, as a multiset, exactly the dequeued,
evicted and still stored ones; `del` are the items whose elements the dequeues delivered (in this
order), and never more than `cap` items are stored. -/
theorem C29_conservation (cap es : U32) (bb bo pa : Nat) (cs : List PQCall) (os : List PQObs) (q1 : PQueue)
    (m1 : Mem) (h : PQReach cap es bb bo pa cs os q1 m1) :
    ∃ ev del, PQRunE cap.toNat [] (cs.map (·.op es.toNat)) os ev del (stored q1 m1 bb bo pa es.toNat) ∧
      (accepted (cs.map (·.op es.toNat)) os).Perm (del ++ ev ++ stored q1 m1 bb bo pa es.toNat) ∧
      del.map (·.2) = deliveredAll os ∧
      (stored q1 m1 bb bo pa es.toNat).length ≤ cap.toNat := by
  obtain ⟨out, xs, hrun, hrep⟩ := h.rep
  rw [stored_eq hrep]
  have hcap := hrep.size_le
  generalize cs.map (·.op es.toNat) = ops at hrun
  clear h hrep
  suffices H : ∀ ys : List PItem, PQRun cap.toNat ys ops os out xs →
      ∃ ev del, PQRunE cap.toNat ys ops os ev del xs ∧
        (ys ++ accepted ops os).Perm (del ++ ev ++ xs) ∧ del.map (·.2) = deliveredAll os by
    obtain ⟨ev, del, a, b, c⟩ := H [] hrun
    exact ⟨ev, del, a, by simpa using b, c, hcap⟩
  clear hcap hrun
  intro ys hrun
  induction hrun with
  | nil => exact ⟨[], [], .nil, by simp [accepted], rfl⟩
  | @cons xs op o out1 zs ops os' outs zs' h1 h2 ih =>
    obtain ⟨ev, del, a, b, c⟩ := ih
    have h1' := h1
    cases h1 with
    | enq hl =>
      refine ⟨[] ++ ev, del, .enq h1' a, ?_, by simpa [deliveredAll] using c⟩
      simp only [accepted, List.nil_append]
      rw [List.append_assoc] at b; exact b
    | @evict pre x post p e hf =>
      refine ⟨[x] ++ ev, del, .enq h1' a, ?_, by simpa [deliveredAll] using c⟩
      simp only [accepted, List.append_assoc, List.singleton_append, List.cons_append] at b ⊢
      exact (List.perm_middle.trans (b.cons x)).trans List.perm_middle.symm
    | reject => exact ⟨[] ++ ev, del, .enq h1' a, by simpa [accepted] using b, by simpa [deliveredAll] using c⟩
    | @deq pre x post =>
      refine ⟨ev, [x] ++ del, .deq h1' a, ?_, by simpa [deliveredAll] using c⟩
      simp only [accepted, List.append_assoc, List.singleton_append, List.cons_append] at b ⊢
      exact List.perm_middle.trans (b.cons x)
    | deqEmpty => exact ⟨ev, [] ++ del, .deq h1' a, by simpa [accepted] using b, by simpa [deliveredAll] using c⟩
    | empty => exact ⟨ev, del, .empty h1' a, by simpa [accepted] using b, by simpa [deliveredAll] using c⟩

/-- C30: in every reachable state every valid call is free of undefined behaviour, although the two
arrays may be exactly as long as the capacity demands, and changes memory only in these arrays (and, for
dequeue, in the caller's element). -/
theorem C30_pq_stays_inside (cap es : U32) (bb bo pa : Nat) (cs : List PQCall) (os : List PQObs) (q1 : PQueue)
    (m1 : Mem) (h : PQReach cap es bb bo pa cs os q1 m1) (c : PQCall) (hc : c.Valid bb es.toNat) :
    ∃ o q2 m2, c.exec bb pa es.toNat q1 m1 = some (o, q2, m2) ∧
      c.Frame bb bo pa cap.toNat es.toNat (c.mem bb pa m1) m2 := by
  obtain ⟨out, xs, -, hrep⟩ := h.rep
  obtain ⟨o, q2, m2, out', xs', h1, h2, h3, h4⟩ := pq_step hrep c hc
  exact ⟨o, q2, m2, h1, h4⟩

end IMU.Props
