import Verif.Proofs.Rollback
import Verif.Proofs.PriorityQueueUses
import Verif.Props.Deliver
import Verif.Props.MapOwn

/-!
# Property C129: putting back a saved structure

The structures of Inc/queue.h, Inc/priority_queue.h and Inc/map.h are plain values that refer to the caller's arrays.
A caller may copy one (`saved = queue;`), work on, and assign it back to undo the work.
-/

namespace IMU.Props
open Spec Utils

section Queue
open IMU.Queue

variable {cap es : U32} {bb bo : Nat} {cs cs' : List QCall} {q : Queue} {m : Mem}

/-- C129: whatever valid calls were made in between, the queue put back holds its old elements, except that the elements
accepted since have been written, round the circle, from the place behind its newest one on.  From there it is again a
FIFO. -/
theorem C129_queue (hr : QReach cap es bb bo cs q m) (hv : ∀ c ∈ cs', c.Valid bb es.toNat) :
    ∃ os q' m', execAll bb es.toNat q m cs' = some (os, q', m') ∧
      QHolds cap.toNat es.toNat bb bo q m' (overwrite cap.toNat (held q m bb bo es.toNat)
        (held q m bb bo es.toNat).length (taken (cs'.map (·.op es.toNat)) os)) := by
  obtain ⟨xs, h⟩ := hr.rep
  rw [held_eq h]
  obtain ⟨os, q', m', h1, h2⟩ := queue_overwrite cs' h h h.rear_eq hv
  exact ⟨os, q', m', h1, q_holds h2⟩

/-- C129: as long as no more elements have been accepted than there were free places, the undo is complete. -/
theorem C129_queue_undo (hr : QReach cap es bb bo cs q m) (hv : ∀ c ∈ cs', c.Valid bb es.toNat) {os : List QObs}
    {q' : Queue} {m' : Mem} (hx : execAll bb es.toNat q m cs' = some (os, q', m'))
    (hfree : (held q m bb bo es.toNat).length + (taken (cs'.map (·.op es.toNat)) os).length ≤ cap.toNat) :
    QHolds cap.toNat es.toNat bb bo q m' (held q m bb bo es.toNat) := by
  obtain ⟨os', q'', m'', h1, h2⟩ := C129_queue hr hv
  rw [hx] at h1
  simp only [Option.some.injEq, Prod.mk.injEq] at h1
  obtain ⟨rfl, rfl, rfl⟩ := h1
  rw [overwrite_free _ _ _ (Nat.le_refl _) hfree] at h2
  exact h2

/-- C129: in particular after reading and removing alone: the queue can be read once more from the start. -/
theorem C129_queue_reread (hr : QReach cap es bb bo cs q m)
    (hv : ∀ c ∈ cs', c.Valid bb es.toNat ∧ c.kind ≠ .enq) : ∃ os q' m',
      execAll bb es.toNat q m cs' = some (os, q', m') ∧
      QHolds cap.toNat es.toNat bb bo q m' (held q m bb bo es.toNat) := by
  obtain ⟨os, q', m', h1, h2⟩ := C129_queue hr fun c hc => (hv c hc).1
  refine ⟨os, q', m', h1, ?_⟩
  have : ∀ (cs : List QCall) (os : List QObs), (∀ c ∈ cs, c.kind ≠ .enq) →
      taken (cs.map (·.op es.toNat)) os = [] := by
    intro cs
    induction cs with
    | nil => intro os _; simp [taken]
    | cons c cs ih =>
      intro os h
      have hc := h c List.mem_cons_self
      cases os with
      | nil => cases hk : c.kind <;> simp [QCall.op, hk, taken]
      | cons o os =>
        have := ih os fun c hc => h c (List.mem_cons_of_mem _ hc)
        cases hk : c.kind <;> simp_all [QCall.op, taken]
  rw [this cs' os fun c hc => (hv c hc).2] at h2
  exact h2

/-- C129: with more accepted elements (up to one round), those that found no free place stand in the queue in place of its
oldest elements, ahead of the surviving ones. -/
theorem C129_queue_overrun (hr : QReach cap es bb bo cs q m) (hv : ∀ c ∈ cs', c.Valid bb es.toNat) {os : List QObs}
    {q' : Queue} {m' : Mem} (hx : execAll bb es.toNat q m cs' = some (os, q', m')) {f : Nat}
    (hf : (held q m bb bo es.toNat).length + f = cap.toNat)
    (h1 : f ≤ (taken (cs'.map (·.op es.toNat)) os).length)
    (h2 : (taken (cs'.map (·.op es.toNat)) os).length ≤ cap.toNat) :
    QHolds cap.toNat es.toNat bb bo q m' ((taken (cs'.map (·.op es.toNat)) os).drop f ++
      (held q m bb bo es.toNat).drop ((taken (cs'.map (·.op es.toNat)) os).length - f)) := by
  obtain ⟨os', q'', m'', g1, g2⟩ := C129_queue hr hv
  rw [hx] at g1
  simp only [Option.some.injEq, Prod.mk.injEq] at g1
  obtain ⟨rfl, rfl, rfl⟩ := g1
  set xs := held q m bb bo es.toNat
  set acc := taken (cs'.map (·.op es.toNat)) os
  have hsplit : overwrite cap.toNat xs xs.length acc = acc.drop f ++ xs.drop (acc.length - f) := by
    conv_lhs => rw [← List.take_append_drop f acc]
    have hl : (acc.take f).length = f := by rw [List.length_take]; omega
    rw [overwrite_append, overwrite_free _ _ _ (Nat.le_refl _) (by omega), hl, hf]
    have := overwrite_old (cap := cap.toNat) (acc.drop f) xs 0 (by rw [List.length_drop]; omega) (by omega)
    simpa only [Nat.add_zero, Nat.zero_add, List.take_zero, List.nil_append, List.length_drop] using this
  rw [hsplit] at g2
  exact g2

/-- Non-vacuity of C129 (queue): the wrapped ring of three places holding 6 and 7; removing both and adding one is undone,
adding three more leaves one foreign element, then two. -/
def exRollQ (cs : List QCall) : Option (List (List Byte)) :=
  match execAll 0 1 ⟨3, 0, 2, 0, 1, ptr 0 0⟩ exDelMem [exCall .enq 5, exCall .enq 6, exCall .enq 7, exCall .deq 0] with
  | some (_, q, m) => match execAll 0 1 q m cs with
    | some (_, _, m') => some (held q m' 0 0 1)
    | none => none
  | none => none
example : exRollQ [exCall .deq 0, exCall .deq 0, exCall .enq 8] = some [[6], [7]] ∧
    exRollQ [exCall .deq 0, exCall .enq 8, exCall .enq 9] = some [[9], [7]] ∧
    exRollQ [exCall .deq 0, exCall .enq 8, exCall .enq 9, exCall .enq 10] = some [[9], [7]] ∧
    exRollQ [exCall .deq 0, exCall .enq 8, exCall .enq 9, exCall .deq 0, exCall .enq 10] = some [[9], [10]] := by
  refine ⟨?_, ?_, ?_, ?_⟩ <;> decide +kernel
example : ∃ q m, QReach 3 1 0 0 [exCall .enq 5, exCall .enq 6, exCall .enq 7, exCall .deq 0] q m ∧
    held q m 0 0 1 = [[6], [7]] := by
  refine ⟨_, _, ⟨⟨exQ0, _, exDelMem, _, _, rfl, by decide, rfl⟩, by decide, ?_⟩, by decide⟩
  intro c hc
  simp only [List.mem_cons, List.not_mem_nil, or_false] at hc
  rcases hc with rfl | rfl | rfl | rfl <;> constructor <;> decide

end Queue

section PriorityQueue
open IMU.PQ

variable {cap es : U32} {bb bo pa : Nat} {cs cs' : List PQCall} {os : List PQObs} {q : PQueue} {m : Mem}

/-- C129: after any valid calls that leave at least as many entries as there were, the priority queue put back holds the
oldest of the present entries. -/
theorem C129_pq (hr : PQReach cap es bb bo pa cs os q m) (hv : ∀ c ∈ cs', c.Valid bb es.toNat) {os' : List PQObs}
    {q' : PQueue} {m' : Mem} (hx : pqExecAll bb pa es.toNat q m cs' = some (os', q', m'))
    (hl : (stored q m bb bo pa es.toNat).length ≤ (stored q' m' bb bo pa es.toNat).length) :
    PQHolds cap.toNat es.toNat bb bo pa q m'
      ((stored q' m' bb bo pa es.toNat).take (stored q m bb bo pa es.toNat).length) := by
  obtain ⟨-, xs, -, h⟩ := hr.rep
  obtain ⟨os2, q2, m2, out, zs, g1, -, g3⟩ := pq_all cs' h hv
  rw [hx] at g1
  simp only [Option.some.injEq, Prod.mk.injEq] at g1
  obtain ⟨rfl, rfl, rfl⟩ := g1
  rw [stored_eq h, stored_eq g3] at hl ⊢
  exact holds_of_rep (pq_prefix h g3 hl)

theorem run_room {cap : Nat} {xs zs out : List PItem} {ops : List PQOp} {os : List PQObs} (h : PQRun cap xs ops os out zs)
    (hd : ∀ op ∈ ops, op ≠ .deq) (hroom : xs.length + (offered ops).length ≤ cap) : zs = xs ++ offered ops := by
  induction h with
  | nil => simp [offered]
  | @cons xs op obs out ys ops obss outs zs hs _ ih =>
    rw [offered_cons, List.length_append] at hroom
    have hstep : ys = xs ++ offered [op] := by
      cases hs with
      | enq _ => rfl
      | evict h1 _ _ _ => simp [offered] at hroom h1; omega
      | reject h1 _ => simp [offered] at hroom; omega
      | deq _ _ => exact absurd rfl (hd _ List.mem_cons_self)
      | deqEmpty => exact absurd rfl (hd _ List.mem_cons_self)
      | empty => simp [offered]
    rw [offered_cons, ← List.append_assoc, ← hstep]
    refine ih (fun op hop => hd op (List.mem_cons_of_mem _ hop)) ?_
    rw [hstep, List.length_append]; omega

/-- C129: enqueueing into free places is undone completely. -/
theorem C129_pq_undo (hr : PQReach cap es bb bo pa cs os q m)
    (hv : ∀ c ∈ cs', c.Valid bb es.toNat ∧ c.kind ≠ .deq)
    (hfree : (stored q m bb bo pa es.toNat).length + (offered (cs'.map (·.op es.toNat))).length ≤ cap.toNat) :
    ∃ os' q' m', pqExecAll bb pa es.toNat q m cs' = some (os', q', m') ∧
      PQHolds cap.toNat es.toNat bb bo pa q m' (stored q m bb bo pa es.toNat) := by
  obtain ⟨-, xs, -, h⟩ := hr.rep
  rw [stored_eq h] at hfree ⊢
  obtain ⟨os2, q2, m2, out, zs, g1, g2, g3⟩ := pq_all cs' h fun c hc => (hv c hc).1
  have hz := run_room g2 (by
    intro op hop
    obtain ⟨c, hc, rfl⟩ := List.mem_map.1 hop
    have := (hv c hc).2
    cases hk : c.kind with
    | enq p => simp [PQCall.op, hk]
    | deq => exact absurd hk this
    | empty => simp [PQCall.op, hk]) hfree
  refine ⟨os2, q2, m2, g1, ?_⟩
  have := pq_prefix h g3 (by rw [hz, List.length_append]; omega)
  rw [hz, List.take_left'] at this
  · exact holds_of_rep this
  · rfl

/-- C129: dequeueing is not: after any number of dequeues the priority queue put back holds the remaining entries, followed
by copies of entries it held, ending in the one that was its newest. -/
theorem C129_pq_dequeues (hr : PQReach cap es bb bo pa cs os q m)
    (hv : ∀ c ∈ cs', c.Valid bb es.toNat ∧ c.kind = .deq) :
    ∃ os' q' m' u, pqExecAll bb pa es.toNat q m cs' = some (os', q', m') ∧
      PQHolds cap.toNat es.toNat bb bo pa q m' (stored q' m' bb bo pa es.toNat ++ u) ∧
      (stored q' m' bb bo pa es.toNat ++ u).length = (stored q m bb bo pa es.toNat).length ∧
      (∀ y ∈ u, y ∈ stored q m bb bo pa es.toNat) ∧
      (stored q' m' bb bo pa es.toNat ++ u).getLast? = (stored q m bb bo pa es.toNat).getLast? := by
  obtain ⟨-, xs, -, h⟩ := hr.rep
  obtain ⟨os', q', m', zs, u, g1, g2, g3, g4, g5⟩ := pq_dequeues_behind (t := []) cs' (by simpa using h) h hv
  rw [List.append_nil] at g3
  refine ⟨os', q', m', u, g1, ?_⟩
  rw [stored_eq h, stored_eq g2]
  refine ⟨holds_of_rep g3, ?_, g4, g5⟩
  rw [← g3.size_eq, h.size_eq]

/-- C129: after one dequeue the entry delivered is gone and the newest one is there twice; the entries are the old ones
only if the delivered entry was equal to the newest. -/
theorem C129_pq_dequeue (hr : PQReach cap es bb bo pa cs os q m) {xs : List PItem} {z : PItem}
    (hs : stored q m bb bo pa es.toNat = xs ++ [z]) {b o : Nat} (hb : b ≠ bb) (ho : o + es.toNat ≤ (m.bytes b).length) :
    ∃ q' m' x ys, dequeue q (ptr b o) m = .ok (true, q') m' ∧ slice (m'.bytes b) o es.toNat = x.2 ∧
      (xs ++ [z]).Perm (x :: ys) ∧ (∀ y ∈ xs ++ [z], y.1 ≤ x.1) ∧
      PQHolds cap.toNat es.toNat bb bo pa q' m' ys ∧ PQHolds cap.toNat es.toNat bb bo pa q m' (ys ++ [z]) ∧
      ((ys ++ [z]).Perm (xs ++ [z]) ↔ x = z) := by
  obtain ⟨-, xs0, -, h⟩ := hr.rep
  rw [stored_eq h] at hs
  subst hs
  obtain ⟨q', m', pre, x, post, g1, g2, g3, g4, g5, g6, g7⟩ :=
    pq_dequeue_behind (t := []) (by simpa using h) h (by simp) b o hb ho
  have hz : (x :: post).getLast (by simp) = z := by
    have : (xs ++ [z]).getLast? = (pre ++ x :: post).getLast? := by rw [g1]
    rw [List.getLast?_append_of_ne_nil _ (List.cons_ne_nil x post),
      List.getLast?_eq_some_getLast (List.cons_ne_nil x post), List.getLast?_append_of_ne_nil _ (by simp)] at this
    simpa using this.symm
  rw [hz] at g7
  have hp : (xs ++ [z]).Perm (x :: (pre ++ post)) := by rw [g1]; exact List.perm_middle
  refine ⟨q', m', x, pre ++ post, g4, g5, hp, ?_, holds_of_rep g6, holds_of_rep g7, ?_⟩
  · intro y hy
    rw [g1, List.mem_append, List.mem_cons] at hy
    rcases hy with hy | rfl | hy
    · have := g2 y hy; simp only [BitVec.le_def, BitVec.lt_def] at *; omega
    · simp
    · exact g3 y hy
  · constructor
    · intro hq
      have h1 := (hq.trans hp).count_eq x
      rw [List.count_append, List.count_cons_self] at h1
      by_contra hc
      rw [List.count_singleton, if_neg (by simpa using fun h => hc h.symm)] at h1
      omega
    · rintro rfl
      exact (List.perm_append_comm.trans (by simp)).trans hp.symm

/-- Non-vacuity of C129 (priority queue): entries of priorities 5, 9, 7, 3 in four places; after one dequeue, after two,
and after two dequeues and three enqueues the queue put back. -/
def exRollP (cs : List PQCall) : Option (List PItem) :=
  match pqExecAll 0 0 1 ⟨4, 0, 1, 0, ptr 0 0⟩ exOwnMem exDelPCalls with
  | some (_, q, m) => match pqExecAll 0 0 1 q m cs with
    | some (_, _, m') => some (stored q m' 0 0 0 1)
    | none => none
  | none => none
example : exRollP [] = some [(5, [1]), (9, [2]), (7, [3]), (3, [4])] ∧
    exRollP [exPCall .deq 0] = some [(5, [1]), (7, [3]), (3, [4]), (3, [4])] ∧
    exRollP [exPCall .deq 0, exPCall .deq 0] = some [(5, [1]), (3, [4]), (3, [4]), (3, [4])] ∧
    exRollP [exPCall .deq 0, exPCall .deq 0, exPCall (.enq 1) 7, exPCall (.enq 2) 8, exPCall (.enq 8) 9] =
      some [(5, [1]), (3, [4]), (2, [8]), (8, [9])] := by
  refine ⟨?_, ?_, ?_, ?_⟩ <;> decide +kernel

end PriorityQueue

section Map
open IMU.Map

variable {n ks vs kb ko vb vo : Nat} {cs cs' : List MapCall} {map : MapT} {m : Mem}

/-- C129: after any valid calls the map put back holds exactly its old keys in the old order, each with the value it has
now; keys inserted since are gone, new values of old keys remain. -/
theorem C129_map (hr : MapReach n ks vs kb ko vb vo cs map m) (hv : ∀ c ∈ cs', c.Valid kb vb ks vs) :
    ∃ os map' m' rs, mapExecAll kb vb vs map m cs' = .ok (os, map', m') ∧
      MapHolds n ks vs kb ko vb vo map m' rs ∧
      rs.map Prod.fst = (mapEntries ks vs kb ko vb vo map m).map Prod.fst ∧
      rs <+: mapEntries ks vs kb ko vb vo map' m' := by
  obtain ⟨es, h, -⟩ := hr.rep
  obtain ⟨os, map', m', es', g1, g2, g3, -⟩ := map_keys_all cs' h hv
  have hl : es.length ≤ es'.length := by simpa using g3.length_le
  refine ⟨os, map', m', es'.take es.length, g1, map_holds (map_prefix h g2 hl), ?_, ?_⟩
  · rw [entries_eq h, List.map_take]
    have := List.prefix_iff_eq_take.1 g3
    rw [List.length_map] at this
    exact this.symm
  · rw [entries_eq g2]
    exact List.take_prefix _ _

/-- C129: so the undo is complete if no old key was inserted again. -/
theorem C129_map_undo (hr : MapReach n ks vs kb ko vb vo cs map m) (hv : ∀ c ∈ cs', c.Valid kb vb ks vs)
    (hk : ∀ c ∈ cs', c.kind = .ins → c.key ks ∉ (mapEntries ks vs kb ko vb vo map m).map Prod.fst) :
    ∃ os map' m', mapExecAll kb vb vs map m cs' = .ok (os, map', m') ∧
      MapHolds n ks vs kb ko vb vo map m' (mapEntries ks vs kb ko vb vo map m) := by
  obtain ⟨es, h, -⟩ := hr.rep
  rw [entries_eq h] at hk ⊢
  obtain ⟨os, map', m', es', g1, g2, -, g4⟩ := map_keys_all cs' h hv
  have hp := g4 es List.prefix_rfl hk
  refine ⟨os, map', m', g1, ?_⟩
  have := map_prefix h g2 hp.length_le
  rw [← List.prefix_iff_eq_take.1 hp] at this
  exact map_holds this

/-- Non-vacuity of C129 (map): two keys; a third one and a new value for the first, then the map put back; and with the
third key alone. -/
def exRollM (cs : List MapCall) : Option (List (Bytes × Bytes)) :=
  match mapExecAll 0 0 1 ⟨ptr 0 0, ptr 0 3, 1, 1, 3, 0⟩ (mem2 [0, 0, 9, 0, 0, 8] [])
      [exMCall .ins 1 10, exMCall .ins 2 20] with
  | .ok (_, map, m) => match mapExecAll 0 0 1 map m cs with
    | .ok (_, _, m') => some (mapEntries 1 1 0 0 0 3 map m')
    | .error _ => none
  | .error _ => none
example : exRollM [exMCall .ins 3 30, exMCall .ins 1 11] = some [([1], [11]), ([2], [20])] ∧
    exRollM [exMCall .ins 3 30, exMCall .get 1 0] = some [([1], [10]), ([2], [20])] := by
  refine ⟨?_, ?_⟩ <;> decide +kernel

end Map

end IMU.Props
