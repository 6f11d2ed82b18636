import Verif.Proofs.PriorityQueueInterruptUb
import Verif.Props.PriorityQueue

/-!
# Property C109: a call on the priority queue that an interrupt handler's call runs into

Memory `m` is any memory in which the queue was brought to its state by calls (`PQReach`; the last of them may be
`PriorityQueue_empty`, with the caller's other memory arbitrary).
-/

namespace IMU.Props
open Spec Utils IMU.PQ

/-- The oldest entry `x` of highest priority, with what is stored before and behind it. -/
structure FirstMax (xs pre : List PItem) (x : PItem) (post : List PItem) : Prop where
  split : xs = pre ++ x :: post
  before : ∀ y ∈ pre, y.1 < x.1
  behind : ∀ y ∈ post, y.1 ≤ x.1

theorem PQReach.conf {cap es : U32} {bb bo pa : Nat} {cs : List PQCall} {os : List PQObs} {q : PQueue} {m : Mem}
    (h : PQReach cap es bb bo pa cs os q m) :
    Conf cap.toNat es.toNat bb bo pa q m ∧ q.size.toNat = (stored q m bb bo pa es.toNat).length ∧
    (stored q m bb bo pa es.toNat).length ≤ cap.toNat := by
  obtain ⟨out, xs, -, hrep⟩ := h.rep
  rw [stored_eq hrep]
  exact ⟨hrep.conf, hrep.size_eq, hrep.size_le⟩

section
variable {cap es : U32} {bb bo pa : Nat} {cs : List PQCall} {os : List PQObs} {q : PQueue} {m : Mem}
variable {eb eo fb fo : Nat} {pre post : List PItem} {x : PItem}

/-- C109: a handler that does nothing leaves the call as it is, wherever it strikes. -/
theorem C109_quiet (q : PQueue) (e : Ptr) (p : U32) (m : Mem) :
    (∀ pt, (match enqueueInt pt (fun q => return (true, q)) q e p m with
      | .ok (r, _, q') m' => .ok (r, q') m'
      | .ub u => .ub u) = enqueue q e p m) ∧
    ∀ pt, (match dequeueInt pt (fun q => return (true, q)) q e m with
      | .ok (r, _, q') m' => .ok (r, q') m'
      | .ub u => .ub u) = dequeue q e m :=
  ⟨fun pt => enqueueInt_quiet pt q e p m, fun pt => dequeueInt_quiet pt q e m⟩

/-- C109: whatever a handler does right after the check at the start, it is as if it had run before the call, provided
that the answer of the check is the same afterwards. -/
theorem C109_after_the_check (hd : Handler) (q : PQueue) (e : Ptr) (p : U32) (m : Mem) :
    ((∀ s q' m', hd q m = .ok (s, q') m' → (q'.size = q'.capacity ↔ q.size = q.capacity)) →
      enqueueInt .guard hd q e p m = (do
        let (s, q) ← hd q
        let (r, q) ← enqueue q e p
        return (r, s, q)) m) ∧
    ((∀ s q' m', hd q m = .ok (s, q') m' → q'.size ≠ 0#32) → q.size ≠ 0#32 →
      dequeueInt .guard hd q e m = (do
        let (s, q) ← hd q
        let (r, q) ← dequeue q e
        return (r, s, q)) m) := by
  refine ⟨fun h => enqueueInt_guard hd q e p m ?_, fun h hq => dequeueInt_guard hd q e m ?_ ?_⟩
  · intro s q' m' hh
    have := h s q' m' hh
    unfold full
    rw [Bool.eq_iff_iff, beq_iff_eq, beq_iff_eq]; exact this
  · unfold IMU.PQ.empty
    rw [beq_eq_false_iff_ne]; exact hq
  · intro s q' m' hh
    unfold IMU.PQ.empty
    rw [beq_eq_false_iff_ne]; exact h s q' m' hh

/-- C109: an enqueue into a queue with room, interrupted by a dequeue.  Both calls report success and the handler gets
the right element `x`, but the queue is left with wrong entries behind those that stay: after the copy of the element,
the last stored element once more, under the new priority; after the priority is written, the last stored entry once
more; between reading and writing `size`, the last stored entry once more and the new one.  In the first two cases the
new element is lost. -/
theorem C109_enqueue_met_by_dequeue (h : PQReach cap es bb bo pa cs os q m)
    (hx : FirstMax (stored q m bb bo pa es.toNat) pre x post)
    (hroom : (stored q m bb bo pa es.toNat).length < cap.toNat) (p : U32)
    (hne : eb ≠ bb) (he : eo + es.toNat ≤ (m.bytes eb).length)
    (hnf : fb ≠ bb) (hf : fo + es.toNat ≤ (m.bytes fb).length)
    (pt : EnqPoint) (tail : List PItem) (last : PItem)
    (hlast : (stored q m bb bo pa es.toNat).getLast? = some last)
    (ht : (pt = .copy ∧ tail = [(p, last.2)]) ∨ (pt = .prio ∧ tail = [last]) ∨
      (pt = .load ∧ tail = [last, (p, slice (m.bytes eb) eo es.toNat)])) :
    ∃ q' m', enqueueInt pt (fun q => dequeue q (ptr fb fo)) q (ptr eb eo) p m = .ok (true, true, q') m' ∧
      slice (m'.bytes fb) fo es.toNat = x.2 ∧ stored q' m' bb bo pa es.toNat = pre ++ post ++ tail := by
  obtain ⟨hc, -, -⟩ := h.conf
  rw [hx.split] at hroom hlast
  have hl : last = (pre ++ x :: post).getLast (by simp) := by
    rw [List.getLast?_eq_some_getLast (by simp)] at hlast
    exact (Option.some.inj hlast).symm
  refine enq_by_deq hc hx.split hx.before hx.behind hroom p hne he hnf hf pt tail ?_
  simp only [List.mem_cons, List.not_mem_nil, or_false, Prod.mk.injEq]
  rw [← hl]; exact ht

/-- C109: an enqueue into a queue with room, interrupted by an enqueue.  Both calls report success, but the first
element is lost: the second stands in its place.  After the copy or after the priority is written, an entry that
nobody enqueued follows, made of what happened to lie in the next place. -/
theorem C109_enqueue_met_by_enqueue (h : PQReach cap es bb bo pa cs os q m) (n : Nat)
    (hn : (stored q m bb bo pa es.toNat).length = n) (p p' : U32)
    (hne : eb ≠ bb) (he : eo + es.toNat ≤ (m.bytes eb).length)
    (hnf : fb ≠ bb) (hf : fo + es.toNat ≤ (m.bytes fb).length)
    (pt : EnqPoint) (tail : List PItem)
    (ht : (n + 1 < cap.toNat ∧ pt = .copy ∧ tail = [(p, slice (m.bytes bb) (bo + (n + 1) * es.toNat) es.toNat)]) ∨
      (n + 1 < cap.toNat ∧ pt = .prio ∧ ∃ w, (m.words pa)[n + 1]? = some w ∧
        tail = [(w, slice (m.bytes bb) (bo + (n + 1) * es.toNat) es.toNat)]) ∨
      (n < cap.toNat ∧ pt = .load ∧ tail = [])) :
    ∃ q' m', enqueueInt pt (fun q => enqueue q (ptr fb fo) p') q (ptr eb eo) p m = .ok (true, true, q') m' ∧
      stored q' m' bb bo pa es.toNat =
        stored q m bb bo pa es.toNat ++ [(p', slice (m.bytes fb) fo es.toNat)] ++ tail := by
  obtain ⟨hc, hsz, -⟩ := h.conf
  rw [hn] at hsz
  have hroom : n < cap.toNat := by rcases ht with ⟨h, -⟩ | ⟨h, -⟩ | ⟨h, -⟩ <;> omega
  refine enq_by_enq hc hsz hroom p p' hne he hnf hf pt ?_ tail ?_
  · rcases ht with ⟨h, rfl, -⟩ | ⟨h, rfl, -⟩ | ⟨h, rfl, -⟩
    · exact .inr ⟨h, .inl rfl⟩
    · exact .inr ⟨h, .inr rfl⟩
    · exact .inl rfl
  · simp only [List.mem_cons, List.not_mem_nil, or_false, Prod.mk.injEq]
    rcases ht with ⟨h, rfl, rfl⟩ | ⟨h, rfl, w, hw, rfl⟩ | ⟨h, rfl, rfl⟩
    · exact .inl ⟨rfl, rfl⟩
    · exact .inr (.inl ⟨rfl, by simp only [slot, hw, Option.getD_some]⟩)
    · exact .inr (.inr ⟨rfl, rfl⟩)

/-- C109: a dequeue interrupted by an enqueue while there is room.  Up to the copy of the element, and after the moving
loop, this is harmless: as if the enqueue had come after the dequeue. -/
theorem C109_dequeue_met_by_enqueue_harmless (h : PQReach cap es bb bo pa cs os q m)
    (hx : FirstMax (stored q m bb bo pa es.toNat) pre x post) (p : U32)
    (hne : eb ≠ bb) (he : eo + es.toNat ≤ (m.bytes eb).length)
    (hnf : fb ≠ bb) (hef : fb ≠ eb) (hf : fo + es.toNat ≤ (m.bytes fb).length) (pt : DeqPoint)
    (hpt : (stored q m bb bo pa es.toNat).length < cap.toNat ∧ (pt = .highest ∨ pt = .copy) ∨ pt = .shift) :
    ∃ q' m', dequeueInt pt (fun q => enqueue q (ptr fb fo) p) q (ptr eb eo) m = .ok (true, true, q') m' ∧
      slice (m'.bytes eb) eo es.toNat = x.2 ∧
      stored q' m' bb bo pa es.toNat = pre ++ post ++ [(p, slice (m.bytes fb) fo es.toNat)] := by
  obtain ⟨hc, -, hle⟩ := h.conf
  rw [hx.split] at hle hpt
  refine deq_by_enq hc hx.split hx.before hx.behind hle p hne he hnf hef hf pt ?_ _ ?_
  · rcases hpt with ⟨h, -⟩ | rfl
    · exact .inl h
    · exact .inr (.inr rfl)
  · rcases hpt with ⟨-, rfl | rfl⟩ | rfl <;> simp

/-- C109: a dequeue interrupted by an enqueue between reading and writing `size`: both calls report success and the new
element is lost.  Interrupted between the new `size` and the moving loop: the last stored entry is lost and the new one
is stored twice, unless the delivered entry was itself the last. -/
theorem C109_dequeue_met_by_enqueue_loses (h : PQReach cap es bb bo pa cs os q m)
    (hx : FirstMax (stored q m bb bo pa es.toNat) pre x post) (p : U32)
    (hne : eb ≠ bb) (he : eo + es.toNat ≤ (m.bytes eb).length)
    (hnf : fb ≠ bb) (hef : fb ≠ eb) (hf : fo + es.toNat ≤ (m.bytes fb).length) (pt : DeqPoint) (res : List PItem)
    (hres : (pt = .load ∧ (stored q m bb bo pa es.toNat).length < cap.toNat ∧ res = pre ++ post) ∨
      (pt = .shrink ∧ ∃ kept last, post = kept ++ [last] ∧ res = pre ++ kept ++
        [(p, slice (m.bytes fb) fo es.toNat), (p, slice (m.bytes fb) fo es.toNat)]) ∨
      (pt = .shrink ∧ post = [] ∧ res = pre ++ [(p, slice (m.bytes fb) fo es.toNat)])) :
    ∃ q' m', dequeueInt pt (fun q => enqueue q (ptr fb fo) p) q (ptr eb eo) m = .ok (true, true, q') m' ∧
      slice (m'.bytes eb) eo es.toNat = x.2 ∧ stored q' m' bb bo pa es.toNat = res := by
  obtain ⟨hc, -, hle⟩ := h.conf
  rw [hx.split] at hle hres
  refine deq_by_enq hc hx.split hx.before hx.behind hle p hne he hnf hef hf pt ?_ _ ?_
  · rcases hres with ⟨-, h, -⟩ | ⟨rfl, -⟩ | ⟨rfl, -⟩
    · exact .inl h
    · exact .inr (.inl rfl)
    · exact .inr (.inl rfl)
  · rcases hres with ⟨rfl, -, rfl⟩ | ⟨rfl, kept, last, rfl, rfl⟩ | ⟨rfl, rfl, rfl⟩
    · simp
    · simp
    · simp

/-- C109: a dequeue interrupted by a dequeue after the search for the highest priority, before or after the copy.  The
handler gets `x`.  The interrupted call gets, if it had copied already, `x` too, otherwise the entry stored behind `x`
whatever its priority is, or `x` again if there is none; and the entry behind `x` is removed, or if there is none the
entry stored last, whether it was delivered or not. -/
theorem C109_dequeue_met_by_dequeue (h : PQReach cap es bb bo pa cs os q m)
    (hx : FirstMax (stored q m bb bo pa es.toNat) pre x post)
    (hne : eb ≠ bb) (he : eo + es.toNat ≤ (m.bytes eb).length)
    (hnf : fb ≠ bb) (hef : fb ≠ eb) (hf : fo + es.toNat ≤ (m.bytes fb).length) (pt : DeqPoint)
    (hpt : pt = .highest ∨ pt = .copy) (next : PItem) (res : List PItem)
    (hres : (∃ rest, post = next :: rest ∧ res = pre ++ rest) ∨
      (post = [] ∧ next = x ∧ ∃ last, pre = res ++ [last])) :
    ∃ q' m', dequeueInt pt (fun q => dequeue q (ptr fb fo)) q (ptr eb eo) m = .ok (true, true, q') m' ∧
      slice (m'.bytes fb) fo es.toNat = x.2 ∧
      slice (m'.bytes eb) eo es.toNat = (if pt = .copy then x.2 else next.2) ∧
      stored q' m' bb bo pa es.toNat = res := by
  obtain ⟨hc, -, hle⟩ := h.conf
  rw [hx.split] at hle
  refine deq_by_deq hc hx.split hx.before hx.behind hle hne he hnf hef hf pt hpt next res ?_
  rcases hres with ⟨rest, rfl, rfl⟩ | ⟨rfl, rfl, last, rfl⟩
  · exact .inl ⟨next, rest, rfl, rfl, rfl⟩
  · exact .inr ⟨rfl, by simp, rfl, by simp⟩

/-- C109: three interrupts that make the code leave its arrays, when the priority array has just `capacity` items:
an enqueue into the last free place, interrupted after its check by an enqueue; an enqueue that evicts, interrupted
before its moving loop by an enqueue; a dequeue of the only entry, interrupted after its check by a dequeue. -/
theorem C109_undefined (h : PQReach cap es bb bo pa cs os q m) (hw : (m.words pa).length = cap.toNat) (p p' : U32)
    (hne : eb ≠ bb) (he : eo + es.toNat ≤ (m.bytes eb).length)
    (hnf : fb ≠ bb) (hef : fb ≠ eb) (hf : fo + es.toNat ≤ (m.bytes fb).length) :
    ((stored q m bb bo pa es.toNat).length + 1 = cap.toNat →
      ∃ u, enqueueInt .guard (fun q => enqueue q (ptr fb fo) p') q (ptr eb eo) p m = .ub u) ∧
    ((stored q m bb bo pa es.toNat).length = cap.toNat → (∃ y ∈ stored q m bb bo pa es.toNat, y.1 < p) →
      ∃ u, enqueueInt .shrink (fun q => enqueue q (ptr fb fo) p') q (ptr eb eo) p m = .ub u) ∧
    ((stored q m bb bo pa es.toNat).length = 1 →
      ∃ u, dequeueInt .guard (fun q => dequeue q (ptr fb fo)) q (ptr eb eo) m = .ub u) := by
  obtain ⟨hc, hsz, -⟩ := h.conf
  refine ⟨fun hl => ?_, fun hl hy => ?_, fun hl => ?_⟩
  · exact enq_last_ub hc (by omega) hw p p' _ hnf hf
  · exact enq_evict_ub hc (by omega) hw p p' hy _ hnf hf
  · obtain ⟨x, hx⟩ := List.length_eq_one_iff.1 hl
    exact deq_only_ub hc hx (by rw [hw]; exact cap.isLt) hne he hnf hef hf

end

/-- Element bytes 10, 11, 12, 13 in block 0 with priorities 5, 7, 6, 9; blocks 1 and 2 belong to the callers. -/
def intMem : Mem :=
  ⟨fun b => if b = 0 then [10, 11, 12, 13] else if b = 1 then [77] else if b = 2 then [88] else [],
    fun b => if b = 3 then [5, 7, 6, 9] else []⟩

/-- Three of four places used. -/
def intQ : PQueue := ⟨4, 3, 1, 3, ptr 0 0⟩

/-- What is stored after two successful calls, and what the two callers have. -/
def intOut : Res (Bool × Bool × PQueue) → Option (List PItem × List Byte × List Byte)
  | .ok (true, true, q) m => some (stored q m 0 0 3 1, m.bytes 1, m.bytes 2)
  | _ => none

/-- The oldest of highest priority is 11; entries before and behind it. -/
example : FirstMax (stored intQ intMem 0 0 3 1) [(5, [10])] (7, [11]) [(6, [12])] :=
  ⟨by decide, by decide, by decide⟩
/-- 77 is lost, 12 is there twice. -/
example : intOut (enqueueInt .copy (fun q => dequeue q (ptr 2 0)) intQ (ptr 1 0) 8 intMem) =
    some ([(5, [10]), (6, [12]), (8, [12])], [77], [11]) := by decide +kernel
/-- 88 is lost. -/
example : intOut (dequeueInt .load (fun q => enqueue q (ptr 2 0) 8) intQ (ptr 1 0) intMem) =
    some ([(5, [10]), (6, [12])], [11], [88]) := by decide +kernel
/-- 12 is lost and 88 is there twice. -/
example : intOut (dequeueInt .shrink (fun q => enqueue q (ptr 2 0) 8) intQ (ptr 1 0) intMem) =
    some ([(5, [10]), (8, [88]), (8, [88])], [11], [88]) := by decide +kernel
/-- 11 is delivered twice, 12 not at all. -/
example : intOut (dequeueInt .copy (fun q => dequeue q (ptr 2 0)) intQ (ptr 1 0) intMem) =
    some ([(5, [10])], [11], [11]) := by decide +kernel
/-- Into the last place: behind the array. -/
example : (match enqueueInt .guard (fun q => enqueue q (ptr 2 0) 8) intQ (ptr 1 0) 8 intMem with
    | .ub _ => true
    | .ok _ _ => false) = true := by decide +kernel
/-- Harmless: right after the check, the dequeue leaves room. -/
example : intOut (enqueueInt .guard (fun q => dequeue q (ptr 2 0)) intQ (ptr 1 0) 8 intMem) =
    some ([(5, [10]), (6, [12]), (8, [77])], [77], [11]) := by decide +kernel
/-- A queue of four places reached by three calls meets the hypotheses of the theorems above: it has room for one more,
its priority array has just four items, and its oldest entry of highest priority has others before and behind it. -/
example : ∃ os q m, PQReach 4 1 0 0 3 [exPCall (.enq 5) 10, exPCall (.enq 7) 11, exPCall (.enq 6) 12] os q m ∧
    FirstMax (stored q m 0 0 3 1) [(5, [10])] (7, [11]) [(6, [12])] ∧ (m.words 3).length = 4 ∧
    (stored q m 0 0 3 1).length + 1 = 4 := by
  have h : (pqExecAll 0 3 1 ⟨4, 0, 1, 3, ptr 0 0⟩ intMem
      [exPCall (.enq 5) 10, exPCall (.enq 7) 11, exPCall (.enq 6) 12]).isSome = true := by decide
  have h2 : (pqExecAll 0 3 1 ⟨4, 0, 1, 3, ptr 0 0⟩ intMem
      [exPCall (.enq 5) 10, exPCall (.enq 7) 11, exPCall (.enq 6) 12]).map
        (fun r => (stored r.2.1 r.2.2 0 0 3 1, (r.2.2.words 3).length)) =
      some ([(5, [10]), (7, [11]), (6, [12])], 4) := by decide +kernel
  obtain ⟨⟨os, q1, m1⟩, h⟩ := Option.isSome_iff_exists.1 h
  rw [h] at h2
  simp only [Option.map_some, Option.some.injEq, Prod.mk.injEq] at h2
  refine ⟨os, q1, m1, ⟨⟨exPQ0, _, intMem, rfl, by decide, by decide, h⟩, by decide, ?_⟩, ?_, h2.2, ?_⟩
  · intro c hc
    simp only [List.mem_cons, List.not_mem_nil, or_false] at hc
    rcases hc with rfl | rfl | rfl <;> constructor <;> decide
  · rw [h2.1]; exact ⟨by decide, by decide, by decide⟩
  · rw [h2.1]; rfl

end IMU.Props
