import Verif.Proofs.Aliasing
import Verif.Props.PriorityQueue
import Verif.Props.Queue

/-!
# Property C104: enqueueing an entry from the container's own storage
-/

namespace IMU.Props
open Spec Utils

/-- The elements a queue holds, oldest first, as they lie in its buffer. -/
def held (q : IMU.Queue.Queue) (m : Mem) (bb bo esz : Nat) : List (List Byte) :=
  (List.range q.size.toNat).map fun k =>
    slice (m.bytes bb) (bo + ((q.front.toNat + k) % q.capacity.toNat) * esz) esz

theorem held_eq {cap esz bb bo : Nat} {q : IMU.Queue.Queue} {m : Mem} {xs : List (List Byte)}
    (h : IMU.Queue.Rep cap esz bb bo q m xs) : held q m bb bo esz = xs := by
  apply List.ext_getElem?; intro k
  unfold held
  rw [List.getElem?_map, h.size_eq, h.hcap]
  by_cases hk : k < xs.length
  · have hg := List.getElem?_eq_getElem hk
    rw [List.getElem?_range hk, Option.map_some, h.content k _ hg, hg]
  · rw [List.getElem?_eq_none (by simpa using hk), List.getElem?_eq_none (by omega)]; rfl

section Queue
open IMU.Queue

/-- C104: `Queue_enqueue` with a pointer to the `k`-th element of the queue's own buffer, in every reachable state with
room: a copy of that element is appended, nothing else changes, and every later history is that of the FIFO. -/
theorem C104_queue_own (q0 q : Queue) (cap es : U32) (bb bo : Nat) (m m' : Mem)
    (hi : init (some q0) cap es (some (ptr bb bo)) m = .ok (true, some q) m')
    (hlim : (cap.toNat - 1) * es.toNat < 2 ^ 32)
    (hbuf : bo + cap.toNat * es.toNat ≤ (m.bytes bb).length)
    (cs : List QCall) (hv : ∀ c ∈ cs, c.Valid bb es.toNat)
    (os : List QObs) (q1 : Queue) (m1 : Mem) (hx : execAll bb es.toNat q m' cs = some (os, q1, m1))
    (hroom : q1.size.toNat < cap.toNat) (k : Nat) (x : List Byte)
    (hk : (held q1 m1 bb bo es.toNat)[k]? = some x) :
    ∃ q2 m2, enqueue (some q1) (some (ptr bb (bo + ((q1.front.toNat + k) % cap.toNat) * es.toNat))) m1 =
        .ok (true, some q2) m2 ∧
      held q2 m2 bb bo es.toNat = held q1 m1 bb bo es.toNat ++ [x] ∧
      OnlyChanged m1 m2 bb bo (cap.toNat * es.toNat) ∧
      ∀ cs' : List QCall, (∀ c ∈ cs', c.Valid bb es.toNat) → ∃ q3 m3, execAll bb es.toNat q2 m2 cs' =
        some (fifoRun cap.toNat (held q1 m1 bb bo es.toNat ++ [x]) (cs'.map (·.op es.toNat)), q3, m3) := by
  obtain ⟨rfl, hrep⟩ := init_rep q0 q cap es bb bo m m' hi hlim hbuf
  obtain ⟨q', m'', xs, h1, h2⟩ := execAll_sim cs hrep hv
  rw [hx] at h1
  simp only [Option.some.injEq, Prod.mk.injEq] at h1
  obtain ⟨-, rfl, rfl⟩ := h1
  rw [held_eq h2] at hk ⊢
  rw [h2.size_eq] at hroom
  have hkl : k < xs.length := (List.getElem?_eq_some_iff.1 hk).1
  have hfl := h2.front_lt
  have hcp := h2.cap_pos
  have hb := h2.hlen
  have hne : (q1.front.toNat + k) % cap.toNat ≠ (q1.front.toNat + xs.length) % cap.toNat := by
    rw [mod_cases hfl (by omega), mod_cases hfl (by omega)]
    split <;> split <;> omega
  have hd := slot_disj es.toNat hne
  have hsl := slot_le es.toNat (Nat.mod_lt (q1.front.toNat + k) hcp)
  obtain ⟨q2, m2, g1, g2, g3⟩ := enqueue_apart h2 hroom bb
    (bo + ((q1.front.toNat + k) % cap.toNat) * es.toNat) (by omega) (by omega)
  rw [h2.content k x hk] at g2
  refine ⟨q2, m2, g1, held_eq g2, g3, fun cs' hv' => ?_⟩
  obtain ⟨q3, m3, _, f1, -⟩ := execAll_sim cs' g2 hv'
  exact ⟨q3, m3, f1⟩

/-- C104: with a pointer to the free place of the buffer that the call is about to fill, the copy overlaps itself. -/
theorem C104_queue_target (q0 q : Queue) (cap es : U32) (bb bo : Nat) (m m' : Mem)
    (hi : init (some q0) cap es (some (ptr bb bo)) m = .ok (true, some q) m')
    (hlim : (cap.toNat - 1) * es.toNat < 2 ^ 32)
    (hbuf : bo + cap.toNat * es.toNat ≤ (m.bytes bb).length)
    (cs : List QCall) (hv : ∀ c ∈ cs, c.Valid bb es.toNat)
    (os : List QObs) (q1 : Queue) (m1 : Mem) (hx : execAll bb es.toNat q m' cs = some (os, q1, m1))
    (hroom : q1.size.toNat < cap.toNat) :
    enqueue (some q1)
      (some (ptr bb (bo + ((q1.front.toNat + q1.size.toNat) % cap.toNat) * es.toNat))) m1 = .ub .overlap := by
  obtain ⟨rfl, hrep⟩ := init_rep q0 q cap es bb bo m m' hi hlim hbuf
  obtain ⟨q', m'', xs, h1, h2⟩ := execAll_sim cs hrep hv
  rw [hx] at h1
  simp only [Option.some.injEq, Prod.mk.injEq] at h1
  obtain ⟨-, rfl, rfl⟩ := h1
  rw [h2.size_eq] at hroom ⊢
  have hcp := h2.cap_pos
  have hi := Nat.mod_lt (q1.front.toNat + xs.length) hcp
  have hmul : (((q1.rear + 1#32) % q1.capacity) * q1.element_size).toNat =
      ((q1.front.toNat + xs.length) % cap.toNat) * es.toNat :=
    mul_toNat (rear_succ h2) h2.hes hi h2.lim
  simp only [enqueue]
  rw [h2.full_iff, decide_eq_false (by omega)]
  simp only [Bool.not_false, if_true, C.bind_run, C.require_ok h2.cap_ne, C.pure_run, hmul, h2.hes, h2.hbuf,
    ptr_addN, memcpy_self h2.esz_pos]

/-- Non-vacuity of C104 (queue): a wrapped ring of three places; the oldest element is enqueued again. -/
example : ∃ q m' q1 m1 os, init (some exQ0) 3 1 (some (ptr 0 0)) (mem2 [0, 0, 0] []) = .ok (true, some q) m' ∧
    execAll 0 1 q m' [exCall .enq 5, exCall .enq 6, exCall .enq 7, exCall .deq 0] = some (os, q1, m1) ∧
    q1.size.toNat < 3 ∧ (held q1 m1 0 0 1)[0]? = some [6] := by
  refine ⟨_, _, _, _, _, rfl, rfl, ?_, ?_⟩ <;> decide

end Queue

section PriorityQueue
open IMU.PQ

/-- C104: for every queue, memory and element pointer: if the priority pointer leads outside the queue's own priority
array, or the queue has room, the call depends only on the value found there; this is the situation of C26 - C30. -/
theorem C104_pq_value (q : PQueue) (el : Ptr) (pb pi : Nat) (v : U32) (m : Mem)
    (hv : (m.words pb)[pi]? = some v) (h : pb ≠ q.priority_array ∨ q.size ≠ q.capacity) :
    enqueueItem q el pb pi m = enqueue q el v m :=
  enqueueItem_eq q el pb pi v m hv (h.imp id fun h => by simp [full, h])

/-- What C104 promises of the state after a successful call: it holds `ys`, and every later history is that of the ideal
priority queue holding `ys`. -/
def PQHolds (cap esz bb bo pa : Nat) (q : PQueue) (m : Mem) (ys : List PItem) : Prop :=
  stored q m bb bo pa esz = ys ∧
  ∀ cs : List PQCall, (∀ c ∈ cs, c.Valid bb esz) → ∃ os q' m' out zs,
    pqExecAll bb pa esz q m cs = some (os, q', m') ∧ PQRun cap ys (cs.map (·.op esz)) os out zs

theorem holds_of_rep {cap esz bb bo pa : Nat} {q : PQueue} {m : Mem} {ys : List PItem}
    (h : Rep cap esz bb bo pa q m ys) : PQHolds cap esz bb bo pa q m ys := by
  refine ⟨stored_eq h, fun cs hv => ?_⟩
  obtain ⟨os, q', m', out, zs, g1, g2, -⟩ := pq_all cs h hv
  exact ⟨os, q', m', out, zs, g1, g2⟩

/-- C104: the queue's own entry `i` (element and priority in place) with room left: a copy is appended. -/
theorem C104_pq_own_room (cap es : U32) (bb bo pa : Nat) (cs : List PQCall) (os : List PQObs) (q1 : PQueue)
    (m1 : Mem) (h : PQReach cap es bb bo pa cs os q1 m1)
    (hroom : (stored q1 m1 bb bo pa es.toNat).length < cap.toNat) (i : Nat) (x : PItem)
    (hx : (stored q1 m1 bb bo pa es.toNat)[i]? = some x) :
    ∃ q2 m2, enqueueItem q1 (ptr bb (bo + i * es.toNat)) pa i m1 = .ok (true, q2) m2 ∧
      PQHolds cap.toNat es.toNat bb bo pa q2 m2 (stored q1 m1 bb bo pa es.toNat ++ [x]) := by
  obtain ⟨out, xs, -, hrep⟩ := h.rep
  rw [stored_eq hrep] at hroom hx ⊢
  obtain ⟨q2, m2, h1, h2⟩ := own_room hrep hroom hx
  exact ⟨q2, m2, h1, holds_of_rep h2⟩

/-- C104: a full queue rejects its own entry `i` when no entry has a lower priority. -/
theorem C104_pq_own_reject (cap es : U32) (bb bo pa : Nat) (cs : List PQCall) (os : List PQObs) (q1 : PQueue)
    (m1 : Mem) (h : PQReach cap es bb bo pa cs os q1 m1)
    (hfull : (stored q1 m1 bb bo pa es.toNat).length = cap.toNat) (i : Nat) (x : PItem)
    (hx : (stored q1 m1 bb bo pa es.toNat)[i]? = some x)
    (hmin : ∀ y ∈ stored q1 m1 bb bo pa es.toNat, x.1 ≤ y.1) :
    enqueueItem q1 (ptr bb (bo + i * es.toNat)) pa i m1 = .ok (false, q1) m1 := by
  obtain ⟨out, xs, -, hrep⟩ := h.rep
  rw [stored_eq hrep] at hfull hx hmin
  exact own_reject hrep hfull hx hmin _

/-- C104: a full queue, its own entry `i` and an oldest lowest entry `lo` of lower priority, which the call evicts.
Entries before `lo` are copied faithfully.  An entry behind `lo` has moved when it is read: its successor is enqueued
instead, under the successor's priority - and for the last entry the copy overlaps itself. -/
theorem C104_pq_own_full (cap es : U32) (bb bo pa : Nat) (cs : List PQCall) (os : List PQObs) (q1 : PQueue)
    (m1 : Mem) (h : PQReach cap es bb bo pa cs os q1 m1)
    (hfull : (stored q1 m1 bb bo pa es.toNat).length = cap.toNat) (i : Nat) (x : PItem)
    (hx : (stored q1 m1 bb bo pa es.toNat)[i]? = some x)
    (pre post : List PItem) (lo : PItem) (hs : stored q1 m1 bb bo pa es.toNat = pre ++ lo :: post)
    (hpre : ∀ y ∈ pre, lo.1 < y.1) (hpost : ∀ y ∈ post, lo.1 ≤ y.1) (hlt : lo.1 < x.1) :
    (i < pre.length → ∃ q2 m2, enqueueItem q1 (ptr bb (bo + i * es.toNat)) pa i m1 = .ok (true, q2) m2 ∧
      PQHolds cap.toNat es.toNat bb bo pa q2 m2 (pre ++ post ++ [x])) ∧
    (pre.length < i → ∀ y, (stored q1 m1 bb bo pa es.toNat)[i + 1]? = some y →
      ∃ q2 m2, enqueueItem q1 (ptr bb (bo + i * es.toNat)) pa i m1 = .ok (true, q2) m2 ∧
        PQHolds cap.toNat es.toNat bb bo pa q2 m2 (pre ++ post ++ [y])) ∧
    (i + 1 = cap.toNat → enqueueItem q1 (ptr bb (bo + i * es.toNat)) pa i m1 = .ub .overlap) := by
  obtain ⟨out, xs, -, hrep⟩ := h.rep
  rw [stored_eq hrep] at hfull hx hs ⊢
  subst hs
  obtain ⟨h1, h2⟩ := own_full hrep hfull hpre hpost hx hlt
  refine ⟨fun hi => ?_, fun hi y hy => ?_, h2⟩
  · rw [List.getElem?_append_left hi] at hx
    obtain ⟨q2, m2, g1, g2⟩ := h1 x (by rw [List.getElem?_append_left hi]; exact hx)
    exact ⟨q2, m2, g1, holds_of_rep g2⟩
  · rw [List.getElem?_append_right (by omega), show i + 1 - pre.length = (i - pre.length) + 1 by omega,
      List.getElem?_cons_succ] at hy
    obtain ⟨q2, m2, g1, g2⟩ := h1 y (by rw [List.getElem?_append_right (by omega)]; exact hy)
    exact ⟨q2, m2, g1, holds_of_rep g2⟩

/-- Non-vacuity of C104 (priority queue): four entries with priorities 5, 3, 7, 9; the second is evicted.  Entry 0 is
enqueued faithfully, for entry 2 the element of priority 9 is stored a second time, entry 3 is undefined. -/
def exOwnMem : Mem := ⟨fun b => if b = 0 then [0, 0, 0, 0] else [], fun b => if b = 0 then [0, 0, 0, 0] else []⟩
def exOwnCalls : List PQCall := [exPCall (.enq 5) 1, exPCall (.enq 3) 2, exPCall (.enq 7) 3, exPCall (.enq 9) 4]
def exOwn (i : Nat) : Option (Bool × List (U32 × List Byte)) :=
  match pqExecAll 0 0 1 ⟨4, 0, 1, 0, ptr 0 0⟩ exOwnMem exOwnCalls with
  | some (_, q, m) => match enqueueItem q (ptr 0 i) 0 i m with
    | .ok (r, q') m' => some (r, stored q' m' 0 0 0 1)
    | .ub _ => none
  | none => none
example : ∃ os q1 m1, PQReach 4 1 0 0 0 exOwnCalls os q1 m1 ∧
    stored q1 m1 0 0 0 1 = [(5, [1])] ++ (3, [2]) :: [(7, [3]), (9, [4])] := by
  have h : (pqExecAll 0 0 1 ⟨4, 0, 1, 0, ptr 0 0⟩ exOwnMem exOwnCalls).map
      (fun r => stored r.2.1 r.2.2 0 0 0 1) = some ([(5, [1])] ++ (3, [2]) :: [(7, [3]), (9, [4])]) := by decide +kernel
  obtain ⟨⟨os, q1, m1⟩, h, hs⟩ := Option.map_eq_some_iff.1 h
  refine ⟨os, q1, m1, ⟨⟨exPQ0, _, exOwnMem, rfl, by decide, by decide, h⟩, by decide, ?_⟩, hs⟩
  intro c hc
  simp only [exOwnCalls, List.mem_cons, List.not_mem_nil, or_false] at hc
  rcases hc with rfl | rfl | rfl | rfl <;> constructor <;> decide
example : exOwn 0 = some (true, [(5, [1]), (7, [3]), (9, [4]), (5, [1])]) ∧
    exOwn 1 = some (false, [(5, [1]), (3, [2]), (7, [3]), (9, [4])]) ∧
    exOwn 2 = some (true, [(5, [1]), (7, [3]), (9, [4]), (9, [4])]) ∧ exOwn 3 = none := ⟨by decide +kernel, by decide +kernel, by decide +kernel, by decide +kernel⟩

end PriorityQueue

end IMU.Props
