import Verif.Proofs.Deliver
import Verif.Props.Aliasing
import Verif.Spec.Touch

/-!
# Property C116: elements delivered into the container's own buffer

Src/queue.c:92, 110 and 126 and Src/priority_queue.c:144 copy the delivered element to a place the caller
chooses.
-/

namespace IMU.Props
open Spec Utils

section Queue
open IMU.Queue

/-- `(q, m)` is reached from a successful initialisation by a history `cs` of valid calls. -/
structure QReach (cap es : U32) (bb bo : Nat) (cs : List QCall) (q1 : Queue) (m1 : Mem) : Prop where
  start : ∃ q0 q m m' os, init (some q0) cap es (some (ptr bb bo)) m = .ok (true, some q) m' ∧
    bo + cap.toNat * es.toNat ≤ (m.bytes bb).length ∧ execAll bb es.toNat q m' cs = some (os, q1, m1)
  lim : (cap.toNat - 1) * es.toNat < 2 ^ 32
  valid : ∀ c ∈ cs, c.Valid bb es.toNat

theorem QReach.rep {cap es : U32} {bb bo : Nat} {cs : List QCall} {q1 : Queue} {m1 : Mem}
    (h : QReach cap es bb bo cs q1 m1) : ∃ xs, Rep cap.toNat es.toNat bb bo q1 m1 xs := by
  obtain ⟨q0, q, m, m', os, h1, h2, h3⟩ := h.start
  obtain ⟨rfl, hrep⟩ := init_rep q0 q cap es bb bo m m' h1 h.lim h2
  obtain ⟨q', m'', xs, g1, g2⟩ := execAll_sim cs hrep h.valid
  rw [h3] at g1
  simp only [Option.some.injEq, Prod.mk.injEq] at g1
  obtain ⟨-, rfl, rfl⟩ := g1
  exact ⟨xs, g2⟩

/-- The queue holds `ys`, oldest first, and every later history of valid calls is that of the FIFO holding `ys`. -/
def QHolds (cap esz bb bo : Nat) (q : Queue) (m : Mem) (ys : List (List Byte)) : Prop :=
  held q m bb bo esz = ys ∧
  ∀ cs : List QCall, (∀ c ∈ cs, c.Valid bb esz) → ∃ q' m',
    execAll bb esz q m cs = some (fifoRun cap ys (cs.map (·.op esz)), q', m')

theorem q_holds {cap esz bb bo : Nat} {q : Queue} {m : Mem} {ys : List (List Byte)} (h : Rep cap esz bb bo q m ys) :
    QHolds cap esz bb bo q m ys := by
  refine ⟨held_eq h, fun cs hv => ?_⟩
  obtain ⟨q', m', _, g, -⟩ := execAll_sim cs h hv
  exact ⟨q', m', g⟩

variable {cap es : U32} {bb bo : Nat} {cs : List QCall} {q : Queue} {m : Mem}

/-- C116: `Queue_dequeue` and `Queue_front` of a queue holding `x :: xs` with any destination of one element: undefined if
it overlaps the place of `x`; otherwise `x` is found there, only these bytes change, and the queue goes on with the elements
as they then lie in the buffer. -/
theorem C116_dequeue_front (hr : QReach cap es bb bo cs q m) {x : List Byte} {xs : List (List Byte)}
    (hx : held q m bb bo es.toNat = x :: xs) {b o : Nat} (hb : o + es.toNat ≤ (m.bytes b).length) :
    (Touch b o es.toNat bb (bo + q.front.toNat * es.toNat) es.toNat →
      dequeue (some q) (some (ptr b o)) m = .ub .overlap ∧ front (some q) (some (ptr b o)) m = .ub .overlap) ∧
    (¬ Touch b o es.toNat bb (bo + q.front.toNat * es.toNat) es.toNat →
      (∃ q' m', dequeue (some q) (some (ptr b o)) m = .ok (true, some q') m' ∧
        slice (m'.bytes b) o es.toNat = x ∧ OnlyChanged m m' b o es.toNat ∧
        QHolds cap.toNat es.toNat bb bo q' m' (ringOverlay cap.toNat es.toNat bb bo (q.front.toNat + 1) xs b o x)) ∧
      (∃ m', front (some q) (some (ptr b o)) m = .ok true m' ∧
        slice (m'.bytes b) o es.toNat = x ∧ OnlyChanged m m' b o es.toNat ∧
        QHolds cap.toNat es.toNat bb bo q m' (ringOverlay cap.toNat es.toNat bb bo q.front.toNat (x :: xs) b o x))) := by
  obtain ⟨ys, h⟩ := hr.rep
  rw [held_eq h] at hx
  subst hx
  constructor
  · rintro ⟨rfl, h1, h2⟩
    exact clash_front h (by simp) ⟨h1, h2⟩
  · intro hn
    have hne : b ≠ bb ∨ o + es.toNat ≤ bo + q.front.toNat * es.toNat ∨ bo + q.front.toNat * es.toNat + es.toNat ≤ o := by
      unfold Touch at hn; omega
    obtain ⟨q', m', g1, g2, g3, g4⟩ := deliver_deq h hb hne
    obtain ⟨m'', f1, f2, f3, f4⟩ := deliver_front h hb hne
    exact ⟨⟨q', m', g1, g3, g4, q_holds g2⟩, m'', f1, f3, f4, q_holds f2⟩

/-- C116: `Queue_rear` likewise, with the place of the newest element. -/
theorem C116_rear (hr : QReach cap es bb bo cs q m) {x : List Byte} {xs : List (List Byte)}
    (hx : held q m bb bo es.toNat = xs ++ [x]) {b o : Nat} (hb : o + es.toNat ≤ (m.bytes b).length) :
    (Touch b o es.toNat bb (bo + ((q.front.toNat + xs.length) % cap.toNat) * es.toNat) es.toNat →
      rear (some q) (some (ptr b o)) m = .ub .overlap) ∧
    (¬ Touch b o es.toNat bb (bo + ((q.front.toNat + xs.length) % cap.toNat) * es.toNat) es.toNat →
      ∃ m', rear (some q) (some (ptr b o)) m = .ok true m' ∧
        slice (m'.bytes b) o es.toNat = x ∧ OnlyChanged m m' b o es.toNat ∧
        QHolds cap.toNat es.toNat bb bo q m' (ringOverlay cap.toNat es.toNat bb bo q.front.toNat (xs ++ [x]) b o x)) := by
  obtain ⟨ys, h⟩ := hr.rep
  rw [held_eq h] at hx
  subst hx
  rw [rear_place h]
  constructor
  · rintro ⟨rfl, h1, h2⟩
    exact clash_rear h (by simp) ⟨h1, h2⟩
  · intro hn
    obtain ⟨m', f1, f2, f3, f4⟩ := deliver_rear h hb (by unfold Touch at hn; omega)
    exact ⟨m', f1, f3, f4, q_holds f2⟩

/-- C116: the element of `Queue_enqueue` anywhere, with room left: undefined if it overlaps the free place that is filled,
otherwise exactly these bytes are appended.  (C104 is the case of a whole element.) -/
theorem C116_enqueue (hr : QReach cap es bb bo cs q m) (hroom : (held q m bb bo es.toNat).length < cap.toNat)
    {b o : Nat} (hb : o + es.toNat ≤ (m.bytes b).length) :
    (Touch b o es.toNat bb
        (bo + ((q.front.toNat + (held q m bb bo es.toNat).length) % cap.toNat) * es.toNat) es.toNat →
      enqueue (some q) (some (ptr b o)) m = .ub .overlap) ∧
    (¬ Touch b o es.toNat bb
        (bo + ((q.front.toNat + (held q m bb bo es.toNat).length) % cap.toNat) * es.toNat) es.toNat →
      ∃ q' m', enqueue (some q) (some (ptr b o)) m = .ok (true, some q') m' ∧
        OnlyChanged m m' bb bo (cap.toNat * es.toNat) ∧
        QHolds cap.toNat es.toNat bb bo q' m' (held q m bb bo es.toNat ++ [slice (m.bytes b) o es.toNat])) := by
  obtain ⟨ys, h⟩ := hr.rep
  rw [held_eq h] at hroom ⊢
  constructor
  · rintro ⟨rfl, h1, h2⟩
    exact clash_enq h hroom ⟨h1, h2⟩
  · intro hn
    obtain ⟨q', m', g1, g2, g3⟩ := enqueue_apart h hroom b o (by unfold Touch at hn; omega) hb
    exact ⟨q', m', g1, g3, q_holds g2⟩

/-- C116: delivered over the place of another element, number `k + 1`, that element is replaced by the delivered one, which
the queue will deliver a second time. -/
theorem C116_dequeue_over_element (hr : QReach cap es bb bo cs q m) {x : List Byte} {xs : List (List Byte)}
    (hx : held q m bb bo es.toNat = x :: xs) {k : Nat} (hk : k < xs.length) : ∃ q' m',
    dequeue (some q) (some (ptr bb (bo + ((q.front.toNat + 1 + k) % cap.toNat) * es.toNat))) m = .ok (true, some q') m' ∧
      QHolds cap.toNat es.toNat bb bo q' m' (xs.set k x) := by
  obtain ⟨ys, h⟩ := hr.rep
  rw [held_eq h] at hx
  subst hx
  have hle := h.size_le
  rw [List.length_cons] at hle
  have hfl := h.front_lt
  have hne : (q.front.toNat + 1 + k) % cap.toNat ≠ q.front.toNat := by
    rw [show q.front.toNat + 1 + k = q.front.toNat + (k + 1) by omega, mod_cases hfl (by omega)]
    split <;> omega
  have hd := slot_disj es.toNat hne
  have hsl := slot_le es.toNat (Nat.mod_lt (q.front.toNat + 1 + k) h.cap_pos)
  have hb := h.hlen
  obtain ⟨q', m', g1, g2, -⟩ := deliver_deq h (eb := bb)
    (eo := bo + ((q.front.toNat + 1 + k) % cap.toNat) * es.toNat) (by omega) (by omega)
  rw [ringOverlay_place h.cap_pos (by omega) (fun e he => ?_) (elem_length h (k := 0) rfl) hk] at g2
  · exact ⟨q', m', g1, q_holds g2⟩
  · obtain ⟨i, hi⟩ := List.getElem?_of_mem he
    exact elem_length h (k := i + 1) hi

/-- C116: delivered where none of the other elements lies - in the caller's memory, in free places of the ring, or before or
behind the ring in the same object - nothing is lost. -/
theorem C116_dequeue_free (hr : QReach cap es bb bo cs q m) {x : List Byte} {xs : List (List Byte)}
    (hx : held q m bb bo es.toNat = x :: xs) {b o : Nat} (hb : o + es.toNat ≤ (m.bytes b).length)
    (hfree : ∀ k, k ≤ xs.length →
      ¬ Touch b o es.toNat bb (bo + ((q.front.toNat + k) % cap.toNat) * es.toNat) es.toNat) : ∃ q' m',
    dequeue (some q) (some (ptr b o)) m = .ok (true, some q') m' ∧ slice (m'.bytes b) o es.toNat = x ∧
      QHolds cap.toNat es.toNat bb bo q' m' xs := by
  obtain ⟨ys, h⟩ := hr.rep
  rw [held_eq h] at hx
  subst hx
  have h0 := hfree 0 (by omega)
  rw [Nat.add_zero, Nat.mod_eq_of_lt h.front_lt] at h0
  obtain ⟨q', m', g1, g2, g3, -⟩ := deliver_deq h hb (by unfold Touch at h0; omega)
  rw [ringOverlay_apart (fun k e he => ?_)] at g2
  · exact ⟨q', m', g1, g3, q_holds g2⟩
  · have h1 := elem_length h (k := k + 1) he
    have h2 := elem_length h (k := 0) rfl
    have h3 := hfree (k + 1) (by have := (List.getElem?_eq_some_iff.1 he).1; omega)
    rw [show q.front.toNat + (k + 1) = q.front.toNat + 1 + k by omega] at h3
    unfold Touch at h3
    rw [h1, h2]; omega

/-- Non-vacuity of C116 (queue): a wrapped ring of three one-byte places holding 6, 7, 8; in the example the oldest element is
delivered over the newest. -/
def exDelMem : Mem := mem2 [0, 0, 0] []
def exDelCalls : List QCall := [exCall .enq 5, exCall .enq 6, exCall .enq 7, exCall .deq 0, exCall .enq 8]
example : ∃ q m, QReach 3 1 0 0 exDelCalls q m ∧ held q m 0 0 1 = [6] :: [[7], [8]] ∧ q.front.toNat = 1 := by
  refine ⟨_, _, ⟨⟨exQ0, _, exDelMem, _, _, rfl, by decide, rfl⟩, by decide, ?_⟩, by decide, by decide⟩
  intro c hc
  simp only [exDelCalls, List.mem_cons, List.not_mem_nil, or_false] at hc
  rcases hc with rfl | rfl | rfl | rfl | rfl <;> constructor <;> decide
def exDel (o : Nat) : Option (List (List Byte)) :=
  match execAll 0 1 ⟨3, 0, 2, 0, 1, ptr 0 0⟩ exDelMem exDelCalls with
  | some (_, q, m) => match dequeue (some q) (some (ptr 0 o)) m with
    | .ok (_, some q') m' => some (held q' m' 0 0 1)
    | _ => none
  | none => none
example : exDel 0 = some [[7], [6]] ∧ exDel 1 = none ∧ exDel 2 = some [[6], [8]] := by decide +kernel

end Queue

section PriorityQueue
open IMU.PQ

variable {cap es : U32} {bb bo pa : Nat} {cs : List PQCall} {os : List PQObs} {q : PQueue} {m : Mem}
  {pre post : List PItem} {x : PItem}

theorem item_length {cap esz : Nat} {xs : List PItem} (h : Rep cap esz bb bo pa q m xs) :
    ∀ e ∈ xs, e.2.length = esz := by
  intro e he
  obtain ⟨i, hi⟩ := List.getElem?_of_mem he
  have hil := (List.getElem?_eq_some_iff.1 hi).1
  have hle := h.size_le
  have hb := h.hlen
  have := IMU.Queue.slot_le esz (show i < cap by omega)
  rw [← h.content i e hi, slice_length _ _ _ (by omega)]

/-- C116: `PriorityQueue_dequeue` delivering the entry `x` (oldest of highest priority) to any destination of one element:
undefined if it overlaps the place of `x`; otherwise the call succeeds and the other entries, with their priorities, remain
as they lie in the buffer after the element has been written there. -/
theorem C116_pq_dequeue (hr : PQReach cap es bb bo pa cs os q m)
    (hs : stored q m bb bo pa es.toNat = pre ++ x :: post) (hpre : ∀ y ∈ pre, y.1 < x.1) (hpost : ∀ y ∈ post, y.1 ≤ x.1)
    {b o : Nat} (hb : o + es.toNat ≤ (m.bytes b).length) :
    (Touch b o es.toNat bb (bo + pre.length * es.toNat) es.toNat → dequeue q (ptr b o) m = .ub .overlap) ∧
    (¬ Touch b o es.toNat bb (bo + pre.length * es.toNat) es.toNat → ∃ q' m',
      dequeue q (ptr b o) m = .ok (true, q') m' ∧
      PQFrame m m' bb bo (cap.toNat * es.toNat) pa cap.toNat b o es.toNat ∧
      PQHolds cap.toNat es.toNat bb bo pa q' m' (itemsOverlay es.toNat bb bo 0 pre b o x.2 ++
        itemsOverlay es.toNat bb bo (pre.length + 1) post b o x.2)) := by
  obtain ⟨_, xs, -, h⟩ := hr.rep
  rw [stored_eq h] at hs
  subst hs
  constructor
  · rintro ⟨rfl, h1, h2⟩
    exact clash_deq h hpre hpost ⟨h1, h2⟩
  · intro hn
    obtain ⟨q', m', g1, g2, g3, -⟩ := deliver_deq h hpre hpost hb (by unfold Touch at hn; omega)
    exact ⟨q', m', g1, g3, holds_of_rep g2⟩

/-- C116: delivered over the place of an older entry `j`: the element is found there and entry `j` now carries it, under its
own priority. -/
theorem C116_pq_over_older (hr : PQReach cap es bb bo pa cs os q m)
    (hs : stored q m bb bo pa es.toNat = pre ++ x :: post) (hpre : ∀ y ∈ pre, y.1 < x.1) (hpost : ∀ y ∈ post, y.1 ≤ x.1)
    {j : Nat} {y : PItem} (hj : pre[j]? = some y) : ∃ q' m',
    dequeue q (ptr bb (bo + j * es.toNat)) m = .ok (true, q') m' ∧
      slice (m'.bytes bb) (bo + j * es.toNat) es.toNat = x.2 ∧
      PQHolds cap.toNat es.toNat bb bo pa q' m' (pre.set j (y.1, x.2) ++ post) := by
  obtain ⟨_, xs, -, h⟩ := hr.rep
  rw [stored_eq h] at hs
  subst hs
  have hil := item_length h
  have hjl := (List.getElem?_eq_some_iff.1 hj).1
  have hle := h.size_le
  have hb := h.hlen
  simp only [List.length_append, List.length_cons] at hle
  have hsj := IMU.Queue.slot_le es.toNat (show j < cap.toNat by omega)
  have hd := IMU.Queue.slot_disj es.toNat (show j ≠ pre.length by omega)
  obtain ⟨q', m', g1, g2, -, g4⟩ := deliver_deq h hpre hpost (eb := bb) (eo := bo + j * es.toNat) (by omega) (by omega)
  have h4 := g4 j (by omega) rfl rfl
  rw [if_neg (by omega)] at h4
  have e1 := itemsOverlay_place (esz := es.toNat) (bb := bb) (bo := bo) (f := 0) (k := j) (x := x.2)
    (fun e he => hil e (by simp [he])) (hil x (by simp)) hj
  rw [Nat.zero_add] at e1
  rw [e1, itemsOverlay_apart (fun k e he => ?_)] at g2
  · exact ⟨q', m', g1, h4, holds_of_rep g2⟩
  · rw [hil e (by simp [List.mem_of_getElem? he]), hil x (by simp)]
    have := IMU.Queue.slot_disj es.toNat (show j ≠ pre.length + 1 + k by omega)
    omega

/-- C116: delivered over the place of a newer entry `y`, number `j` behind `x`: the entry keeps its priority but carries the
delivered element - and as it then moves down by one place, what the caller finds at the destination is the element of the
entry behind it, unless it was the newest. -/
theorem C116_pq_over_newer (hr : PQReach cap es bb bo pa cs os q m)
    (hs : stored q m bb bo pa es.toNat = pre ++ x :: post) (hpre : ∀ y ∈ pre, y.1 < x.1) (hpost : ∀ y ∈ post, y.1 ≤ x.1)
    {j : Nat} {y : PItem} (hj : post[j]? = some y) : ∃ q' m',
    dequeue q (ptr bb (bo + (pre.length + 1 + j) * es.toNat)) m = .ok (true, q') m' ∧
      slice (m'.bytes bb) (bo + (pre.length + 1 + j) * es.toNat) es.toNat = ((post[j + 1]?).getD x).2 ∧
      PQHolds cap.toNat es.toNat bb bo pa q' m' (pre ++ post.set j (y.1, x.2)) := by
  obtain ⟨_, xs, -, h⟩ := hr.rep
  rw [stored_eq h] at hs
  subst hs
  have hil := item_length h
  have hjl := (List.getElem?_eq_some_iff.1 hj).1
  have hle := h.size_le
  have hb := h.hlen
  simp only [List.length_append, List.length_cons] at hle
  have hsj := IMU.Queue.slot_le es.toNat (show pre.length + 1 + j < cap.toNat by omega)
  have hd := IMU.Queue.slot_disj es.toNat (show pre.length + 1 + j ≠ pre.length by omega)
  obtain ⟨q', m', g1, g2, -, g4⟩ := deliver_deq h hpre hpost (eb := bb)
    (eo := bo + (pre.length + 1 + j) * es.toNat) (by omega) (by omega)
  have h4 := g4 (pre.length + 1 + j) (by omega) rfl rfl
  rw [itemsOverlay_place (fun e he => hil e (by simp [he])) (hil x (by simp)) hj,
    itemsOverlay_apart (fun k e he => ?_)] at g2
  · refine ⟨q', m', g1, ?_, holds_of_rep g2⟩
    rw [h4]
    by_cases hlast : j + 1 < post.length
    · rw [if_pos (by omega), List.getElem?_eq_getElem hlast, Option.getD_some]
      refine h.content (pre.length + 1 + j + 1) _ ?_
      rw [List.getElem?_append_right (by omega), show pre.length + 1 + j + 1 - pre.length = (j + 1) + 1 by omega,
        List.getElem?_cons_succ, List.getElem?_eq_getElem hlast]
    · rw [if_neg (by omega), List.getElem?_eq_none (by omega), Option.getD_none]
  · rw [hil e (by simp [List.mem_of_getElem? he]), hil x (by simp)]
    have := (List.getElem?_eq_some_iff.1 he).1
    have := IMU.Queue.slot_disj es.toNat (show pre.length + 1 + j ≠ 0 + k by omega)
    omega

/-- C116: delivered into a free place of the buffer nothing is lost. -/
theorem C116_pq_free_place (hr : PQReach cap es bb bo pa cs os q m)
    (hs : stored q m bb bo pa es.toNat = pre ++ x :: post) (hpre : ∀ y ∈ pre, y.1 < x.1) (hpost : ∀ y ∈ post, y.1 ≤ x.1)
    {j : Nat} (hj : pre.length + 1 + post.length ≤ j) (hjc : j < cap.toNat) : ∃ q' m',
    dequeue q (ptr bb (bo + j * es.toNat)) m = .ok (true, q') m' ∧
      slice (m'.bytes bb) (bo + j * es.toNat) es.toNat = x.2 ∧
      PQHolds cap.toNat es.toNat bb bo pa q' m' (pre ++ post) := by
  obtain ⟨_, xs, -, h⟩ := hr.rep
  rw [stored_eq h] at hs
  subst hs
  have hil := item_length h
  have hb := h.hlen
  have hsj := IMU.Queue.slot_le es.toNat hjc
  have hd := IMU.Queue.slot_disj es.toNat (show j ≠ pre.length by omega)
  obtain ⟨q', m', g1, g2, -, g4⟩ := deliver_deq h hpre hpost (eb := bb) (eo := bo + j * es.toNat) (by omega) (by omega)
  have h4 := g4 j hjc rfl rfl
  rw [if_neg (by omega)] at h4
  rw [itemsOverlay_apart (fun k e he => ?_), itemsOverlay_apart (fun k e he => ?_)] at g2
  · exact ⟨q', m', g1, h4, holds_of_rep g2⟩
  · rw [hil e (by simp [List.mem_of_getElem? he]), hil x (by simp)]
    have := (List.getElem?_eq_some_iff.1 he).1
    have := IMU.Queue.slot_disj es.toNat (show j ≠ pre.length + 1 + k by omega)
    omega
  · rw [hil e (by simp [List.mem_of_getElem? he]), hil x (by simp)]
    have := (List.getElem?_eq_some_iff.1 he).1
    have := IMU.Queue.slot_disj es.toNat (show j ≠ 0 + k by omega)
    omega

/-- Non-vacuity of C116 (priority queue): priorities 5, 9, 7, 3 with elements 1, 2, 3, 4; the second entry is delivered over
every place in turn.  Over the third place the caller finds 4, over the others 2. -/
def exDelPCalls : List PQCall := [exPCall (.enq 5) 1, exPCall (.enq 9) 2, exPCall (.enq 7) 3, exPCall (.enq 3) 4]
def exDelP (j : Nat) : Option (List Byte × List (U32 × List Byte)) :=
  match pqExecAll 0 0 1 ⟨4, 0, 1, 0, ptr 0 0⟩ exOwnMem exDelPCalls with
  | some (_, q, m) => match dequeue q (ptr 0 j) m with
    | .ok (_, q') m' => some (slice (m'.bytes 0) j 1, stored q' m' 0 0 0 1)
    | .ub _ => none
  | none => none
example : ∃ os q1 m1, PQReach 4 1 0 0 0 exDelPCalls os q1 m1 ∧
    stored q1 m1 0 0 0 1 = [(5, [1])] ++ (9, [2]) :: [(7, [3]), (3, [4])] := by
  have h : (pqExecAll 0 0 1 ⟨4, 0, 1, 0, ptr 0 0⟩ exOwnMem exDelPCalls).map
      (fun r => stored r.2.1 r.2.2 0 0 0 1) = some ([(5, [1])] ++ (9, [2]) :: [(7, [3]), (3, [4])]) := by decide +kernel
  obtain ⟨⟨os, q1, m1⟩, h, hs⟩ := Option.map_eq_some_iff.1 h
  refine ⟨os, q1, m1, ⟨⟨exPQ0, _, exOwnMem, rfl, by decide, by decide, h⟩, by decide, ?_⟩, hs⟩
  intro c hc
  simp only [exDelPCalls, List.mem_cons, List.not_mem_nil, or_false] at hc
  rcases hc with rfl | rfl | rfl | rfl <;> constructor <;> decide
example : exDelP 0 = some ([2], [(5, [2]), (7, [3]), (3, [4])]) ∧ exDelP 1 = none ∧
    exDelP 2 = some ([4], [(5, [1]), (7, [2]), (3, [4])]) ∧
    exDelP 3 = some ([2], [(5, [1]), (7, [3]), (3, [2])]) :=
  ⟨by decide +kernel, by decide +kernel, by decide +kernel, by decide +kernel⟩

end PriorityQueue

end IMU.Props
