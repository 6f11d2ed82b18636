import Verif.Proofs.PriorityQueueOrder
import Verif.Props.PriorityQueue

/-!
# Property C123: emptying, overloading and waiting in the priority queue
-/

namespace IMU.Props
open Spec IMU.PQ

variable {cap es : U32} {bb bo pa : Nat} {cs : List PQCall} {os : List PQObs} {q : PQueue} {m : Mem}

theorem PQReach.go (h : PQReach cap es bb bo pa cs os q m) (cs' : List PQCall) (hv : ∀ c ∈ cs', c.Valid bb es.toNat) :
    ∃ os' q' m' out, pqExecAll bb pa es.toNat q m cs' = some (os', q', m') ∧
      PQRun cap.toNat (stored q m bb bo pa es.toNat) (cs'.map (·.op es.toNat)) os' out (stored q' m' bb bo pa es.toNat) := by
  obtain ⟨out, xs, -, hrep⟩ := h.rep
  obtain ⟨os', q', m', out', xs', h1, h2, h3⟩ := pq_all cs' hrep hv
  exact ⟨os', q', m', out', h1, by rw [stored_eq hrep, stored_eq h3]; exact h2⟩

theorem ops_deq {cs' : List PQCall} (hk : ∀ c ∈ cs', c.kind = .deq) (e : Nat) :
    cs'.map (·.op e) = List.replicate cs'.length .deq := by
  induction cs' with
  | nil => rfl
  | cons c t ih =>
    rw [List.map_cons, List.length_cons, List.replicate_succ, ih (fun c hc => hk c (List.mem_cons_of_mem _ hc)), PQCall.op,
      hk c List.mem_cons_self]

/-- C123: emptying the queue delivers what is stored in descending order of priority, equal priorities in the order of
arrival. -/
theorem C123_drain (h : PQReach cap es bb bo pa cs os q m) (ds : List PQCall) (hv : ∀ c ∈ ds, c.Valid bb es.toNat)
    (hk : ∀ c ∈ ds, c.kind = .deq) (hn : ds.length = (stored q m bb bo pa es.toNat).length) :
    ∃ ys q' m', pqExecAll bb pa es.toNat q m ds = some (ys.map (fun y => (true, some y.2)), q', m') ∧
      ByPriority (stored q m bb bo pa es.toNat) ys ∧ stored q' m' bb bo pa es.toNat = [] := by
  obtain ⟨os', q', m', out, h1, h2⟩ := h.go ds hv
  rw [ops_deq hk] at h2
  obtain ⟨a, b, c⟩ := drain _ hn.symm h2
  exact ⟨out, q', m', by rw [h1, b], c, a⟩

theorem no_deq {cs' : List PQCall} (hk : ∀ c ∈ cs', c.kind ≠ .deq) (e : Nat) : ∀ op ∈ cs'.map (·.op e), op ≠ .deq := by
  intro op ho
  obtain ⟨c, hc, rfl⟩ := List.mem_map.1 ho
  have := hk c hc
  unfold PQCall.op
  cases hk : c.kind with
  | deq => exact absurd hk this
  | enq p => simp
  | empty => simp

/-- C123: overload.  However many elements are offered while nobody takes any, the priorities in the queue are the greatest
of all that were stored before or offered since, as many as the queue has places; what is stored is in the order of
arrival; and of the elements whose priority is above the lowest one stored none was dropped. -/
theorem C123_overload (h : PQReach cap es bb bo pa cs os q m) (cs' : List PQCall) (hv : ∀ c ∈ cs', c.Valid bb es.toNat)
    (hk : ∀ c ∈ cs', c.kind ≠ .deq) :
    ∃ os' q' m', pqExecAll bb pa es.toNat q m cs' = some (os', q', m') ∧
      ((stored q' m' bb bo pa es.toNat).map (·.1)).Perm (greatest cap.toNat
        ((stored q m bb bo pa es.toNat ++ offered (cs'.map (·.op es.toNat))).map (·.1))) ∧
      (stored q' m' bb bo pa es.toNat).Sublist (stored q m bb bo pa es.toNat ++ offered (cs'.map (·.op es.toNat))) ∧
      ∀ p : U32, (∃ y ∈ stored q' m' bb bo pa es.toNat, y.1 < p) →
        (stored q' m' bb bo pa es.toNat).filter (fun y => p ≤ y.1) =
          (stored q m bb bo pa es.toNat ++ offered (cs'.map (·.op es.toNat))).filter fun y => p ≤ y.1 := by
  obtain ⟨os', q', m', out, h1, h2⟩ := h.go cs' hv
  have hle : (stored q m bb bo pa es.toNat).length ≤ cap.toNat := by
    obtain ⟨_, xs, -, hrep⟩ := h.rep
    rw [stored_eq hrep]
    exact hrep.size_le
  have h0 : Best cap.toNat (stored q m bb bo pa es.toNat) (stored q m bb bo pa es.toNat) [] :=
    ⟨by simp, .refl _, by simp, by simp, hle⟩
  obtain ⟨dr, hb⟩ := best_run h0 h2 (no_deq hk _)
  refine ⟨os', q', m', h1, ?_, hb.sub, fun p hp => best_kept hb hp⟩
  rw [← best_greatest hb]
  exact (List.mergeSort_perm _ _).symm

/-- C123: filling a fresh queue with any number of elements and emptying it delivers as many of them as it has places, of
the greatest priorities, in descending order. -/
theorem C123_fill_and_drain {q0 : PQueue} {m0 : Mem} (hi : init (some q0) cap es (some ⟨pa, ptr bb bo⟩) = (true, some q))
    (hlim : (cap.toNat - 1) * es.toNat < 2 ^ 32) (hbuf : bo + cap.toNat * es.toNat ≤ (m0.bytes bb).length)
    (hpa : cap.toNat ≤ (m0.words pa).length) (cs' ds : List PQCall) (hv : ∀ c ∈ cs' ++ ds, c.Valid bb es.toNat)
    (hk : ∀ c ∈ cs', c.kind ≠ .deq) (hd : ∀ c ∈ ds, c.kind = .deq)
    (hn : ds.length = min cap.toNat (offered (cs'.map (·.op es.toNat))).length) :
    ∃ (os' : List PQObs) (q1 : PQueue) (m1 : Mem) (ys : List PItem) (q2 : PQueue) (m2 : Mem),
      pqExecAll bb pa es.toNat q m0 cs' = some (os', q1, m1) ∧
      pqExecAll bb pa es.toNat q1 m1 ds = some (ys.map (fun y => (true, some y.2)), q2, m2) ∧
      ys.map (·.1) = greatest cap.toNat ((offered (cs'.map (·.op es.toNat))).map (·.1)) ∧
      (∀ y ∈ ys, y ∈ offered (cs'.map (·.op es.toNat))) ∧ stored q2 m2 bb bo pa es.toNat = [] := by
  have h0 : PQReach cap es bb bo pa [] [] q m0 := ⟨⟨q0, q, m0, hi, hbuf, hpa, rfl⟩, hlim, by simp⟩
  have hs0 : stored q m0 bb bo pa es.toNat = [] := stored_eq (pq_init hi hlim hbuf hpa)
  obtain ⟨os', q1, m1, a1, a2, a3, -⟩ := C123_overload h0 cs' (fun c hc => hv c (List.mem_append_left _ hc)) hk
  rw [hs0, List.nil_append] at a2 a3
  have h1 : PQReach cap es bb bo pa cs' os' q1 m1 :=
    ⟨⟨q0, q, m0, hi, hbuf, hpa, a1⟩, hlim, fun c hc => hv c (List.mem_append_left _ hc)⟩
  have hl := a2.length_eq
  rw [List.length_map, greatest, List.length_take, List.length_mergeSort, List.length_map] at hl
  obtain ⟨ys, q2, m2, b1, b2, b3⟩ := C123_drain h1 ds (fun c hc => hv c (List.mem_append_right _ hc)) hd (by rw [hn, hl])
  refine ⟨os', q1, m1, ys, q2, m2, a1, b1, ?_, fun y hy => a3.subset (b2.perm.mem_iff.1 hy), b3⟩
  refine List.Perm.eq_of_pairwise (le := fun a b : U32 => b ≤ a) ?_ ?_ ?_ ((b2.perm.map _).trans a2)
  · intro a b _ _ h1 h2; exact BitVec.le_antisymm h2 h1
  · exact List.pairwise_map.2 b2.descending
  · exact (sort_desc _).sublist (List.take_sublist _ _)

/-- Non-vacuity: priorities 5, 3, 3, 5 into a queue of two places, then two dequeues. -/
example : ∃ (os' : List PQObs) (q1 : PQueue) (m1 : Mem) (ys : List PItem) (q2 : PQueue) (m2 : Mem),
    pqExecAll 0 0 1 ⟨2, 0, 1, 0, ptr 0 0⟩ exMem (exCalls.take 4) = some (os', q1, m1) ∧
    pqExecAll 0 0 1 q1 m1 ((exCalls.drop 4).take 2) = some (ys.map (fun y => (true, some y.2)), q2, m2) ∧
    ys.map (·.1) = greatest 2 [5, 3, 3, 5] ∧ (∀ y ∈ ys, y ∈ [(5, [1]), (3, [2]), (3, [3]), (5, [4])]) ∧
    stored q2 m2 0 0 0 1 = [] := by
  refine C123_fill_and_drain (cap := 2) (es := 1) (bb := 0) (bo := 0) (pa := 0) (q0 := exPQ0) (m0 := exMem) rfl (by decide) (by decide)
    (by decide) (exCalls.take 4) ((exCalls.drop 4).take 2) ?_ ?_ ?_ (by decide) <;>
    intro c hc <;> simp only [exCalls, List.take, List.drop, List.mem_cons, List.not_mem_nil, or_false, List.cons_append,
      List.nil_append] at hc
  · rcases hc with rfl | rfl | rfl | rfl | rfl | rfl <;> constructor <;> decide
  · rcases hc with rfl | rfl | rfl | rfl <;> simp [exPCall]
  · rcases hc with rfl | rfl <;> rfl
example : greatest 2 [5, 3, 3, 5] = [5, 5] := by
  rw [greatest, sort_eq (qs := [5, 5, 3, 3]) (by decide) (by decide)]
  rfl

/-- C123: waiting.  Let `x` be stored, `b` the number of entries before it in the order of delivery (higher priority, or
equal priority and earlier), `a` the number of those of higher priority.  Whatever calls follow (bringing no second copy of
the element): the first `a` dequeues do not deliver it; and with more dequeues than `b` and the number of elements of
higher priority offered meanwhile, it is no longer in the queue. -/
theorem C123_wait (h : PQReach cap es bb bo pa cs os q m) {pre post : List PItem} {x : PItem}
    (hx : stored q m bb bo pa es.toNat = pre ++ x :: post) (cs' : List PQCall) (hv : ∀ c ∈ cs', c.Valid bb es.toNat)
    (hne : ∀ y ∈ pre ++ post ++ offered (cs'.map (·.op es.toNat)), y.2 ≠ x.2) :
    ∃ os' q' m', pqExecAll bb pa es.toNat q m cs' = some (os', q', m') ∧
      (dequeues (cs'.map (·.op es.toNat)) ≤ (pre ++ post).countP (fun y => x.1 < y.1) → ∀ o ∈ os', o.2 ≠ some x.2) ∧
      (pre.countP (fun y => x.1 ≤ y.1) + post.countP (fun y => x.1 < y.1) + overtaking x.1 (cs'.map (·.op es.toNat)) <
        dequeues (cs'.map (·.op es.toNat)) → ∀ y ∈ stored q' m' bb bo pa es.toNat, y.2 ≠ x.2) := by
  obtain ⟨os', q', m', out, h1, h2⟩ := h.go cs' hv
  rw [hx] at h2
  obtain ⟨a, b⟩ := wait_run h2 hne
  exact ⟨os', q', m', h1, b, a⟩

/-- C123: so an element that nothing offered later exceeds in priority is delivered, or evicted, by the time as many
dequeues have been made as there are places in the queue. -/
theorem C123_no_wait (h : PQReach cap es bb bo pa cs os q m) {x : PItem} (hx : x ∈ stored q m bb bo pa es.toNat)
    (cs' : List PQCall) (hv : ∀ c ∈ cs', c.Valid bb es.toNat)
    (hne : ∀ y ∈ (stored q m bb bo pa es.toNat).erase x ++ offered (cs'.map (·.op es.toNat)), y.2 ≠ x.2)
    (hlow : ∀ y ∈ offered (cs'.map (·.op es.toNat)), y.1 ≤ x.1) (hd : cap.toNat ≤ dequeues (cs'.map (·.op es.toNat))) :
    ∃ os' q' m', pqExecAll bb pa es.toNat q m cs' = some (os', q', m') ∧
      ∀ y ∈ stored q' m' bb bo pa es.toNat, y.2 ≠ x.2 := by
  obtain ⟨pre, post, hs⟩ := List.append_of_mem hx
  have hperm : ((stored q m bb bo pa es.toNat).erase x).Perm (pre ++ post) := by
    have h1 := List.perm_cons_erase hx
    have h2 : (stored q m bb bo pa es.toNat).Perm (x :: (pre ++ post)) := by rw [hs]; exact List.perm_middle
    exact (h1.symm.trans h2).cons_inv
  obtain ⟨os', q', m', h1, -, h3⟩ := C123_wait h hs cs' hv (fun y hy => hne y (by
    rcases List.mem_append.1 hy with g | g
    · exact List.mem_append_left _ (hperm.mem_iff.2 g)
    · exact List.mem_append_right _ g))
  refine ⟨os', q', m', h1, h3 ?_⟩
  have ho : overtaking x.1 (cs'.map (·.op es.toNat)) = 0 := by
    rw [overtaking, List.countP_eq_zero]
    intro y hy
    have := hlow y hy
    simp only [decide_eq_true_eq, BitVec.le_def, BitVec.lt_def] at *
    omega
  have hle : (pre ++ x :: post).length ≤ cap.toNat := by
    rw [← hs]
    obtain ⟨_, xs, -, hrep⟩ := h.rep
    rw [stored_eq hrep]
    exact hrep.size_le
  have c1 := List.countP_le_length (p := fun y : PItem => decide (x.1 ≤ y.1)) (l := pre)
  have c2 := List.countP_le_length (p := fun y : PItem => decide (x.1 < y.1)) (l := post)
  simp only [List.length_append, List.length_cons] at hle
  omega

theorem starve_run {cp : Nat} {xs : List PItem} {p : U32} {e : List Byte} (hroom : xs.length < cp) (hp : ∀ y ∈ xs, y.1 < p) :
    ∀ k, ∃ o out, PQRun cp xs ((List.replicate k [PQOp.enq p e, .deq]).flatten) o out xs := by
  intro k
  induction k with
  | zero => exact ⟨_, _, .nil⟩
  | succ k ih =>
    obtain ⟨o, out, hr⟩ := ih
    rw [List.replicate_succ, List.flatten_cons]
    have h2 : PQStep cp (xs ++ [(p, e)]) .deq (true, some e) [(p, e)] xs := by
      have := PQStep.deq (cap := cp) (pre := xs) (x := (p, e)) (post := []) hp (by simp)
      rwa [List.append_nil] at this
    exact ⟨_, _, .cons (.enq hroom) (.cons h2 hr)⟩

/-- C123: there is no bound on the waiting otherwise.  If elements of a priority above all stored ones keep arriving and
one is taken after every arrival, the elements stored stay where they are, however long this goes on. -/
theorem C123_starvation (h : PQReach cap es bb bo pa cs os q m) (e d : PQCall) (p : U32)
    (hroom : (stored q m bb bo pa es.toNat).length < cap.toNat) (hp : ∀ y ∈ stored q m bb bo pa es.toNat, y.1 < p)
    (he : e.Valid bb es.toNat) (hd : d.Valid bb es.toNat) (hek : e.kind = .enq p) (hdk : d.kind = .deq) (k : Nat) :
    ∃ os' q' m', pqExecAll bb pa es.toNat q m (List.replicate k [e, d]).flatten = some (os', q', m') ∧
      stored q' m' bb bo pa es.toNat = stored q m bb bo pa es.toNat := by
  obtain ⟨os', q', m', out, h1, h2⟩ := h.go (List.replicate k [e, d]).flatten (by
    intro c hc
    obtain ⟨l, hl, hc⟩ := List.mem_flatten.1 hc
    rw [List.eq_of_mem_replicate hl] at hc
    simp only [List.mem_cons, List.not_mem_nil, or_false] at hc
    rcases hc with rfl | rfl
    · exact he
    · exact hd)
  have ho : ((List.replicate k [e, d]).flatten).map (·.op es.toNat) =
      (List.replicate k [PQOp.enq p (slice (e.w.bytes e.blk) e.off es.toNat), .deq]).flatten := by
    rw [List.map_flatten, List.map_replicate]
    simp only [List.map_cons, List.map_nil, PQCall.op, hek, hdk]
  rw [ho] at h2
  obtain ⟨o, out', h3⟩ := starve_run (e := slice (e.w.bytes e.blk) e.off es.toNat) hroom hp k
  exact ⟨os', q', m', h1, (pqRun_det h2 h3).2.2⟩

/-- Non-vacuity of the waiting: a queue of two places, priority 3 stored behind priority 5. -/
example : ∃ os q m, PQReach 2 1 0 0 0 (exCalls.take 2) os q m ∧ stored q m 0 0 0 1 = [(5, [1])] ++ (3, [2]) :: [] := by
  have h : (pqExecAll 0 0 1 ⟨2, 0, 1, 0, ptr 0 0⟩ exMem (exCalls.take 2)).map (fun r => stored r.2.1 r.2.2 0 0 0 1) =
      some [(5, [1]), (3, [2])] := by decide
  obtain ⟨⟨os, q1, m1⟩, h, h'⟩ := Option.map_eq_some_iff.1 h
  refine ⟨os, q1, m1, ⟨⟨exPQ0, _, exMem, rfl, by decide, by decide, h⟩, by decide, ?_⟩, h'⟩
  intro c hc
  simp only [exCalls, List.take, List.mem_cons, List.not_mem_nil, or_false] at hc
  rcases hc with rfl | rfl <;> constructor <;> decide

example (os : List PQObs) (q : PQueue) (m : Mem) (h : PQReach 2 1 0 0 0 (exCalls.take 2) os q m)
    (hs : stored q m 0 0 0 1 = [(5, [1])] ++ (3, [2]) :: []) :
    ∃ os' q' m', pqExecAll 0 0 1 q m [exPCall (.enq 4) 9, exPCall .deq 0, exPCall .deq 0, exPCall .deq 0] = some (os', q', m') ∧
      ∀ y ∈ stored q' m' 0 0 0 1, y.2 ≠ [2] := by
  obtain ⟨os', q', m', a, -, c⟩ := C123_wait h hs [exPCall (.enq 4) 9, exPCall .deq 0, exPCall .deq 0, exPCall .deq 0]
    (by
      intro c hc
      simp only [List.mem_cons, List.not_mem_nil, or_false] at hc
      rcases hc with rfl | rfl | rfl | rfl <;> constructor <;> decide)
    (by decide)
  exact ⟨os', q', m', a, c (by decide)⟩

/-- Non-vacuity of the starvation: one element stored in a queue of two places. -/
example : ∃ os q m, PQReach 2 1 0 0 0 (exCalls.take 1) os q m ∧ (stored q m 0 0 0 1).length < (2#32).toNat ∧
    ∀ y ∈ stored q m 0 0 0 1, y.1 < 6#32 := by
  have h : (pqExecAll 0 0 1 ⟨2, 0, 1, 0, ptr 0 0⟩ exMem (exCalls.take 1)).map (fun r => stored r.2.1 r.2.2 0 0 0 1) =
      some [(5, [1])] := by decide
  obtain ⟨⟨os, q1, m1⟩, h, h'⟩ := Option.map_eq_some_iff.1 h
  refine ⟨os, q1, m1, ⟨⟨exPQ0, _, exMem, rfl, by decide, by decide, h⟩, by decide, ?_⟩, ?_, ?_⟩
  · intro c hc
    simp only [exCalls, List.take, List.mem_cons, List.not_mem_nil, or_false] at hc
    subst hc
    constructor <;> decide
  · rw [h']; decide
  · rw [h']; decide

end IMU.Props
