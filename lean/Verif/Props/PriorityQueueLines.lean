import Verif.Proofs.PriorityQueueLines
import Verif.Proofs.PriorityQueueLimit
import Verif.Props.PriorityQueueOrder

/-!
# Property C135: what a priority queue keeps, and the order of arrival

Src/priority_queue.c:44-72, 94-158.
-/

namespace IMU.Props
open Spec IMU.PQ

/-- Every later history is answered alike by the two queues: same statuses, same delivered elements, no undefined behaviour. -/
def AnswerAlike (esz bb pa : Nat) (q : PQueue) (m : Mem) (bb' pa' : Nat) (q' : PQueue) (m' : Mem) : Prop :=
  ∀ ds : List PQCall, (∀ c ∈ ds, c.Valid bb esz ∧ c.Valid bb' esz) →
    ∃ os q1 m1 q2 m2, pqExecAll bb pa esz q m ds = some (os, q1, m1) ∧ pqExecAll bb' pa' esz q' m' ds = some (os, q2, m2)

section
variable {cap es : U32} {bb bo pa : Nat} {cs : List PQCall} {os : List PQObs} {q : PQueue} {m : Mem}
variable {bb' bo' pa' : Nat} {cs' : List PQCall} {os' : List PQObs} {q' : PQueue} {m' : Mem}

/-- C135: two queues (anywhere, after any two histories) that hold the same items in the same order within each priority
answer every later history alike, and hold such items after it; how the priorities are mixed in the arrays does not show. -/
theorem C135_same (h : PQReach cap es bb bo pa cs os q m) (h' : PQReach cap es bb' bo' pa' cs' os' q' m')
    (hl : SameLines (stored q m bb bo pa es.toNat) (stored q' m' bb' bo' pa' es.toNat))
    (ds : List PQCall) (hv : ∀ c ∈ ds, c.Valid bb es.toNat ∧ c.Valid bb' es.toNat) :
    ∃ o q1 m1 q2 m2, pqExecAll bb pa es.toNat q m ds = some (o, q1, m1) ∧
      pqExecAll bb' pa' es.toNat q' m' ds = some (o, q2, m2) ∧
      SameLines (stored q1 m1 bb bo pa es.toNat) (stored q2 m2 bb' bo' pa' es.toNat) := by
  obtain ⟨o1, q1, m1, out1, a1, a2⟩ := h.go ds fun c hc => (hv c hc).1
  obtain ⟨o2, q2, m2, out2, b1, b2⟩ := h'.go ds fun c hc => (hv c hc).2
  obtain ⟨rfl, -, hl'⟩ := lines_run hl a2 b2
  exact ⟨o1, q1, m1, q2, m2, a1, b1, hl'⟩

/-- Lemma support: a call made from memory where block `blk` holds `n` zero bytes. -/
def probe (k : PQKind) (blk n : Nat) : PQCall := ⟨k, ⟨fun _ => List.replicate n 0#8, fun _ => []⟩, blk, 0⟩

theorem probe_valid (k : PQKind) (n : Nat) : (probe k (bb + bb' + 1) n).Valid bb n ∧ (probe k (bb + bb' + 1) n).Valid bb' n := by
  refine ⟨⟨?_, ?_⟩, ⟨?_, ?_⟩⟩ <;> simp only [probe, List.length_replicate] <;> omega

theorem stored_le (h : PQReach cap es bb bo pa cs os q m) : (stored q m bb bo pa es.toNat).length ≤ cap.toNat := by
  obtain ⟨_, xs, -, hrep⟩ := h.rep
  rw [stored_eq hrep]
  exact hrep.size_le

/-- Lemma support: what calls that are answered alike show of the ideal queues. -/
theorem alike_runs (h : PQReach cap es bb bo pa cs os q m) (h' : PQReach cap es bb' bo' pa' cs' os' q' m')
    (ha : AnswerAlike es.toNat bb pa q m bb' pa' q' m') (ds : List PQCall)
    (hv : ∀ c ∈ ds, c.Valid bb es.toNat ∧ c.Valid bb' es.toNat) :
    ∃ o out xs out' xs', PQRun cap.toNat (stored q m bb bo pa es.toNat) (ds.map (·.op es.toNat)) o out xs ∧
      PQRun cap.toNat (stored q' m' bb' bo' pa' es.toNat) (ds.map (·.op es.toNat)) o out' xs' := by
  obtain ⟨o, q1, m1, q2, m2, g1, g2⟩ := ha ds hv
  obtain ⟨o1, q1', m1', out1, a1, a2⟩ := h.go ds fun c hc => (hv c hc).1
  obtain ⟨o2, q2', m2', out2, b1, b2⟩ := h'.go ds fun c hc => (hv c hc).2
  rw [g1] at a1
  rw [g2] at b1
  simp only [Option.some.injEq, Prod.mk.injEq] at a1 b1
  obtain ⟨rfl, rfl, rfl⟩ := a1
  obtain ⟨rfl, rfl, rfl⟩ := b1
  exact ⟨o, _, _, _, _, a2, b2⟩

/-- C135: and that is all a queue keeps, nothing less: two queues of the same number of places and element size answer
every later history alike exactly if they hold the same items - elements and priorities - in the same order within each
priority. -/
theorem C135_exact (h : PQReach cap es bb bo pa cs os q m) (h' : PQReach cap es bb' bo' pa' cs' os' q' m') :
    AnswerAlike es.toNat bb pa q m bb' pa' q' m' ↔
      SameLines (stored q m bb bo pa es.toNat) (stored q' m' bb' bo' pa' es.toNat) := by
  refine ⟨fun ha => ?_, fun hl ds hv => ?_⟩
  · have hdeq : ∀ n, (List.replicate n (probe .deq (bb + bb' + 1) es.toNat)).map (·.op es.toNat) = List.replicate n .deq := by
      intro n; rw [List.map_replicate]; rfl
    have hrep : ∀ (n : Nat) (k : PQKind), ∀ c ∈ List.replicate n (probe k (bb + bb' + 1) es.toNat),
        c.Valid bb es.toNat ∧ c.Valid bb' es.toNat := by
      intro n k c hc
      rw [List.eq_of_mem_replicate hc]
      exact probe_valid k _
    have hle := stored_le h
    have hle' := stored_le h'
    have key := alike_runs h h' ha
    generalize stored q m bb bo pa es.toNat = xs at hle key ⊢
    generalize stored q' m' bb' bo' pa' es.toNat = ys at hle' key ⊢
    have hlen : xs.length = ys.length := by
      obtain ⟨o, out, zs, out', zs', a, b⟩ := key (List.replicate (xs.length + ys.length) (probe .deq (bb + bb' + 1) es.toNat))
        (hrep _ _)
      rw [hdeq] at a b
      have h1 := deq_count _ a
      have h2 := deq_count _ b
      omega
    obtain ⟨o, X, zs, Y, zs', a, b⟩ := key (List.replicate xs.length (probe .deq (bb + bb' + 1) es.toNat)) (hrep _ _)
    rw [hdeq] at a b
    obtain ⟨-, e1, hX⟩ := drain _ rfl a
    obtain ⟨-, e2, hY⟩ := drain _ hlen.symm b
    refine lines_of_sorted hX hY (count_fst hlen fun p => ?_) ?_
    · obtain ⟨o, out, zs, out', zs', a, b⟩ := key
        (List.replicate (cap.toNat - xs.length) (probe (.enq 0xFFFFFFFF#32) (bb + bb' + 1) es.toNat) ++
          List.replicate xs.length (probe (.enq p) (bb + bb' + 1) es.toNat))
        (fun c hc => (List.mem_append.1 hc).elim (hrep _ _ c) (hrep _ _ c))
      rw [List.map_append, List.map_replicate, List.map_replicate] at a b
      have hM : p ≤ 0xFFFFFFFF#32 := by
        have := p.isLt
        simp only [BitVec.le_def]; simp only [BitVec.toNat_ofNat]; omega
      have h1 := fill_count hM _ _ (by omega) a
      have h2 := fill_count hM _ _ (by omega) b
      have c1 := List.countP_le_length (p := fun y : PItem => decide (y.1 < p)) (l := xs)
      have c2 := List.countP_le_length (p := fun y : PItem => decide (y.1 < p)) (l := ys)
      omega
    · rw [e1] at e2
      have := congrArg (List.map fun o : PQObs => o.2.getD []) e2
      simpa only [List.map_map, Function.comp_def, Option.getD_some] using this
  · obtain ⟨o, q1, m1, q2, m2, a, b, -⟩ := C135_same h h' hl ds hv
    exact ⟨o, q1, m1, q2, m2, a, b⟩

theorem best_all (h : PQReach cap es bb bo pa cs os q m) (ns : List PQCall) (hv : ∀ c ∈ ns, c.Valid bb es.toNat)
    (hk : ∀ c ∈ ns, c.kind ≠ .deq) : ∃ o q1 m1 dr, pqExecAll bb pa es.toNat q m ns = some (o, q1, m1) ∧
      Best cap.toNat (stored q m bb bo pa es.toNat ++ offered (ns.map (·.op es.toNat))) (stored q1 m1 bb bo pa es.toNat) dr ∧
      PQReach cap es bb bo pa (cs ++ ns) (os ++ o) q1 m1 := by
  obtain ⟨o, q1, m1, out, h1, h2⟩ := h.go ns hv
  have h0 : Best cap.toNat (stored q m bb bo pa es.toNat) (stored q m bb bo pa es.toNat) [] :=
    ⟨by simp, .refl _, by simp, by simp, stored_le h⟩
  obtain ⟨dr, hb⟩ := best_run h0 h2 (no_deq hk _)
  obtain ⟨q0, qi, mi, i1, i2, i3, i4⟩ := h.start
  refine ⟨o, q1, m1, dr, h1, hb, ⟨⟨q0, qi, mi, i1, i2, i3, ?_⟩, h.lim, ?_⟩⟩
  · rw [pqExecAll_append, i4]; simp only [h1]
  · intro c hc
    rcases List.mem_append.1 hc with g | g
    · exact h.valid c g
    · exact hv c g

/-- C135: several producers, each offering with a priority of its own: as long as the queue does not overflow, how their
offers interleave does not matter for anything that happens later. -/
theorem C135_interleaving (h : PQReach cap es bb bo pa cs os q m) (h' : PQReach cap es bb' bo' pa' cs' os' q' m')
    (hl : SameLines (stored q m bb bo pa es.toNat) (stored q' m' bb' bo' pa' es.toNat)) (ns ns' : List PQCall)
    (hv : ∀ c ∈ ns, c.Valid bb es.toNat) (hv' : ∀ c ∈ ns', c.Valid bb' es.toNat)
    (hk : ∀ c ∈ ns, c.kind ≠ .deq) (hk' : ∀ c ∈ ns', c.kind ≠ .deq)
    (ho : SameLines (offered (ns.map (·.op es.toNat))) (offered (ns'.map (·.op es.toNat))))
    (hn : (stored q m bb bo pa es.toNat).length + (offered (ns.map (·.op es.toNat))).length ≤ cap.toNat) :
    ∃ o q1 m1 o' q1' m1', pqExecAll bb pa es.toNat q m ns = some (o, q1, m1) ∧
      pqExecAll bb' pa' es.toNat q' m' ns' = some (o', q1', m1') ∧ AnswerAlike es.toNat bb pa q1 m1 bb' pa' q1' m1' := by
  obtain ⟨o, q1, m1, dr, a1, a2, a3⟩ := best_all h ns hv hk
  obtain ⟨o', q1', m1', dr', b1, b2, b3⟩ := best_all h' ns' hv' hk'
  have all : ∀ {a xs d : List PItem}, Best cap.toNat a xs d → a.length ≤ cap.toNat → xs = a := by
    intro a xs d hb hle
    have hp := hb.perm.length_eq
    rw [List.length_append] at hp
    have hd : d = [] := by
      by_contra hne
      have := hb.full hne
      have := List.length_pos_iff.2 hne
      omega
    subst hd
    exact hb.sub.eq_of_length (by simpa using hp)
  have l1 := hl.perm.length_eq
  have l2 := ho.perm.length_eq
  refine ⟨o, q1, m1, o', q1', m1', a1, b1, (C135_exact a3 b3).2 ?_⟩
  rw [all a2 (by rw [List.length_append]; exact hn), all b2 (by rw [List.length_append]; omega)]
  exact hl.append ho

/-- C135: pairwise different priorities: any number of offers - also far more than there are places - may arrive in any
order: the queue then keeps the same items and answers everything later alike. -/
theorem C135_any_order (h : PQReach cap es bb bo pa cs os q m) (h' : PQReach cap es bb' bo' pa' cs' os' q' m')
    (ns ns' : List PQCall) (hv : ∀ c ∈ ns, c.Valid bb es.toNat) (hv' : ∀ c ∈ ns', c.Valid bb' es.toNat)
    (hk : ∀ c ∈ ns, c.kind ≠ .deq) (hk' : ∀ c ∈ ns', c.kind ≠ .deq)
    (hp : (stored q m bb bo pa es.toNat ++ offered (ns.map (·.op es.toNat))).Perm
      (stored q' m' bb' bo' pa' es.toNat ++ offered (ns'.map (·.op es.toNat))))
    (hnd : ((stored q m bb bo pa es.toNat ++ offered (ns.map (·.op es.toNat))).map (·.1)).Nodup) :
    ∃ o q1 m1 o' q1' m1', pqExecAll bb pa es.toNat q m ns = some (o, q1, m1) ∧
      pqExecAll bb' pa' es.toNat q' m' ns' = some (o', q1', m1') ∧
      (stored q1 m1 bb bo pa es.toNat).Perm (stored q1' m1' bb' bo' pa' es.toNat) ∧
      AnswerAlike es.toNat bb pa q1 m1 bb' pa' q1' m1' := by
  obtain ⟨o, q1, m1, dr, a1, a2, a3⟩ := best_all h ns hv hk
  obtain ⟨o', q1', m1', dr', b1, b2, b3⟩ := best_all h' ns' hv' hk'
  generalize stored q m bb bo pa es.toNat ++ offered (ns.map (·.op es.toNat)) = all at hp hnd a2
  generalize stored q' m' bb' bo' pa' es.toNat ++ offered (ns'.map (·.op es.toNat)) = all' at hp b2
  have hnd' := (hp.map (·.1)).nodup_iff.1 hnd
  have hg : greatest cap.toNat (all.map (·.1)) = greatest cap.toNat (all'.map (·.1)) := by
    unfold greatest
    rw [sort_eq ((List.mergeSort_perm _ _).trans (hp.map (·.1)).symm) (sort_desc (all'.map (·.1)))]
  have hpr : ((stored q1 m1 bb bo pa es.toNat).map (·.1)).Perm ((stored q1' m1' bb' bo' pa' es.toNat).map (·.1)) := by
    refine (List.mergeSort_perm _ (fun a b => decide (b ≤ a))).symm.trans ?_
    rw [best_greatest a2, hg, ← best_greatest b2]
    exact List.mergeSort_perm _ _
  have mono : ∀ {al al' xs ys : List PItem}, al.Perm al' → (al'.map (·.1)).Nodup → xs.Sublist al → ys.Sublist al' →
      (xs.map (·.1)).Perm (ys.map (·.1)) → ∀ y ∈ xs, y ∈ ys := by
    intro al al' xs ys hp hnd hs hs' hpr y hy
    obtain ⟨z, hz, hzy⟩ := List.mem_map.1 (hpr.mem_iff.1 (List.mem_map_of_mem (f := fun y : PItem => y.1) hy))
    have := List.inj_on_of_nodup_map hnd (hs'.subset hz) (hp.mem_iff.1 (hs.subset hy)) hzy
    rwa [← this]
  have hP : (stored q1 m1 bb bo pa es.toNat).Perm (stored q1' m1' bb' bo' pa' es.toNat) := by
    rw [List.perm_ext_iff_of_nodup ((List.Nodup.of_map _ hnd).sublist a2.sub) ((List.Nodup.of_map _ hnd').sublist b2.sub)]
    exact fun y => ⟨mono hp hnd' a2.sub b2.sub hpr y, mono hp.symm hnd b2.sub a2.sub hpr.symm y⟩
  exact ⟨o, q1, m1, o', q1', m1', a1, b1, hP,
    (C135_exact a3 b3).2 (lines_of_perm hP (hnd.sublist (a2.sub.map _)))⟩

end

/-- Offers of one-byte elements to a queue of two places. -/
def exOffers : List PQCall := [exPCall (.enq 1) 10, exPCall (.enq 1) 11, exPCall (.enq 2) 12]
def exOffers' : List PQCall := [exPCall (.enq 2) 12, exPCall (.enq 1) 10, exPCall (.enq 1) 11]
def exPQ2 : PQueue := ⟨2, 0, 1, 0, ptr 0 0⟩
/-- The answers to `ns`, then to `ds`. -/
def exAnswers (ns ds : List PQCall) : Option (List PQObs) :=
  (pqExecAll 0 0 1 exPQ2 exMem ns).bind fun r => (pqExecAll 0 0 1 r.2.1 r.2.2 ds).map (·.1)

theorem ex_valid (k : PQKind) (v : Byte) : (exPCall k v).Valid 0 (1#32).toNat := by
  constructor <;> simp [exPCall, mem2]

/-- C135: an overflow of equal priorities is the exception: of the two lowest elements the older one is dropped if the
higher priority comes last, the younger one if it comes first, though the order within each priority is the same. -/
theorem C135_overflow : ∃ (q : PQueue) (o : List PQObs) (q1 : PQueue) (m1 : Mem) (o' : List PQObs) (q1' : PQueue) (m1' : Mem),
    init (some exPQ0) 2 1 (some ⟨0, ptr 0 0⟩) = (true, some q) ∧ (∀ c ∈ exOffers ++ exOffers', c.Valid 0 1) ∧
    SameLines (offered (exOffers.map (·.op 1))) (offered (exOffers'.map (·.op 1))) ∧
    pqExecAll 0 0 1 q exMem exOffers = some (o, q1, m1) ∧ pqExecAll 0 0 1 q exMem exOffers' = some (o', q1', m1') ∧
    stored q1 m1 0 0 0 1 = [(1, [11]), (2, [12])] ∧ stored q1' m1' 0 0 0 1 = [(2, [12]), (1, [10])] ∧
    ¬ AnswerAlike 1 0 0 q1 m1 0 0 q1' m1' := by
  have h1 : (pqExecAll 0 0 1 exPQ2 exMem exOffers).map (fun r => stored r.2.1 r.2.2 0 0 0 1) =
      some [(1, [11]), (2, [12])] := by decide +kernel
  have h2 : (pqExecAll 0 0 1 exPQ2 exMem exOffers').map (fun r => stored r.2.1 r.2.2 0 0 0 1) =
      some [(2, [12]), (1, [10])] := by decide +kernel
  obtain ⟨⟨o, q1, m1⟩, g1, g1'⟩ := Option.map_eq_some_iff.1 h1
  obtain ⟨⟨o', q2, m2⟩, g2, g2'⟩ := Option.map_eq_some_iff.1 h2
  have hv : ∀ c ∈ exOffers ++ exOffers', c.Valid 0 1 := by
    intro c hc
    simp only [exOffers, exOffers', List.cons_append, List.nil_append, List.mem_cons, List.not_mem_nil, or_false] at hc
    rcases hc with rfl | rfl | rfl | rfl | rfl | rfl <;> exact ex_valid _ _
  have r1 : PQReach 2 1 0 0 0 exOffers o q1 m1 :=
    ⟨⟨exPQ0, _, exMem, rfl, by decide, by decide, g1⟩, by decide, fun c hc => hv c (List.mem_append_left _ hc)⟩
  have r2 : PQReach 2 1 0 0 0 exOffers' o' q2 m2 :=
    ⟨⟨exPQ0, _, exMem, rfl, by decide, by decide, g2⟩, by decide, fun c hc => hv c (List.mem_append_right _ hc)⟩
  refine ⟨_, o, q1, m1, o', q2, m2, rfl, hv, ?_, g1, g2, g1', g2', fun ha => ?_⟩
  · intro p
    by_cases h1 : p = 1
    · subst h1; decide
    · by_cases h2 : p = 2
      · subst h2; decide
      · rw [List.filter_eq_nil_iff.2, List.filter_eq_nil_iff.2]
        all_goals
          intro y hy
          simp only [exOffers, exOffers', exPCall, PQCall.op, offered, List.map_cons, List.map_nil, List.mem_cons,
            List.not_mem_nil, or_false] at hy
          rcases hy with rfl | rfl | rfl <;> simp <;> first | exact fun e => h1 e.symm | exact fun e => h2 e.symm
  · have := (C135_exact r1 r2).1 ha 1
    change ((stored q1 m1 0 0 0 1).filter _) = ((stored q2 m2 0 0 0 1).filter _) at this
    rw [show stored q1 m1 0 0 0 1 = _ from g1', show stored q2 m2 0 0 0 1 = _ from g2'] at this
    exact absurd this (by decide)

/-- The same seen from outside: the next two dequeues. -/
example : exAnswers exOffers [exPCall .deq 0, exPCall .deq 0] = some [(true, some [12]), (true, some [11])] ∧
    exAnswers exOffers' [exPCall .deq 0, exPCall .deq 0] = some [(true, some [12]), (true, some [10])] := by
  constructor <;> decide +kernel

/-- Non-vacuity of C135: three offers of different priorities to two places, in two orders: other statuses and another
layout, but the same answers later. -/
def exDistinct : List PQCall := [exPCall (.enq 5) 1, exPCall (.enq 3) 2, exPCall (.enq 4) 3]
example : (pqExecAll 0 0 1 exPQ2 exMem exDistinct).map (fun r => (r.1.map (·.1), stored r.2.1 r.2.2 0 0 0 1)) =
      some ([true, true, true], [(5, [1]), (4, [3])]) ∧
    (pqExecAll 0 0 1 exPQ2 exMem exDistinct.reverse).map (fun r => (r.1.map (·.1), stored r.2.1 r.2.2 0 0 0 1)) =
      some ([true, true, true], [(4, [3]), (5, [1])]) ∧
    exAnswers exDistinct [exPCall (.enq 4) 7, exPCall (.enq 6) 8, exPCall .deq 0, exPCall .deq 0] =
      exAnswers exDistinct.reverse [exPCall (.enq 4) 7, exPCall (.enq 6) 8, exPCall .deq 0, exPCall .deq 0] := by
  refine ⟨?_, ?_, ?_⟩ <;> decide +kernel
example : ∃ o q1 m1 o' q1' m1', pqExecAll 0 0 1 exPQ2 exMem exDistinct = some (o, q1, m1) ∧
    pqExecAll 0 0 1 exPQ2 exMem exDistinct.reverse = some (o', q1', m1') ∧ AnswerAlike 1 0 0 q1 m1 0 0 q1' m1' := by
  have h0 : PQReach 2 1 0 0 0 [] [] exPQ2 exMem := ⟨⟨exPQ0, _, exMem, rfl, by decide, by decide, rfl⟩, by decide, by simp⟩
  have hv : ∀ c ∈ exDistinct, c.Valid 0 (1#32).toNat ∧ c.kind ≠ .deq := by
    intro c hc
    simp only [exDistinct, List.mem_cons, List.not_mem_nil, or_false] at hc
    rcases hc with rfl | rfl | rfl <;> exact ⟨ex_valid _ _, by simp [exPCall]⟩
  obtain ⟨o, q1, m1, o', q1', m1', a, b, -, c⟩ := C135_any_order h0 h0 exDistinct exDistinct.reverse
    (fun c hc => (hv c hc).1) (fun c hc => (hv c (List.mem_reverse.1 hc)).1) (fun c hc => (hv c hc).2)
    (fun c hc => (hv c (List.mem_reverse.1 hc)).2) (by decide) (by decide)
  exact ⟨o, q1, m1, o', q1', m1', a, b, c⟩

end IMU.Props
