import Verif.Proofs.PriorityQueueLimit
import Verif.Props.PriorityQueue

/-!
# Property C102: priority queues of more than 4 GiB
-/

namespace IMU.Props
open Spec Utils IMU.PQ

/-- C102: the limit in C26 is necessary.  For every larger queue (with arrays that are large enough) there is a history
of valid calls that is undefined or shows observations the ideal priority queue does not show: the 32-bit offset of a
later element wraps onto the first one, and dequeue takes the corrupted element. -/
theorem C102_limit_necessary (q0 q : PQueue) (cap es : U32) (bb bo pa : Nat) (m : Mem)
    (hi : init (some q0) cap es (some ⟨pa, ptr bb bo⟩) = (true, some q))
    (hlim : 2 ^ 32 ≤ (cap.toNat - 1) * es.toNat)
    (hbuf : bo + cap.toNat * es.toNat ≤ (m.bytes bb).length) (hpa : cap.toNat ≤ (m.words pa).length) :
    ∃ cs : List PQCall, (∀ c ∈ cs, c.Valid bb es.toNat) ∧ ∀ os q' m' out xs,
      pqExecAll bb pa es.toNat q m cs = some (os, q', m') →
      ¬ PQRun cap.toNat [] (cs.map (·.op es.toNat)) os out xs := by
  unfold init at hi
  simp only at hi
  split at hi
  case isFalse => simp at hi
  rename_i hc
  simp only [Prod.mk.injEq, Option.some.injEq, true_and] at hi
  subst hi
  have hcap0 : cap.toNat ≠ 0 := fun h => hc.1 (BitVec.eq_of_toNat_eq (by simpa using h))
  have hes0 : es.toNat ≠ 0 := fun h => hc.2 (BitVec.eq_of_toNat_eq (by simpa using h))
  have hel := es.isLt
  obtain ⟨j, hj1, hj2, hj3⟩ : ∃ j, j + 1 ≤ cap.toNat ∧ 2 ^ 32 ≤ j * es.toNat ∧ j * es.toNat < 2 ^ 32 + es.toNat := by
    refine ⟨(2 ^ 32 + es.toNat - 1) / es.toNat, ?_, ?_, ?_⟩
    · have : (2 ^ 32 + es.toNat - 1) / es.toNat < cap.toNat := by
        rw [Nat.div_lt_iff_lt_mul (by omega)]
        have : cap.toNat * es.toNat = (cap.toNat - 1) * es.toNat + es.toNat := by
          conv_lhs => rw [show cap.toNat = (cap.toNat - 1) + 1 by omega, Nat.add_mul, Nat.one_mul]
        omega
      omega
    · have := Nat.lt_div_mul_add (a := 2 ^ 32 + es.toNat - 1) (b := es.toNat) (by omega)
      omega
    · have := Nat.div_mul_le_self (2 ^ 32 + es.toNat - 1) es.toNat
      omega
  have hj0 : 0 < j := by
    rcases Nat.eq_zero_or_pos j with h | h
    · rw [h] at hj2; simp at hj2
    · exact h
  have hmod : (j * es.toNat) % 2 ^ 32 = j * es.toNat - 2 ^ 32 := by
    rw [Nat.mod_eq_sub_mod hj2, Nat.mod_eq_of_lt (by omega)]
  have hce : es.toNat ≤ cap.toNat * es.toNat := by
    have := IMU.Queue.slot_le es.toNat (show 0 < cap.toNat by omega); omega
  have hce2 : (j * es.toNat - 2 ^ 32) + es.toNat ≤ cap.toNat * es.toNat := by
    have := IMU.Queue.slot_le es.toNat (show 1 < cap.toNat by omega); omega
  obtain ⟨q1, m1, a1, a2⟩ := penq_many (cap := cap) (es := es) (bb := bb) (bo := bo) (pa := pa) 0#8 j (i := 0)
    (q := ⟨cap, 0#32, es, pa, ptr bb bo⟩) (m := m)
    ⟨rfl, rfl, rfl, rfl, rfl, hbuf, hpa, fun k hk => absurd hk (by omega)⟩ (by omega)
  obtain ⟨q2, m2, b1, b2, b3⟩ := penq_raw a2 (by omega) 1#8
  rw [Nat.zero_add, hmod] at b3
  refine ⟨List.replicate j (pconst (.enq 0#32) bb es.toNat 0#8) ++
    [pconst (.enq 0#32) bb es.toNat 1#8, pconst .deq bb es.toNat 0#8], ?_, ?_⟩
  · intro d hd
    simp only [List.mem_append, List.mem_replicate, List.mem_cons, List.not_mem_nil, or_false] at hd
    rcases hd with hd | hd | hd
    · rw [hd.2]; exact pconst_valid ..
    · rw [hd]; exact pconst_valid ..
    · rw [hd]; exact pconst_valid ..
  · intro os q' m' out xs hex hrun
    rw [pqExecAll_append, a1] at hex
    simp only [pqExecAll, b1] at hex
    cases he : (pconst .deq bb es.toNat 0#8).exec bb pa es.toNat q2 m2 with
    | none => rw [he] at hex; cases hex
    | some r =>
      obtain ⟨o, q3, m3⟩ := r
      have ho := pdeq_raw b2 (by omega) hce he
      subst ho
      rw [he] at hex
      simp only [Option.some.injEq, Prod.mk.injEq] at hex
      obtain ⟨rfl, -, -⟩ := hex
      rw [List.map_append, List.map_replicate, pconst_op, List.map_cons, pconst_op] at hrun
      obtain ⟨o', out', e1, e2⟩ := ideal_enq j (by simp; omega) hrun
      have e1 := List.append_cancel_left e1
      subst e1
      cases e2 with
      | cons s1 r1 =>
        obtain ⟨-, rfl, rfl⟩ := pqStep_det s1 (.enq (by simp; omega))
        cases r1 with
        | cons s2 r2 =>
          obtain ⟨k, rfl⟩ : ∃ k, j = k + 1 := ⟨j - 1, by omega⟩
          have ideal : PQStep cap.toNat ([] ++ (0#32, List.replicate es.toNat 0#8) ::
              (List.replicate k (0#32, List.replicate es.toNat 0#8) ++ [(0#32, List.replicate es.toNat 1#8)]))
              .deq (true, some (List.replicate es.toNat 0#8)) _ _ := .deq (by simp) (by
            intro y hy
            simp only [List.mem_append, List.mem_replicate, List.mem_cons, List.not_mem_nil, or_false] at hy
            rcases hy with hy | hy
            · rw [hy.2]; exact BitVec.le_refl _
            · rw [hy]; exact BitVec.le_refl _)
          obtain ⟨h1, -, -⟩ := pqStep_det s2 ideal
          simp only [Prod.mk.injEq, true_and, Option.some.injEq] at h1
          have h2 := congrArg (fun l => l[(k + 1) * es.toNat - 2 ^ 32]?) h1
          simp only [getElem?_slice, List.getElem?_replicate, show (k + 1) * es.toNat - 2 ^ 32 < es.toNat by omega,
            if_true] at h2
          have hl1 := a2.hlen
          rw [b3, getElem?_splice _ _ _ (by simp; omega)] at h2
          simp [show 0 < es.toNat by omega, List.getElem?_replicate] at h2

/-- Non-vacuity of C102: 65537 elements of 65537 bytes. -/
example : 2 ^ 32 ≤ ((65537#32).toNat - 1) * (65537#32).toNat := by decide

end IMU.Props
