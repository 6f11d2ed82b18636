import Verif.Spec.PriorityQueueUses

/-!
# Lemmas for property C127
-/

namespace IMU.PQ
open Spec

theorem step_sublist {cap : Nat} {xs ys out : List PItem} {op : PQOp} {obs : PQObs} (h : PQStep cap xs op obs out ys) :
    ys.Sublist (xs ++ offered [op]) := by
  cases h with
  | enq _ => exact .refl _
  | evict _ _ _ _ =>
    refine List.Sublist.append (List.Sublist.append (.refl _) ?_) (.refl _)
    exact List.sublist_cons_self _ _
  | reject _ _ => exact List.sublist_append_left _ _
  | deq _ _ =>
    simp only [offered, List.append_nil]
    exact List.Sublist.append (.refl _) (List.sublist_cons_self _ _)
  | deqEmpty => exact .refl _
  | empty => simp [offered]

theorem offered_cons (op : PQOp) (ops : List PQOp) : offered (op :: ops) = offered [op] ++ offered ops := by
  cases op <;> rfl

theorem fifo_step {cap : Nat} {xs ys out : List PItem} {op : PQOp} {obs : PQObs} (h : PQStep cap xs op obs out ys)
    (hp : (xs ++ offered [op]).Pairwise fun a b => b.1 ≤ a.1) :
    fifoStep cap (xs.map (·.2)) op.toQ = (obs, ys.map (·.2)) := by
  cases h with
  | enq hl => simp [fifoStep, PQOp.toQ, hl]
  | @evict pre x post p e h1 h2 h3 h4 =>
    have := (List.pairwise_append.1 hp).2.2 x (by simp) (p, e) (by simp [offered])
    exact absurd h4 (BitVec.not_lt.2 this)
  | reject h1 _ => simp [fifoStep, PQOp.toQ, h1]
  | @deq pre x post h1 _ =>
    obtain rfl : pre = [] := by
      rw [List.eq_nil_iff_forall_not_mem]
      intro y hy
      simp only [offered, List.append_nil] at hp
      have := (List.pairwise_append.1 hp).2.2 y hy x (by simp)
      exact absurd (h1 y hy) (BitVec.not_lt.2 this)
    rfl
  | deqEmpty => rfl
  | empty => simp [fifoStep, PQOp.toQ]

theorem fifo_run {cap : Nat} {xs : List PItem} {ops : List PQOp} {os : List PQObs} {out ys : List PItem}
    (h : PQRun cap xs ops os out ys) (hp : (xs ++ offered ops).Pairwise fun a b => b.1 ≤ a.1) :
    os = fifoRun cap (xs.map (·.2)) (ops.map PQOp.toQ) := by
  induction h with
  | nil => rfl
  | cons hs _ ih =>
    rw [offered_cons, ← List.append_assoc] at hp
    have h1 := fifo_step hs (List.pairwise_append.1 hp).1
    have h2 := ih (hp.sublist (List.Sublist.append (step_sublist hs) (.refl _)))
    rw [List.map_cons, fifoRun, h1, h2]

theorem stack_step {cap : Nat} (hc : 0 < cap) {xs ys out : List PItem} {op : PQOp} {obs : PQObs}
    (h : PQStep cap xs op obs out ys) (hp : (xs ++ offered [op]).Pairwise fun a b => a.1 < b.1) :
    stackStep cap (xs.map (·.2)) op = (obs, ys.map (·.2)) := by
  cases h with
  | enq hl => simp [stackStep, hl]
  | @evict pre x post p e h1 h2 h3 h4 =>
    obtain rfl : pre = [] := by
      rw [List.eq_nil_iff_forall_not_mem]
      intro y hy
      have := (List.pairwise_append.1 (List.pairwise_append.1 hp).1).2.2 y hy x (by simp)
      have h5 := h2 y hy
      simp only [BitVec.lt_def] at *
      omega
    have : ¬ (post.length + 1 < cap) := by simp at h1; omega
    simp [stackStep, this]
  | @reject _ p e h1 h2 =>
    cases xs with
    | nil => simp at h1; omega
    | cons x xs =>
      have := (List.pairwise_append.1 hp).2.2 x (by simp) (p, e) (by simp [offered])
      exact absurd this (BitVec.not_lt.2 (h2 x (by simp)))
  | @deq pre x post _ h2 =>
    obtain rfl : post = [] := by
      rw [List.eq_nil_iff_forall_not_mem]
      intro y hy
      simp only [offered, List.append_nil] at hp
      have := (List.pairwise_cons.1 (List.pairwise_append.1 hp).2.1).1 y hy
      exact absurd this (BitVec.not_lt.2 (h2 y hy))
    simp [stackStep]
  | deqEmpty => rfl
  | empty => simp [stackStep]

theorem stack_run {cap : Nat} (hc : 0 < cap) {xs : List PItem} {ops : List PQOp} {os : List PQObs} {out ys : List PItem}
    (h : PQRun cap xs ops os out ys) (hp : (xs ++ offered ops).Pairwise fun a b => a.1 < b.1) :
    stackRun cap (xs.map (·.2)) ops = (os, ys.map (·.2)) := by
  induction h with
  | nil => rfl
  | cons hs _ ih =>
    rw [offered_cons, ← List.append_assoc] at hp
    have h1 := stack_step hc hs (List.pairwise_append.1 hp).1
    have h2 := ih (hp.sublist (List.Sublist.append (step_sublist hs) (.refl _)))
    rw [stackRun, h1, h2]

end IMU.PQ
