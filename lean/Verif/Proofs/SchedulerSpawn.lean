import Verif.Proofs.Scheduler
import Verif.Spec.SchedulerSpawn

namespace IMU.Scheduler
open Spec
variable {F G : Type}

theorem bf_take (spawn : F → List (STask F)) : ∀ (k : Nat) (l l' : List (STask F)), l.take k = l'.take k →
    breadthFirst spawn k l = breadthFirst spawn k l' := by
  intro k
  induction k with
  | zero => intro l l' _; simp [breadthFirst]
  | succ k ih =>
    intro l l' h
    cases l with
    | nil =>
      cases l' with
      | nil => rfl
      | cons _ _ => simp at h
    | cons t ts =>
      cases l' with
      | nil => simp at h
      | cons t' ts' =>
        simp only [List.take_succ_cons, List.cons.injEq] at h
        obtain ⟨rfl, h⟩ := h
        simp only [breadthFirst, List.cons.injEq, true_and]
        apply ih
        have hl : min k ts.length = min k ts'.length := by simpa using congrArg List.length h
        rw [List.take_append, List.take_append, h]
        congr 2
        omega

theorem bf_proper (spawn : F → List (STask F)) : ∀ (k : Nat) (l : List (STask F)), (∀ t ∈ l, t.function ≠ none) →
    ∀ t ∈ breadthFirst spawn k l, t.function ≠ none := by
  intro k
  induction k with
  | zero => intro l _ t ht; simp [breadthFirst] at ht
  | succ k ih =>
    intro l hl t ht
    cases l with
    | nil => simp [breadthFirst] at ht
    | cons x xs =>
      simp only [breadthFirst, List.mem_cons] at ht
      rcases ht with rfl | ht
      · exact hl _ (by simp)
      · refine ih _ ?_ t ht
        intro y hy
        rw [List.mem_append] at hy
        rcases hy with hy | hy
        · exact hl y (by simp [hy])
        · unfold offspring at hy
          split at hy
          · split at hy
            · unfold proper at hy
              rw [List.mem_filter] at hy
              intro h0; simp [h0] at hy
            · simp at hy
          · simp at hy

theorem bf_length (spawn : F → List (STask F)) : ∀ (k : Nat) (l : List (STask F)),
    (breadthFirst spawn k l).length ≤ k := by
  intro k
  induction k with
  | zero => intro l; simp [breadthFirst]
  | succ k ih =>
    intro l
    cases l with
    | nil => simp [breadthFirst]
    | cons x xs => simp only [breadthFirst, List.length_cons]; have := ih (xs ++ offspring spawn x); omega

theorem bf_prefix (spawn : F → List (STask F)) : ∀ (k : Nat) (l : List (STask F)), l.length ≤ k →
    ∃ more, breadthFirst spawn k l = l ++ more := by
  intro k
  induction k with
  | zero => intro l h; exact ⟨[], by simp [breadthFirst]; exact List.length_eq_zero_iff.1 (by omega)⟩
  | succ k ih =>
    intro l h
    cases l with
    | nil => exact ⟨[], by simp [breadthFirst]⟩
    | cons x xs =>
      simp only [List.length_cons] at h
      have e : breadthFirst spawn k (xs ++ offspring spawn x)
          = breadthFirst spawn k ((xs ++ offspring spawn x).take k) := bf_take spawn k _ _ (by rw [List.take_take, Nat.min_self])
      obtain ⟨more, hm⟩ := ih ((xs ++ offspring spawn x).take k) (by simp; omega)
      rw [List.take_append, List.take_of_length_le (by omega), List.append_assoc] at hm
      refine ⟨(offspring spawn x).take (k - xs.length) ++ more, ?_⟩
      · simp only [breadthFirst, List.cons_append, List.cons.injEq, true_and]
        rw [e, List.take_append, List.take_of_length_le (by omega), hm]

/-- The loop over slots without function does nothing. -/
theorem runLoop_free (call : F → World F G → World F G) : ∀ (k i : Nat) (w : World F G),
    (∀ j, i ≤ j → j < i + k → ∃ t, w.tasks[j]? = some t ∧ t.function = none) → runLoop call k i w = .ok w := by
  intro k
  induction k with
  | zero => intro i w _; rfl
  | succ k ih =>
    intro i w h
    obtain ⟨t, h1, h2⟩ := h i (by omega) (by omega)
    rw [runLoop, h1]
    simp only [h2]
    exact ih (i + 1) w (fun j hj hj' => h j (by omega) (by omega))

theorem runLoop_adding (spawn : F → List (STask F)) (act : F → G → G) (n : U32) : ∀ (k : Nat) (past todo free suf : List (STask F)) (g : G),
    (∀ t ∈ past ++ todo, t.function ≠ none) → (∀ t ∈ free, t.function = none) →
    past.length + todo.length + free.length = n.toNat → k = todo.length + free.length →
    ∃ free', runLoop (adding spawn act n) k past.length ⟨past ++ todo ++ free ++ suf, g⟩ =
        .ok ⟨past ++ breadthFirst spawn k todo ++ free' ++ suf,
          (schedule (breadthFirst spawn k todo)).foldl (fun g f => act f g) g⟩ ∧
      (∀ t ∈ free', t.function = none) ∧ past.length + (breadthFirst spawn k todo).length + free'.length = n.toNat := by
  intro k
  induction k with
  | zero =>
    intro past todo free suf g h1 h2 h3 h4
    have e1 : todo = [] := List.length_eq_zero_iff.1 (by omega)
    subst e1
    exact ⟨free, by simp [runLoop, breadthFirst, schedule], h2, by simpa [breadthFirst] using h3⟩
  | succ k ih =>
    intro past todo free suf g h1 h2 h3 h4
    cases todo with
    | nil =>
      refine ⟨free, ?_, h2, by simpa [breadthFirst] using h3⟩
      rw [runLoop_free]
      · simp [breadthFirst, schedule]
      · intro j hj hj'
        simp only [List.length_nil, Nat.zero_add] at h4
        refine ⟨free[j - past.length]'(by omega), ?_, h2 _ (List.getElem_mem _)⟩
        simp only [List.append_nil, List.append_assoc]
        rw [List.getElem?_append_right (by omega), List.getElem?_append_left (by omega), List.getElem?_eq_getElem]
    | cons t ts =>
      obtain ⟨f, hf⟩ := Option.ne_none_iff_exists'.1 (h1 t (by simp))
      have hget : (past ++ t :: ts ++ free ++ suf)[past.length]? = some t := by simp
      rw [runLoop]
      simp only [hget, hf]
      simp only [List.length_cons] at h3 h4
      by_cases ha : t.active = true
      · rw [if_pos ha]
        obtain ⟨rs, free', g1, g2, g3, -, -⟩ := addAll_ok n (spawn f) (past ++ t :: ts) free suf h1 h2
          (by simp; omega)
        have hcall : adding spawn act n f ⟨past ++ t :: ts ++ free ++ suf, g⟩ =
            ⟨(past ++ t :: ts ++ proper (spawn f)).take n.toNat ++ free' ++ suf, act f g⟩ := by
          simp only [adding, g1]
        rw [hcall]
        have hsplit : (past ++ t :: ts ++ proper (spawn f)).take n.toNat =
            (past ++ [t]) ++ (ts ++ proper (spawn f)).take k := by
          have : past ++ t :: ts ++ proper (spawn f) = (past ++ [t]) ++ (ts ++ proper (spawn f)) := by simp
          rw [this, List.take_append, List.take_of_length_le (by simp; omega)]
          congr 2
          simp; omega
        rw [hsplit] at g3 ⊢
        have hoff : offspring spawn t = proper (spawn f) := by simp [offspring, hf, ha]
        have hbf : breadthFirst spawn k ((ts ++ proper (spawn f)).take k) =
            breadthFirst spawn k (ts ++ proper (spawn f)) := bf_take spawn k _ _ (by rw [List.take_take, Nat.min_self])
        obtain ⟨free'', i1, i2, i3⟩ := ih (past ++ [t]) ((ts ++ proper (spawn f)).take k) free' suf (act f g)
          (by
            intro y hy
            simp only [List.mem_append, List.mem_singleton] at hy
            rcases hy with (hy | rfl) | hy
            · exact h1 y (by simp [hy])
            · exact h1 y (by simp)
            · have hy := List.mem_of_mem_take hy
              rw [List.mem_append] at hy
              rcases hy with hy | hy
              · exact h1 y (by simp [hy])
              · unfold proper at hy
                rw [List.mem_filter] at hy
                intro h0; simp [h0] at hy) g2
          (by simp only [List.length_append, List.length_singleton] at g3 ⊢; omega)
          (by
            simp only [List.length_append, List.length_singleton] at g3
            omega)
        rw [hbf] at i1 i3
        refine ⟨free'', ?_, i2, ?_⟩
        · simp only [List.length_append, List.length_singleton] at i1
          rw [i1]
          simp [breadthFirst, hoff, schedule, ha, hf]
        · simp only [breadthFirst, hoff, List.length_cons]
          simp only [List.length_append, List.length_singleton] at i3
          omega
      · rw [if_neg ha]
        have hoff : offspring spawn t = [] := by simp [offspring, hf, ha]
        obtain ⟨free'', i1, i2, i3⟩ := ih (past ++ [t]) ts free suf g (by simpa using h1) h2
          (by simp; omega) (by omega)
        refine ⟨free'', ?_, i2, ?_⟩
        · simp only [List.length_append, List.length_singleton] at i1
          have e : past ++ t :: ts ++ free ++ suf = past ++ [t] ++ ts ++ free ++ suf := by simp
          rw [e, i1]
          simp [breadthFirst, hoff, schedule, ha]
        · simp only [breadthFirst, hoff, List.length_cons, List.append_nil]
          simp only [List.length_append, List.length_singleton] at i3
          omega

theorem bf_eq (spawn : F → List (STask F)) : ∀ (k : Nat) (l : List (STask F)),
    breadthFirst spawn k l = (l ++ (breadthFirst spawn k l).flatMap (offspring spawn)).take k := by
  intro k
  induction k with
  | zero => intro l; simp [breadthFirst]
  | succ k ih =>
    intro l
    cases l with
    | nil => simp [breadthFirst]
    | cons t ts =>
      simp only [breadthFirst, List.flatMap_cons, List.cons_append, List.take_succ_cons, List.cons.injEq, true_and]
      rw [← List.append_assoc]
      exact ih _

theorem bf_full (spawn : F → List (STask F)) (hs : ∀ f, ∃ t ∈ proper (spawn f), t.active = true) :
    ∀ (k : Nat) (l : List (STask F)), (∀ t ∈ l, t.function ≠ none) → (∃ t ∈ l, t.active = true) →
    (breadthFirst spawn k l).length = k := by
  intro k
  induction k with
  | zero => intro l _ _; simp [breadthFirst]
  | succ k ih =>
    intro l hl ⟨a, ha, haa⟩
    cases l with
    | nil => simp at ha
    | cons t ts =>
      simp only [breadthFirst, List.length_cons, Nat.add_right_cancel_iff]
      apply ih
      · intro y hy
        rw [List.mem_append] at hy
        rcases hy with hy | hy
        · exact hl y (by simp [hy])
        · unfold offspring at hy
          split at hy
          · split at hy
            · unfold proper at hy
              rw [List.mem_filter] at hy
              intro h0; simp [h0] at hy
            · simp at hy
          · simp at hy
      · by_cases h : t.active = true
        · obtain ⟨f, hf⟩ := Option.ne_none_iff_exists'.1 (hl t (by simp))
          obtain ⟨y, hy, hy'⟩ := hs f
          exact ⟨y, by simp [offspring, hf, h, hy], hy'⟩
        · rw [List.mem_cons] at ha
          rcases ha with rfl | ha
          · exact absurd haa h
          · exact ⟨a, by simp [ha], haa⟩

theorem runLoop_append (call : F → World F G → World F G) : ∀ (a b i : Nat) (w w' : World F G),
    runLoop call a i w = .ok w' → runLoop call (a + b) i w = runLoop call b (i + a) w' := by
  intro a
  induction a with
  | zero =>
    intro b i w w' h
    rw [runLoop, Except.ok.injEq] at h
    rw [h, Nat.zero_add, Nat.add_zero]
  | succ a ih =>
    intro b i w w' h
    rw [runLoop] at h
    rw [show a + 1 + b = a + b + 1 by omega, runLoop, show i + (a + 1) = i + 1 + a by omega]
    cases hx : w.tasks[i]? with
    | none => rw [hx] at h; simp at h
    | some t =>
      rw [hx] at h
      simp only at h ⊢
      cases hf : t.function with
      | none => rw [hf] at h; exact ih b _ _ _ h
      | some f =>
        rw [hf] at h
        simp only at h ⊢
        split at h
        · rw [if_pos ‹_›]; exact ih b _ _ _ h
        · rw [if_neg ‹_›]; exact ih b _ _ _ h

/-- Slots whose functions leave the table alone. -/
theorem runLoop_quiet (call : F → World F G → World F G) (act : F → G → G) : ∀ (mid pre suf : List (STask F)) (g : G),
    (∀ t ∈ mid, ∀ f, t.function = some f → t.active = true → ∀ w : World F G, call f w = ⟨w.tasks, act f w.rest⟩) →
    runLoop call mid.length pre.length ⟨pre ++ mid ++ suf, g⟩ =
      .ok ⟨pre ++ mid ++ suf, (schedule mid).foldl (fun g f => act f g) g⟩ := by
  intro mid
  induction mid with
  | nil => intro pre suf g _; simp [runLoop, schedule]
  | cons t ts ih =>
    intro pre suf g h
    have hget : (pre ++ t :: ts ++ suf)[pre.length]? = some t := by simp
    have e : pre ++ t :: ts ++ suf = pre ++ [t] ++ ts ++ suf := by simp
    rw [List.length_cons, runLoop]
    simp only [hget]
    have ih' := fun g => ih (pre ++ [t]) suf g (fun y hy => h y (by simp [hy]))
    simp only [List.length_append, List.length_singleton] at ih'
    cases hf : t.function with
    | none =>
      simp only
      rw [e, ih']
      simp [schedule, hf]
    | some f =>
      simp only
      by_cases ha : t.active = true
      · rw [if_pos ha, h t (by simp) f hf ha]
        simp only
        rw [e, ih']
        simp [schedule, hf, ha]
      · rw [if_neg ha, e, ih']
        simp [schedule, ha]

end IMU.Scheduler
