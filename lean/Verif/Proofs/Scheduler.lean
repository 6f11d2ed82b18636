import Verif.Spec.Scheduler

namespace IMU.Scheduler
open Spec

variable {F G : Type}

theorem initLoop_ok (n : Nat) : ∀ (i : Nat) (l : List (STask F)), i + n ≤ l.length →
    ∃ l', initLoop n i l = .ok l' ∧ l'.length = l.length ∧
      ∀ k, l'[k]? = if i ≤ k ∧ k < i + n then some ⟨none, false⟩ else l[k]? := by
  induction n with
  | zero => intro i l _; exact ⟨l, rfl, rfl, fun k => by rw [if_neg (by omega)]⟩
  | succ n ih =>
    intro i l h
    obtain ⟨l', h1, h2, h3⟩ := ih (i + 1) (l.set i ⟨none, false⟩) (by rw [List.length_set]; omega)
    refine ⟨l', ?_, by rw [h2, List.length_set], ?_⟩
    · rw [initLoop, if_pos (by omega), h1]
    · intro k
      rw [h3]
      by_cases hk : k = i
      · subst hk
        rw [if_neg (by omega), if_pos (by omega), List.getElem?_set_self (by omega)]
      · rw [List.getElem?_set_ne (Ne.symm hk)]
        by_cases hc : i + 1 ≤ k ∧ k < i + 1 + n
        · rw [if_pos hc, if_pos (by omega)]
        · rw [if_neg hc, if_neg (by omega)]

theorem addLoop_ok (t : STask F) (n : Nat) : ∀ (i : Nat) (l : List (STask F)), i + n ≤ l.length →
    (∃ j, i ≤ j ∧ j < i + n ∧ (∃ x, l[j]? = some x ∧ x.function = none) ∧
      (∀ k, i ≤ k → k < j → ∃ x, l[k]? = some x ∧ x.function ≠ none) ∧
      addLoop t n i l = .ok (true, l.set j t)) ∨
    ((∀ k, i ≤ k → k < i + n → ∃ x, l[k]? = some x ∧ x.function ≠ none) ∧
      addLoop t n i l = .ok (false, l)) := by
  induction n with
  | zero => intro i l _; exact .inr ⟨fun k _ _ => by omega, rfl⟩
  | succ n ih =>
    intro i l h
    have hi : i < l.length := by omega
    have hg := List.getElem?_eq_getElem hi
    cases hf : l[i].function with
    | none =>
      refine .inl ⟨i, by omega, by omega, ⟨l[i], hg, hf⟩, fun k _ _ => by omega, ?_⟩
      simp only [addLoop, hg, hf]
    | some f =>
      have hstep : addLoop t (n + 1) i l = addLoop t n (i + 1) l := by simp only [addLoop, hg, hf]
      rw [hstep]
      have hne : l[i].function ≠ none := by rw [hf]; simp
      rcases ih (i + 1) l (by omega) with ⟨j, h1, h2, h3, h4, h5⟩ | ⟨h1, h2⟩
      · refine .inl ⟨j, by omega, by omega, h3, ?_, h5⟩
        intro k hk1 hk2
        by_cases hki : k = i
        · subst hki; exact ⟨_, hg, hne⟩
        · exact h4 k (by omega) hk2
      · refine .inr ⟨?_, h2⟩
        intro k hk1 hk2
        by_cases hki : k = i
        · subst hki; exact ⟨_, hg, hne⟩
        · exact h1 k (by omega) (by omega)

/-- One iteration of the run loop. -/
def slotStep (call : F → World F G → World F G) (t : STask F) (w : World F G) : World F G :=
  match t.function with
  | none => w
  | some f => if t.active then call f w else w

theorem runLoop_ok (call : F → World F G → World F G)
    (hlen : ∀ f w, (call f w).tasks.length = w.tasks.length) (n : Nat) : ∀ (i : Nat) (w : World F G),
    i + n ≤ w.tasks.length →
    ∃ ws : Nat → World F G, ws i = w ∧ runLoop call n i w = .ok (ws (i + n)) ∧
      ∀ k, i ≤ k → k < i + n → ∃ t, (ws k).tasks[k]? = some t ∧ ws (k + 1) = slotStep call t (ws k) := by
  induction n with
  | zero => intro i w _; exact ⟨fun _ => w, rfl, rfl, fun k _ _ => by omega⟩
  | succ n ih =>
    intro i w h
    have hi : i < w.tasks.length := by omega
    have hg := List.getElem?_eq_getElem hi
    have hl : (slotStep call w.tasks[i] w).tasks.length = w.tasks.length := by
      unfold slotStep
      split
      · rfl
      · split
        · exact hlen _ _
        · rfl
    obtain ⟨ws, h1, h2, h3⟩ := ih (i + 1) (slotStep call w.tasks[i] w) (by omega)
    refine ⟨fun k => if k = i then w else ws k, by simp, ?_, ?_⟩
    · have : runLoop call (n + 1) i w = runLoop call n (i + 1) (slotStep call w.tasks[i] w) := by
        simp only [runLoop, hg]
        unfold slotStep
        cases w.tasks[i].function with
        | none => rfl
        | some f => simp only; split <;> rfl
      rw [this, h2]
      simp only
      rw [if_neg (by omega), show i + 1 + n = i + (n + 1) by omega]
    · intro k hk1 hk2
      by_cases hki : k = i
      · subst hki
        refine ⟨w.tasks[k], by simpa using hg, ?_⟩
        simp only [if_true]
        rw [if_neg (by omega), h1]
      · obtain ⟨t, ht1, ht2⟩ := h3 k (by omega) (by omega)
        refine ⟨t, by simpa [hki] using ht1, ?_⟩
        simp only [if_neg hki]
        rw [if_neg (by omega), ht2]

theorem runLoop_fold (call : F → World F G → World F G)
    (hsame : ∀ f w, (call f w).tasks = w.tasks) (n : Nat) : ∀ (i : Nat) (w : World F G),
    i + n ≤ w.tasks.length →
    runLoop call n i w = .ok (callAll call w (schedule ((w.tasks.drop i).take n))) := by
  induction n with
  | zero => intro i w _; simp [runLoop, schedule, callAll]
  | succ n ih =>
    intro i w h
    have hi : i < w.tasks.length := by omega
    have hg := List.getElem?_eq_getElem hi
    have hd : (w.tasks.drop i).take (n + 1) = w.tasks[i] :: (w.tasks.drop (i + 1)).take n := by
      rw [← List.getElem_cons_drop hi, List.take_succ_cons]
    rw [hd]
    simp only [runLoop, hg]
    cases hf : w.tasks[i].function with
    | none =>
      simp only
      rw [ih (i + 1) w (by omega)]
      simp [schedule, hf]
    | some f =>
      simp only
      by_cases ha : w.tasks[i].active = true
      · rw [if_pos ha, ih (i + 1) (call f w) (by rw [hsame]; omega), hsame]
        simp [schedule, ha, hf, callAll]
      · rw [if_neg ha, ih (i + 1) w (by omega)]
        simp [schedule, ha]

/-- After `acc` proper additions the table consists of these and of free slots. -/
theorem addAll_ok (n : U32) (adds : List (STask F)) : ∀ (acc free suf : List (STask F)),
    (∀ t ∈ acc, t.function ≠ none) → (∀ t ∈ free, t.function = none) → acc.length + free.length = n.toNat →
    ∃ rs free', addAll n (acc ++ free ++ suf) adds =
        .ok (rs, (acc ++ proper adds).take n.toNat ++ free' ++ suf) ∧
      (∀ t ∈ free', t.function = none) ∧
      ((acc ++ proper adds).take n.toNat).length + free'.length = n.toNat ∧
      rs.length = adds.length ∧
      ∀ k, k < adds.length → rs[k]? = some (decide (acc.length + (proper (adds.take k)).length < n.toNat)) := by
  induction adds with
  | nil =>
    intro acc free suf h1 h2 h3
    have : acc.take n.toNat = acc := List.take_of_length_le (by omega)
    exact ⟨[], free, by simp [addAll, proper, this], h2, by simp [proper, this, h3], rfl, fun k hk => by simp at hk⟩
  | cons t adds ih =>
    intro acc free suf h1 h2 h3
    have hacc : ∀ k, k < acc.length → ∃ x, (acc ++ free ++ suf)[k]? = some x ∧ x.function ≠ none := by
      intro k hk
      exact ⟨acc[k], by simp [List.getElem?_append_left, hk], h1 _ (List.getElem_mem _)⟩
    have hlen : 0 + n.toNat ≤ (acc ++ free ++ suf).length := by simp; omega
    cases free with
    | nil =>
      simp only [List.length_nil, Nat.add_zero] at h3
      have hadd : addTask (acc ++ [] ++ suf) n t = .ok (false, acc ++ [] ++ suf) := by
        rcases addLoop_ok t n.toNat 0 _ hlen with ⟨j, _, hj2, ⟨x, hx1, hx2⟩, _, _⟩ | ⟨_, h⟩
        · obtain ⟨y, hy1, hy2⟩ := hacc j (by omega)
          rw [hx1] at hy1; simp at hy1; subst hy1; exact absurd hx2 hy2
        · exact h
      obtain ⟨rs, free', g1, g2, g3, g4, g5⟩ := ih acc [] suf h1 (by simp) (by simpa using h3)
      have ht : ∀ l : List (STask F), (acc ++ l).take n.toNat = acc := by
        intro l; rw [List.take_append_of_le_length (by omega), List.take_of_length_le (by omega)]
      rw [ht] at g1 g3
      refine ⟨false :: rs, free', ?_, g2, by rw [ht]; exact g3, by simp [g4], ?_⟩
      · simp only [addAll, hadd, g1, ht]
      · intro k hk
        cases k with
        | zero =>
          have : ¬ acc.length < n.toNat := by omega
          simp [proper, this]
        | succ k =>
          have hx := g5 k (by simpa using hk)
          have e1 : ¬ acc.length + (proper (adds.take k)).length < n.toNat := by omega
          have e2 : ¬ acc.length + (proper ((t :: adds).take (k + 1))).length < n.toNat := by omega
          rw [decide_eq_false e1] at hx
          rw [List.getElem?_cons_succ, hx, decide_eq_false e2]
    | cons x free =>
      simp only [List.length_cons] at h3
      have hadd : addTask (acc ++ x :: free ++ suf) n t = .ok (true, acc ++ t :: free ++ suf) := by
        rcases addLoop_ok t n.toNat 0 _ hlen with ⟨j, _, hj2, ⟨y, hy1, hy2⟩, hj4, hj5⟩ | ⟨h, _⟩
        · have hj : j = acc.length := by
            rcases Nat.lt_trichotomy j acc.length with hlt | heq | hgt
            · obtain ⟨z, hz1, hz2⟩ := hacc j hlt
              rw [hy1] at hz1; simp at hz1; subst hz1; exact absurd hy2 hz2
            · exact heq
            · obtain ⟨z, hz1, hz2⟩ := hj4 acc.length (by omega) hgt
              simp at hz1
              rw [← hz1] at hz2
              exact absurd (h2 x (by simp)) hz2
          rw [addTask, hj5, hj]
          simp [List.set_append]
        · obtain ⟨z, hz1, hz2⟩ := h acc.length (by omega) (by omega)
          simp at hz1
          rw [← hz1] at hz2
          exact absurd (h2 x (by simp)) hz2
      cases hf : t.function with
      | none =>
        obtain ⟨rs, free', g1, g2, g3, g4, g5⟩ := ih acc (t :: free) suf h1
          (by intro y hy; rw [List.mem_cons] at hy; rcases hy with rfl | hy
              · exact hf
              · exact h2 y (by simp [hy]))
          (by simpa using h3)
        have hp : proper (t :: adds) = proper adds := by simp [proper, hf]
        refine ⟨true :: rs, free', ?_, g2, by rw [hp]; exact g3, by simp [g4], ?_⟩
        · simp only [addAll, hadd, g1, hp]
        · intro k hk
          cases k with
          | zero =>
            have : acc.length < n.toNat := by omega
            simp [proper, this]
          | succ k =>
            have hx := g5 k (by simpa using hk)
            have hp' : proper ((t :: adds).take (k + 1)) = proper (adds.take k) := by simp [proper, hf]
            rw [List.getElem?_cons_succ, hx, hp']
      | some f =>
        obtain ⟨rs, free', g1, g2, g3, g4, g5⟩ := ih (acc ++ [t]) free suf
          (by intro y hy; rw [List.mem_append, List.mem_singleton] at hy; rcases hy with hy | rfl
              · exact h1 y hy
              · rw [hf]; simp)
          (by intro y hy; exact h2 y (by simp [hy]))
          (by simp; omega)
        have hp : proper (t :: adds) = t :: proper adds := by simp [proper, hf]
        simp only [List.append_assoc, List.cons_append, List.nil_append] at g1 g3
        refine ⟨true :: rs, free', ?_, g2, by rw [hp]; exact g3, by simp [g4], ?_⟩
        · simp only [addAll, hadd, hp]
          simp only [List.append_assoc, List.cons_append]
          rw [g1]
        · intro k hk
          cases k with
          | zero =>
            have : acc.length < n.toNat := by omega
            simp [proper, this]
          | succ k =>
            have hx := g5 k (by simpa using hk)
            have hp' : proper ((t :: adds).take (k + 1)) = t :: proper (adds.take k) := by simp [proper, hf]
            rw [List.getElem?_cons_succ, hx, hp']
            simp only [List.length_append, List.length_cons, List.length_nil]
            congr 2
            apply propext; omega

end IMU.Scheduler
