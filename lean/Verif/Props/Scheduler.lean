import Verif.Proofs.Scheduler

/-!
# Properties C35 - C37: Src/scheduler.c
-/

namespace IMU.Props
open Spec IMU.Scheduler

variable {F G : Type}

/-- C35: whatever the task functions do (also to the table, whose size they cannot change), `Scheduler_run`
passes through the slots in increasing order; from the world `ws k` in which slot `k` is reached to the next
one there is exactly the call of the function which the slot then holds, if it is active, and nothing
otherwise. -/
theorem C35_run_steps (call : F → World F G → World F G)
    (hlen : ∀ f w, (call f w).tasks.length = w.tasks.length) (w : World F G) (n : U32)
    (hn : n.toNat ≤ w.tasks.length) :
    ∃ ws : Nat → World F G, ws 0 = w ∧ run call w n = .ok (ws n.toNat) ∧
      ∀ k, k < n.toNat → ∃ t, (ws k).tasks[k]? = some t ∧
        (∀ f, t.function = some f → t.active = true → ws (k + 1) = call f (ws k)) ∧
        (t.function = none ∨ t.active = false → ws (k + 1) = ws k) := by
  obtain ⟨ws, h1, h2, h3⟩ := runLoop_ok call hlen n.toNat 0 w (by omega)
  refine ⟨ws, h1, by rw [run, h2, Nat.zero_add], ?_⟩
  intro k hk
  obtain ⟨t, ht1, ht2⟩ := h3 k (by omega) (by omega)
  refine ⟨t, ht1, ?_, ?_⟩
  · intro f hf ha
    rw [ht2]; simp [slotStep, hf, ha]
  · intro h
    rw [ht2]
    rcases h with h | h
    · simp [slotStep, h]
    · unfold slotStep
      split
      · rfl
      · simp [h]

/-- C35: with task functions that leave the table alone, the effect of a run is that of calling the functions
of the active slots among the first `n`, each once, in slot order. -/
theorem C35_run_schedule (call : F → World F G → World F G) (hsame : ∀ f w, (call f w).tasks = w.tasks)
    (w : World F G) (n : U32) (hn : n.toNat ≤ w.tasks.length) :
    run call w n = .ok (callAll call w (schedule (w.tasks.take n.toNat))) := by
  rw [run, runLoop_fold call hsame n.toNat 0 w (by omega), List.drop_zero]

/-- C35: a count larger than the table makes the run read behind it. -/
theorem C35_run_beyond (call : F → World F G → World F G) (hsame : ∀ f w, (call f w).tasks = w.tasks)
    (w : World F G) (n : U32) (hn : w.tasks.length < n.toNat) : run call w n = .error .oobRead := by
  have h : ∀ (k i : Nat) (w : World F G), i ≤ w.tasks.length → w.tasks.length < i + k →
      runLoop call k i w = .error .oobRead := by
    intro k
    induction k with
    | zero => intro i w h1 h2; omega
    | succ k ih =>
      intro i w h1 h2
      rw [runLoop]
      by_cases hi : i < w.tasks.length
      · rw [List.getElem?_eq_getElem hi]
        simp only
        split
        · exact ih _ _ (by omega) (by omega)
        · split
          · exact ih _ _ (by rw [hsame]; omega) (by rw [hsame]; omega)
          · exact ih _ _ (by omega) (by omega)
      · rw [List.getElem?_eq_none (by omega)]
  exact h n.toNat 0 w (by omega) (by omega)

/-- Non-vacuity: function 0 activates slot 1 and logs, function 1 logs; the empty slot is skipped. -/
example : (run (F := Nat) (G := List Nat)
      (fun f w => ⟨if f = 0 then w.tasks.set 1 ⟨some 1, true⟩ else w.tasks, w.rest ++ [f]⟩)
      ⟨[⟨some 0, true⟩, ⟨some 1, false⟩, ⟨none, true⟩, ⟨some 2, true⟩], []⟩ 4).map (·.rest) = .ok [0, 1, 2] := by
  rfl

/-- C36: if some slot is free, the task goes into the first free slot, and nothing else changes. -/
theorem C36_add (tasks : List (STask F)) (n : U32) (t : STask F) (hn : n.toNat ≤ tasks.length) (j : Nat)
    (hj : j < n.toNat) (hfree : ∃ x, tasks[j]? = some x ∧ x.function = none)
    (hmin : ∀ k, k < j → ∃ x, tasks[k]? = some x ∧ x.function ≠ none) :
    ∃ tasks', addTask tasks n t = .ok (true, tasks') ∧ tasks'.length = tasks.length ∧ tasks'[j]? = some t ∧
      ∀ k, k ≠ j → tasks'[k]? = tasks[k]? := by
  rcases addLoop_ok t n.toNat 0 tasks (by omega) with ⟨i, _, hi2, ⟨x, hx1, hx2⟩, hi3, hi4⟩ | ⟨h, _⟩
  · have hij : i = j := by
      rcases Nat.lt_trichotomy i j with hlt | heq | hgt
      · obtain ⟨z, hz1, hz2⟩ := hmin i hlt
        rw [hx1] at hz1; simp at hz1; subst hz1; exact absurd hx2 hz2
      · exact heq
      · obtain ⟨y, hy1, hy2⟩ := hfree
        obtain ⟨z, hz1, hz2⟩ := hi3 j (by omega) hgt
        rw [hy1] at hz1; simp at hz1; subst hz1; exact absurd hy2 hz2
    subst hij
    exact ⟨_, hi4, by simp, List.getElem?_set_self (by omega), fun k hk => List.getElem?_set_ne (Ne.symm hk)⟩
  · obtain ⟨y, hy1, hy2⟩ := hfree
    obtain ⟨z, hz1, hz2⟩ := h j (by omega) (by omega)
    rw [hy1] at hz1; simp at hz1; subst hz1; exact absurd hy2 hz2

/-- C36: the addition is refused exactly when each of the `n` slots has a function; then nothing changes. -/
theorem C36_add_full (tasks : List (STask F)) (n : U32) (t : STask F) (hn : n.toNat ≤ tasks.length) :
    ((∃ tasks', addTask tasks n t = .ok (false, tasks')) ↔
      ∀ k, k < n.toNat → ∃ x, tasks[k]? = some x ∧ x.function ≠ none) ∧
    ∀ tasks', addTask tasks n t = .ok (false, tasks') → tasks' = tasks := by
  rcases addLoop_ok t n.toNat 0 tasks (by omega) with ⟨i, _, hi2, ⟨x, hx1, hx2⟩, hi3, hi4⟩ | ⟨h, h'⟩
  · simp only [addTask, hi4]
    refine ⟨⟨?_, ?_⟩, ?_⟩
    · rintro ⟨_, h⟩; simp at h
    · intro h
      obtain ⟨z, hz1, hz2⟩ := h i (by omega)
      rw [hx1] at hz1; simp at hz1; subst hz1; exact absurd hx2 hz2
    · intro _ h; simp at h
  · simp only [addTask, h']
    refine ⟨⟨fun _ k hk => h k (by omega) (by omega), fun _ => ⟨_, rfl⟩⟩, ?_⟩
    intro l hl
    simp at hl
    exact hl.symm

/-- Non-vacuity: the second slot is the first free one, the third is free as well. -/
example : addTask (F := Nat) [⟨some 0, true⟩, ⟨none, false⟩, ⟨none, true⟩] 3 ⟨some 7, true⟩
      = .ok (true, [⟨some 0, true⟩, ⟨some 7, true⟩, ⟨none, true⟩]) ∧
    addTask (F := Nat) [⟨some 0, true⟩, ⟨some 1, false⟩, ⟨none, true⟩] 2 ⟨some 7, true⟩
      = .ok (false, [⟨some 0, true⟩, ⟨some 1, false⟩, ⟨none, true⟩]) := by
  exact ⟨rfl, rfl⟩

/-- C37: `Scheduler_init` empties exactly the first `n` slots. -/
theorem C37_init (tasks : List (STask F)) (n : U32) (hn : n.toNat ≤ tasks.length) :
    init tasks n = .ok (List.replicate n.toNat ⟨none, false⟩ ++ tasks.drop n.toNat) := by
  obtain ⟨l, h1, h2, h3⟩ := initLoop_ok n.toNat 0 tasks (by omega)
  rw [init, h1]
  congr 1
  apply List.ext_getElem?
  intro k
  rw [h3]
  by_cases hk : k < n.toNat
  · rw [if_pos (by omega), List.getElem?_append_left (by simpa using hk), List.getElem?_replicate, if_pos hk]
  · rw [if_neg (by omega), List.getElem?_append_right (by simpa using hk), List.getElem?_drop]
    congr 1
    simp; omega

/-- C37: after `Scheduler_init` and any sequence of additions (with or without functions), addition `k` has
reported success exactly if fewer than `n` additions before it carried a function, and a run executes the
active ones among the first `n` tasks with functions, in the order added. -/
theorem C37_history (call : F → World F G → World F G) (hsame : ∀ f w, (call f w).tasks = w.tasks)
    (tasks : List (STask F)) (n : U32) (hn : n.toNat ≤ tasks.length) (adds : List (STask F)) (g : G) :
    ∃ t0 rs t1, init tasks n = .ok t0 ∧ addAll n t0 adds = .ok (rs, t1) ∧ rs.length = adds.length ∧
      (∀ k, k < adds.length → rs[k]? = some (decide ((proper (adds.take k)).length < n.toNat))) ∧
      run call ⟨t1, g⟩ n = .ok (callAll call ⟨t1, g⟩ (schedule ((proper adds).take n.toNat))) := by
  obtain ⟨rs, free', h1, h2, h3, h4, h5⟩ := addAll_ok n adds [] (List.replicate n.toNat ⟨none, false⟩)
    (tasks.drop n.toNat) (by simp) (by intro t ht; rw [List.mem_replicate] at ht; rw [ht.2]) (by simp)
  simp only [List.nil_append, List.length_nil, Nat.zero_add] at h1 h3 h5
  refine ⟨_, rs, _, C37_init tasks n hn, h1, h4, h5, ?_⟩
  rw [C35_run_schedule call hsame _ _ (by simp only [List.length_append]; omega)]
  congr 2
  have ht : ((proper adds).take n.toNat ++ free' ++ tasks.drop n.toNat).take n.toNat
      = (proper adds).take n.toNat ++ free' := by
    rw [List.take_append_of_le_length (by rw [List.length_append]; omega),
      List.take_of_length_le (by rw [List.length_append]; omega)]
  simp only [ht]
  unfold schedule
  rw [List.filterMap_append]
  have hf : free'.filterMap (fun t : STask F => if t.active then t.function else none) = [] := by
    rw [List.filterMap_eq_nil_iff]
    intro t ht
    rw [h2 t ht]; simp
  rw [hf, List.append_nil]

/-- C37: with functions in all additions, exactly the first `n` additions succeed. -/
theorem C37_first_n (tasks : List (STask F)) (n : U32) (hn : n.toNat ≤ tasks.length) (adds : List (STask F))
    (hp : ∀ t ∈ adds, t.function ≠ none) :
    ∃ t0 rs t1, init tasks n = .ok t0 ∧ addAll n t0 adds = .ok (rs, t1) ∧ rs.length = adds.length ∧
      ∀ k, k < adds.length → rs[k]? = some (decide (k < n.toNat)) := by
  obtain ⟨t0, rs, t1, h1, h2, h3, h4, -⟩ := C37_history (G := Unit) (fun _ w => w) (fun _ _ => rfl) tasks n hn adds ()
  refine ⟨t0, rs, t1, h1, h2, h3, ?_⟩
  intro k hk
  rw [h4 k hk]
  have : proper (adds.take k) = adds.take k := by
    unfold proper
    rw [List.filter_eq_self]
    intro t ht
    exact Option.isSome_iff_ne_none.mpr (hp t (List.mem_of_mem_take ht))
  rw [this, List.length_take, Nat.min_eq_left (by omega)]

/-- C37: adding a null function reports success if a slot is free, and leaves all slots as free or occupied
as they were. -/
theorem C37_null_add (tasks : List (STask F)) (n : U32) (a : Bool) (hn : n.toNat ≤ tasks.length) (j : Nat)
    (hj : j < n.toNat) (hfree : ∃ x, tasks[j]? = some x ∧ x.function = none) :
    ∃ tasks', addTask tasks n ⟨none, a⟩ = .ok (true, tasks') ∧
      tasks'.map (·.function) = tasks.map (·.function) := by
  rcases addLoop_ok ⟨none, a⟩ n.toNat 0 tasks (by omega) with ⟨i, _, hi2, ⟨x, hx1, hx2⟩, hi3, hi4⟩ | ⟨h, _⟩
  · refine ⟨_, hi4, ?_⟩
    apply List.ext_getElem?
    intro k
    simp only [List.getElem?_map]
    by_cases hk : k = i
    · subst hk
      rw [List.getElem?_set_self (by omega), hx1]
      simp [hx2]
    · rw [List.getElem?_set_ne (Ne.symm hk)]
  · obtain ⟨y, hy1, hy2⟩ := hfree
    obtain ⟨z, hz1, hz2⟩ := h j (by omega) (by omega)
    rw [hy1] at hz1; simp at hz1; subst hz1; exact absurd hy2 hz2

/-- Non-vacuity: two slots, four additions, one of them null. -/
example : (init (F := Nat) [⟨some 9, true⟩, ⟨some 9, true⟩, ⟨some 5, true⟩] 2).bind
      (fun t0 => addAll 2 t0 [⟨some 1, true⟩, ⟨none, true⟩, ⟨some 2, false⟩, ⟨some 3, true⟩])
      = .ok ([true, true, true, false], [⟨some 1, true⟩, ⟨some 2, false⟩, ⟨some 5, true⟩]) := by rfl

end IMU.Props
