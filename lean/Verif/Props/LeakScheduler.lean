import Verif.Proofs.LeakScheduler

/-!
# Property C150: what the scheduler shows, and in how many steps
-/

namespace IMU.Props
open Spec Scheduler
variable {F G : Type}

/-- C150: what is observed is the code that the other properties are about. -/
theorem C150_same_code (tasks : List (STask F)) (n : U32) (nt : STask F) (call : F → World F G → World F G) (w : World F G) :
    eraseS (initT tasks n) = init tasks n ∧ eraseS (addTaskT tasks n nt) = addTask tasks n nt ∧
    eraseS (runT call w n) = run call w n :=
  ⟨erase_initLoop _ _ _, erase_addLoop _ _ _ _, erase_runLoop _ _ _ _⟩

/-- C150: initialising takes `3 n + 1` steps and shows nothing of what the table contained. -/
theorem C150_init {tasks tasks' l l' : List (STask F)} {n : U32} {t t' : List (SLeak F)} (h : initT tasks n = .ok (l, t))
    (h' : initT tasks' n = .ok (l', t')) : t = t' ∧ t.length = 3 * n.toNat + 1 := by
  have e := init_shows _ _ _ _ _ h
  have e' := init_shows _ _ _ _ _ h'
  exact ⟨e.trans e'.symm, by rw [e, initShown_length]⟩

/-- C150: adding a task shows which entry is the first free one, and nothing else: neither the task nor the other entries.
It takes three steps for every occupied entry before the free one, seven for this one, and one if there is none. -/
theorem C150_add (tasks tasks' : List (STask F)) (n : U32) (nt nt' : STask F) (hn : n.toNat ≤ tasks.length)
    (hn' : n.toNat ≤ tasks'.length) :
    ∃ r t r' t', addTaskT tasks n nt = .ok (r, t) ∧ addTaskT tasks' n nt' = .ok (r', t') ∧
      (t = t' ↔ firstFree (tasks.take n.toNat) = firstFree (tasks'.take n.toNat)) ∧
      t.length = 3 * firstFree (tasks.take n.toNat) + if firstFree (tasks.take n.toNat) < n.toNat then 7 else 1 := by
  obtain ⟨r, h⟩ := add_shows nt n.toNat 0 tasks (by omega)
  obtain ⟨r', h'⟩ := add_shows nt' n.toNat 0 tasks' (by omega)
  rw [List.drop_zero] at h h'
  refine ⟨r, _, r', _, h, h', ?_, ?_⟩
  · rw [addShown_inj]
    exact ⟨fun e => e.1, fun e => ⟨e, by rw [e]⟩⟩
  · rw [addShown_length]
    simp only [decide_eq_true_eq]

/-- C150: a run with task functions that leave the table alone shows which entries are empty, inactive or active and with
which function, and nothing else.  It takes three, five or seven steps for these entries. -/
theorem C150_run (call call' : F → World F G → World F G) (hsame : ∀ f w, (call f w).tasks = w.tasks)
    (hsame' : ∀ f w, (call' f w).tasks = w.tasks) (w w' : World F G) (n : U32) (hn : n.toNat ≤ w.tasks.length)
    (hn' : n.toNat ≤ w'.tasks.length) :
    ∃ v t v' t', runT call w n = .ok (v, t) ∧ runT call' w' n = .ok (v', t') ∧
      (t = t' ↔ (w.tasks.take n.toNat).map seen = (w'.tasks.take n.toNat).map seen) ∧
      t.length = ((w.tasks.take n.toNat).map fun x => seenSteps (seen x)).sum + 1 := by
  obtain ⟨v, h⟩ := run_shows call hsame n.toNat 0 w (by omega)
  obtain ⟨v', h'⟩ := run_shows call' hsame' n.toNat 0 w' (by omega)
  rw [List.drop_zero] at h h'
  refine ⟨v, _, v', _, h, h', runShown_inj _ _ _, ?_⟩
  rw [runShown_length, List.map_map]
  rfl

/-- C150: with any task functions, also such that change the table (but not its size) while the run goes on, it shows what it
finds in the entries when their turn comes, and nothing else: not what the functions did to the table otherwise. -/
theorem C150_run_any (call call' : F → World F G → World F G) (hsize : ∀ f w, (call f w).tasks.length = w.tasks.length)
    (hsize' : ∀ f w, (call' f w).tasks.length = w.tasks.length) (w w' : World F G) (n : U32) (hn : n.toNat ≤ w.tasks.length)
    (hn' : n.toNat ≤ w'.tasks.length) :
    ∃ v t v' t', runT call w n = .ok (v, t) ∧ runT call' w' n = .ok (v', t') ∧
      (t = t' ↔ found call n.toNat 0 w = found call' n.toNat 0 w') ∧
      t.length = ((found call n.toNat 0 w).map seenSteps).sum + 1 := by
  obtain ⟨v, h⟩ := run_shows_any call hsize n.toNat 0 w (by omega)
  obtain ⟨v', h'⟩ := run_shows_any call' hsize' n.toNat 0 w' (by omega)
  exact ⟨v, _, v', _, h, h', runShown_inj _ _ _, runShown_length _ _⟩

/-- Non-vacuity: initialising two entries of three shows this, whatever they contain. -/
example (a b c : STask Nat) : ∃ l, initT [a, b, c] 2#32 =
    .ok (l, [.branch true, .writeFunction 0, .writeActive 0, .branch true, .writeFunction 1, .writeActive 1, .branch false]) :=
  ⟨_, rfl⟩

/-- ... adding to three entries, the second one inactive and the third one empty. -/
example : ∃ r, addTaskT [⟨some 7, true⟩, ⟨some 8, false⟩, ⟨none, true⟩] 3#32 ⟨some 9, true⟩ =
      .ok (r, [.branch true, .readFunction 0, .branch false, .branch true, .readFunction 1, .branch false,
        .branch true, .readFunction 2, .branch true, .newFunction, .writeFunction 2, .newActive, .writeActive 2]) ∧
    r.1 = true := ⟨_, rfl, rfl⟩

/-- ... a run shows the same with another inactive function, but not with another active one. -/
example :
    ([⟨some 7, true⟩, ⟨some 8, false⟩, ⟨none, true⟩] : List (STask Nat)).map seen =
      ([⟨some 7, true⟩, ⟨some 5, false⟩, ⟨none, false⟩] : List (STask Nat)).map seen ∧
    ([⟨some 7, true⟩, ⟨some 8, false⟩, ⟨none, true⟩] : List (STask Nat)).map seen ≠
      ([⟨some 6, true⟩, ⟨some 8, false⟩, ⟨none, true⟩] : List (STask Nat)).map seen ∧
    ∃ v, runT (fun _ w => w) (⟨[⟨some 7, true⟩, ⟨some 8, false⟩, ⟨none, true⟩], ()⟩ : World Nat Unit) 3#32 =
      .ok (v, [.branch true, .readFunction 0, .branch true, .readActive 0, .branch true, .readFunction 0, .call 7,
        .branch true, .readFunction 1, .branch true, .readActive 1, .branch false,
        .branch true, .readFunction 2, .branch false, .branch false]) :=
  ⟨by decide, by decide, _, rfl⟩

/-- ... a function 7 that switches off the next entry and function 8 that is not called then. -/
example :
    let call : Nat → World Nat Unit → World Nat Unit := fun f w => if f = 7 then ⟨w.tasks.set 1 ⟨some 8, false⟩, ()⟩ else w
    (∀ f w, (call f w).tasks.length = w.tasks.length) ∧
    found call 2 0 ⟨[⟨some 7, true⟩, ⟨some 8, true⟩], ()⟩ = [.active 7, .inactive] :=
  ⟨fun f w => by dsimp only; split <;> simp, by decide⟩

end IMU.Props
