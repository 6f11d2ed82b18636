import Verif.Model.LeakScheduler
import Verif.Spec.LeakScheduler

/-!
# The observed scheduler
-/

namespace IMU.Scheduler
open Spec
variable {F G α : Type}

/-- Without the observer. -/
def eraseS (x : Except UB (α × List (SLeak F))) : Except UB α :=
  match x with
  | .ok (a, _) => .ok a
  | .error e => .error e

theorem eraseS_before (t : List (SLeak F)) (x : Except UB (α × List (SLeak F))) : eraseS (before t x) = eraseS x := by
  cases x <;> rfl

theorem erase_initLoop (n : Nat) : ∀ (i : Nat) (tasks : List (STask F)), eraseS (initLoopT n i tasks) = initLoop n i tasks := by
  induction n with
  | zero => intro i tasks; rfl
  | succ n ih =>
    intro i tasks
    rw [initLoopT, initLoop]
    split
    · rw [eraseS_before, ih]
    · rfl

theorem erase_addLoop (nt : STask F) (n : Nat) : ∀ (i : Nat) (tasks : List (STask F)),
    eraseS (addLoopT nt n i tasks) = addLoop nt n i tasks := by
  induction n with
  | zero => intro i tasks; rfl
  | succ n ih =>
    intro i tasks
    rw [addLoopT, addLoop]
    cases tasks[i]? with
    | none => rfl
    | some t =>
      dsimp only
      cases t.function with
      | none => rfl
      | some f => dsimp only; rw [eraseS_before, ih]

theorem erase_runLoop (call : F → World F G → World F G) (n : Nat) : ∀ (i : Nat) (w : World F G),
    eraseS (runLoopT call n i w) = runLoop call n i w := by
  induction n with
  | zero => intro i w; rfl
  | succ n ih =>
    intro i w
    rw [runLoopT, runLoop]
    cases w.tasks[i]? with
    | none => rfl
    | some t =>
      dsimp only
      cases t.function with
      | none => dsimp only; rw [eraseS_before, ih]
      | some f =>
        dsimp only
        split
        · rw [eraseS_before, ih]
        · rw [eraseS_before, ih]

/-! ### What is shown -/

/-- What initialising shows. -/
def initShown (F : Type) : Nat → Nat → List (SLeak F)
  | 0, _ => [.branch false]
  | n + 1, i => [.branch true, .writeFunction i, .writeActive i] ++ initShown F n (i + 1)

theorem init_shows (n : Nat) : ∀ (i : Nat) (tasks l : List (STask F)) (t : List (SLeak F)),
    initLoopT n i tasks = .ok (l, t) → t = initShown F n i := by
  induction n with
  | zero => intro i tasks l t h; cases h; rfl
  | succ n ih =>
    intro i tasks l t h
    rw [initLoopT] at h
    split at h
    · cases hx : initLoopT n (i + 1) (tasks.set i ⟨none, false⟩) with
      | error e => rw [hx] at h; cases h
      | ok a =>
        obtain ⟨l', u⟩ := a
        rw [hx] at h
        cases h
        rw [ih _ _ _ _ hx]; rfl
    · cases h

theorem initShown_length (n : Nat) : ∀ i, (initShown F n i).length = 3 * n + 1 := by
  induction n with
  | zero => intro i; rfl
  | succ n ih => intro i; rw [initShown, List.length_append, ih]; simp; omega

/-- What adding shows, with `j` occupied entries before a free one or the end. -/
def addShown (F : Type) (free : Bool) : Nat → Nat → List (SLeak F)
  | 0, i => if free then [.branch true, .readFunction i, .branch true, .newFunction, .writeFunction i, .newActive, .writeActive i]
    else [.branch false]
  | j + 1, i => [.branch true, .readFunction i, .branch false] ++ addShown F free j (i + 1)

theorem add_shows (nt : STask F) (n : Nat) : ∀ (i : Nat) (tasks : List (STask F)), i + n ≤ tasks.length →
    ∃ r, addLoopT nt n i tasks = .ok (r, addShown F (decide (firstFree ((tasks.drop i).take n) < n))
      (firstFree ((tasks.drop i).take n)) i) := by
  induction n with
  | zero => intro i tasks _; exact ⟨_, by simp [addLoopT, firstFree, addShown]; rfl⟩
  | succ n ih =>
    intro i tasks hn
    have hi : i < tasks.length := by omega
    rw [addLoopT, List.getElem?_eq_getElem hi, List.drop_eq_getElem_cons hi, List.take_succ_cons]
    dsimp only
    unfold firstFree
    rw [List.findIdx_cons]
    cases hf : tasks[i].function with
    | none => exact ⟨_, by simp [addShown]; rfl⟩
    | some f =>
      obtain ⟨r, h⟩ := ih (i + 1) tasks (by omega)
      refine ⟨r, ?_⟩
      dsimp only
      rw [h]
      have hd : ∀ a : Nat, decide (a + 1 < n + 1) = decide (a < n) := by
        intro a; rw [decide_eq_decide]; omega
      simp only [Option.isNone_some, cond_false, before, firstFree, addShown, hd]
      rfl

theorem addShown_length (free : Bool) (j : Nat) : ∀ i, (addShown F free j i).length = 3 * j + if free then 7 else 1 := by
  induction j with
  | zero => intro i; cases free <;> rfl
  | succ j ih => intro i; rw [addShown, List.length_append, ih]; simp; omega

/-- What an entry shows in a run. -/
def entryShown (i : Nat) : Seen F → List (SLeak F)
  | .empty => [.branch true, .readFunction i, .branch false]
  | .inactive => [.branch true, .readFunction i, .branch true, .readActive i, .branch false]
  | .active f => [.branch true, .readFunction i, .branch true, .readActive i, .branch true, .readFunction i, .call f]

/-- What a run shows. -/
def runShown : Nat → List (Seen F) → List (SLeak F)
  | _, [] => [.branch false]
  | i, s :: l => entryShown i s ++ runShown (i + 1) l

theorem run_shows (call : F → World F G → World F G) (hsame : ∀ f w, (call f w).tasks = w.tasks) (n : Nat) :
    ∀ (i : Nat) (w : World F G), i + n ≤ w.tasks.length →
      ∃ w', runLoopT call n i w = .ok (w', runShown i (((w.tasks.drop i).take n).map seen)) := by
  induction n with
  | zero => intro i w _; exact ⟨w, by simp [runLoopT, runShown]⟩
  | succ n ih =>
    intro i w hn
    have hi : i < w.tasks.length := by omega
    rw [runLoopT, List.getElem?_eq_getElem hi, List.drop_eq_getElem_cons hi, List.take_succ_cons, List.map_cons, runShown]
    dsimp only
    cases hf : w.tasks[i].function with
    | none =>
      obtain ⟨w', h⟩ := ih (i + 1) w (by omega)
      exact ⟨w', by dsimp only; rw [h, seen, hf]; rfl⟩
    | some f =>
      dsimp only
      cases ha : w.tasks[i].active
      · obtain ⟨w', h⟩ := ih (i + 1) w (by omega)
        exact ⟨w', by rw [h, seen, hf]; simp [ha, before, entryShown]⟩
      · obtain ⟨w', h⟩ := ih (i + 1) (call f w) (by rw [hsame]; omega)
        rw [hsame] at h
        exact ⟨w', by rw [if_pos rfl, h, seen, hf]; simp [ha, before, entryShown]⟩

theorem run_shows_any (call : F → World F G → World F G) (hsize : ∀ f w, (call f w).tasks.length = w.tasks.length) (n : Nat) :
    ∀ (i : Nat) (w : World F G), i + n ≤ w.tasks.length →
      ∃ w', runLoopT call n i w = .ok (w', runShown i (found call n i w)) := by
  induction n with
  | zero => intro i w _; exact ⟨w, rfl⟩
  | succ n ih =>
    intro i w hn
    have hi : i < w.tasks.length := by omega
    rw [runLoopT, found, List.getElem?_eq_getElem hi, Option.map_some]
    dsimp only
    cases hf : w.tasks[i].function with
    | none =>
      obtain ⟨w', h⟩ := ih (i + 1) w (by omega)
      have hs : seen w.tasks[i] = .empty := by rw [seen, hf]
      exact ⟨w', by dsimp only; rw [h, hs]; rfl⟩
    | some f =>
      dsimp only
      cases ha : w.tasks[i].active
      · obtain ⟨w', h⟩ := ih (i + 1) w (by omega)
        have hs : seen w.tasks[i] = .inactive := by rw [seen, hf]; simp [ha]
        exact ⟨w', by rw [h, hs]; rfl⟩
      · obtain ⟨w', h⟩ := ih (i + 1) (call f w) (by rw [hsize]; omega)
        have hs : seen w.tasks[i] = .active f := by rw [seen, hf]; simp [ha]
        exact ⟨w', by rw [if_pos rfl, h, hs]; rfl⟩

theorem runShown_inj (l : List (Seen F)) : ∀ (l' : List (Seen F)) (i : Nat), runShown i l = runShown i l' ↔ l = l' := by
  induction l with
  | nil => intro l' i; cases l' with
    | nil => simp
    | cons s l' => cases s <;> simp [runShown, entryShown]
  | cons s l ih =>
    intro l' i
    cases l' with
    | nil => cases s <;> simp [runShown, entryShown]
    | cons s' l' => cases s <;> cases s' <;> simp [runShown, entryShown, ih]

theorem runShown_length (l : List (Seen F)) : ∀ i, (runShown i l).length = (l.map seenSteps).sum + 1 := by
  induction l with
  | nil => intro i; rfl
  | cons s l ih =>
    intro i
    rw [runShown, List.length_append, ih, List.map_cons, List.sum_cons]
    cases s <;> simp [entryShown, seenSteps] <;> omega

theorem addShown_inj (a a' : Bool) (j : Nat) : ∀ (j' i : Nat), (addShown F a j i = addShown F a' j' i ↔ j = j' ∧ a = a') := by
  induction j with
  | zero =>
    intro j' i
    cases j' with
    | zero => cases a <;> cases a' <;> simp [addShown]
    | succ j' => cases a <;> simp [addShown]
  | succ j ih =>
    intro j' i
    cases j' with
    | zero => cases a' <;> simp [addShown]
    | succ j' => simp [addShown, ih]

end IMU.Scheduler
