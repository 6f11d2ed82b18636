import Verif.Model.Scheduler

/-!
# The scheduler, observed

The same code as in `Verif/Model/Scheduler.lean`, line by line, showing the accesses to the task table, the decisions of the
C text and which functions are called (simplification: not what the task functions themselves show).
-/

namespace IMU.Scheduler

/-- What an observer of Src/scheduler.c:37-66 sees. -/
inductive SLeak (F : Type) where
  /-- a read of the member `function` of entry `i` -/
  | readFunction (i : Nat)
  /-- a read of the member `active` of entry `i` -/
  | readActive (i : Nat)
  /-- a write of the member `function` of entry `i` -/
  | writeFunction (i : Nat)
  /-- a write of the member `active` of entry `i` -/
  | writeActive (i : Nat)
  /-- a read of the member `function` of the new task -/
  | newFunction
  /-- a read of the member `active` of the new task -/
  | newActive
  /-- a decision -/
  | branch (b : Bool)
  /-- the call of a function -/
  | call (f : F)
  deriving DecidableEq

/-- Show `t` before what the rest of the code (in Src/scheduler.c:37-66) shows. -/
def before {F α : Type} (t : List (SLeak F)) (x : Except UB (α × List (SLeak F))) : Except UB (α × List (SLeak F)) :=
  match x with
  | .ok (a, u) => .ok (a, t ++ u)
  | .error e => .error e

/-- Src/scheduler.c:39-42: the loop of `Scheduler_init`, observed. -/
def initLoopT {F : Type} : Nat → Nat → List (STask F) → Except UB (List (STask F) × List (SLeak F))
  | 0, _, tasks => .ok (tasks, [.branch false])
  | n + 1, i, tasks =>
    if i < tasks.length then
      before [.branch true, .writeFunction i, .writeActive i] (initLoopT n (i + 1) (tasks.set i ⟨none, false⟩))
    else .error .oobWrite

/-- Src/scheduler.c:37-43 `Scheduler_init`, observed. -/
def initT {F : Type} (tasks : List (STask F)) (num_of_tasks : U32) : Except UB (List (STask F) × List (SLeak F)) :=
  initLoopT num_of_tasks.toNat 0 tasks

/-- Src/scheduler.c:48-55: the loop of `Scheduler_addTask`, observed. -/
def addLoopT {F : Type} (new_task : STask F) : Nat → Nat → List (STask F) →
    Except UB ((Bool × List (STask F)) × List (SLeak F))
  | 0, _, tasks => .ok ((false, tasks), [.branch false])
  | n + 1, i, tasks =>
    match tasks[i]? with
    | none => .error .oobRead
    | some t =>
      match t.function with
      | none => .ok ((true, tasks.set i ⟨new_task.function, new_task.active⟩),
          [.branch true, .readFunction i, .branch true, .newFunction, .writeFunction i, .newActive, .writeActive i])
      | some _ => before [.branch true, .readFunction i, .branch false] (addLoopT new_task n (i + 1) tasks)

/-- Src/scheduler.c:45-57 `Scheduler_addTask`, observed. -/
def addTaskT {F : Type} (tasks : List (STask F)) (max_num_tasks : U32) (new_task : STask F) :
    Except UB ((Bool × List (STask F)) × List (SLeak F)) :=
  addLoopT new_task max_num_tasks.toNat 0 tasks

/-- Src/scheduler.c:61-65: the loop of `Scheduler_run`, observed; line 63 reads the function a second time. -/
def runLoopT {F G : Type} (call : F → World F G → World F G) : Nat → Nat → World F G →
    Except UB (World F G × List (SLeak F))
  | 0, _, w => .ok (w, [.branch false])
  | n + 1, i, w =>
    match w.tasks[i]? with
    | none => .error .oobRead
    | some t =>
      match t.function with
      | none => before [.branch true, .readFunction i, .branch false] (runLoopT call n (i + 1) w)
      | some f =>
        if t.active then
          before [.branch true, .readFunction i, .branch true, .readActive i, .branch true, .readFunction i, .call f]
            (runLoopT call n (i + 1) (call f w))
        else before [.branch true, .readFunction i, .branch true, .readActive i, .branch false] (runLoopT call n (i + 1) w)

/-- Src/scheduler.c:59-66 `Scheduler_run`, observed. -/
def runT {F G : Type} (call : F → World F G → World F G) (w : World F G) (num_of_tasks : U32) :
    Except UB (World F G × List (SLeak F)) :=
  runLoopT call num_of_tasks.toNat 0 w

end IMU.Scheduler
