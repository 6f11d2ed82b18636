import Verif.C.Mem

/-!
# Model of Src/scheduler.c

Function pointers are values of a type `F`, the null pointer is `none`.  The task table is a list, an
access behind its end is undefined behaviour.  What a task function does is given by a parameter `call`, an
arbitrary transformer of the world, which contains the task table itself and any other global state `G`
(simplification: every task function terminates without undefined behaviour of its own).
-/

namespace IMU.Scheduler

/-- Inc/scheduler.h:40-43 `SchedulerTask_t`. -/
structure STask (F : Type) where
  function : Option F
  active : Bool
  deriving DecidableEq

/-- The task table (Inc/scheduler.h:40-43) and all other global state. -/
structure World (F G : Type) where
  tasks : List (STask F)
  rest : G

/-- Src/scheduler.c:39-42: the loop of `Scheduler_init`, `n` iterations left, at index `i`. -/
def initLoop {F : Type} : Nat → Nat → List (STask F) → Except UB (List (STask F))
  | 0, _, tasks => .ok tasks
  | n + 1, i, tasks =>
    if i < tasks.length then initLoop n (i + 1) (tasks.set i ⟨none, false⟩) else .error .oobWrite

/-- Src/scheduler.c:37-43 `Scheduler_init`. -/
def init {F : Type} (tasks : List (STask F)) (num_of_tasks : U32) : Except UB (List (STask F)) :=
  initLoop num_of_tasks.toNat 0 tasks

/-- Src/scheduler.c:48-55: the loop of `Scheduler_addTask`. -/
def addLoop {F : Type} (new_task : STask F) : Nat → Nat → List (STask F) → Except UB (Bool × List (STask F))
  | 0, _, tasks => .ok (false, tasks)
  | n + 1, i, tasks =>
    match tasks[i]? with
    | none => .error .oobRead
    | some t =>
      match t.function with
      | none => .ok (true, tasks.set i ⟨new_task.function, new_task.active⟩)
      | some _ => addLoop new_task n (i + 1) tasks

/-- Src/scheduler.c:45-57 `Scheduler_addTask`. -/
def addTask {F : Type} (tasks : List (STask F)) (max_num_tasks : U32) (new_task : STask F) :
    Except UB (Bool × List (STask F)) :=
  addLoop new_task max_num_tasks.toNat 0 tasks

/-- Src/scheduler.c:61-65: the loop of `Scheduler_run`. -/
def runLoop {F G : Type} (call : F → World F G → World F G) : Nat → Nat → World F G → Except UB (World F G)
  | 0, _, w => .ok w
  | n + 1, i, w =>
    match w.tasks[i]? with
    | none => .error .oobRead
    | some t =>
      match t.function with
      | none => runLoop call n (i + 1) w
      | some f => if t.active then runLoop call n (i + 1) (call f w) else runLoop call n (i + 1) w

/-- Src/scheduler.c:59-66 `Scheduler_run`. -/
def run {F G : Type} (call : F → World F G → World F G) (w : World F G) (num_of_tasks : U32) :
    Except UB (World F G) :=
  runLoop call num_of_tasks.toNat 0 w

end IMU.Scheduler
