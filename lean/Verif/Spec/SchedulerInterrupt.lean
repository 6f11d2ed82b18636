import Verif.Model.SchedulerInterrupt
import Verif.Spec.Scheduler

/-! # Interrupt handlers that use the scheduler -/

namespace IMU.Spec
open Scheduler

variable {F G : Type}

/-- A handler that adds tasks to the table of `n` slots with `Scheduler_addTask`, one after the other. -/
def handlerAdds (n : U32) (adds : List (STask F)) (w : World F G) : World F G :=
  match addAll n w.tasks adds with
  | .ok (_, tasks) => { w with tasks := tasks }
  | .error _ => w

/-- A handler that empties the table with `Scheduler_init`. -/
def handlerInits (n : U32) (w : World F G) : World F G :=
  match init w.tasks n with
  | .ok tasks => { w with tasks := tasks }
  | .error _ => w

/-- A handler that runs the tasks with `Scheduler_run`. -/
def handlerRuns (call : F → World F G → World F G) (n : U32) (w : World F G) : World F G :=
  match run call w n with
  | .ok w' => w'
  | .error _ => w

/-- A handler that comes at one point only. -/
def onlyAt {P : Type} [DecidableEq P] (i : Nat) (p : P) (h : World F G → World F G) (j : Nat) (q : P) :
    World F G → World F G :=
  if j = i ∧ q = p then h else id

/-- A task function that leaves the table alone. -/
def acting (act : F → G → G) (f : F) (w : World F G) : World F G := { w with rest := act f w.rest }

end IMU.Spec
