import Verif.Spec.Scheduler

/-! # Tasks that add tasks -/

namespace IMU.Spec
open Scheduler

/-- A task function `f` that adds the tasks `spawn f`, in order and without looking at the answers, to the table of `n`
slots it is itself in, and does `act f` to the rest of the world. -/
def adding {F G : Type} (spawn : F → List (STask F)) (act : F → G → G) (n : U32) (f : F) (w : World F G) : World F G :=
  ⟨match addAll n w.tasks (spawn f) with
    | .ok (_, tasks) => tasks
    | .error _ => w.tasks, act f w.rest⟩

/-- What a task adds when its turn comes: nothing if it is inactive, and entries without function do not count. -/
def offspring {F : Type} (spawn : F → List (STask F)) (t : STask F) : List (STask F) :=
  match t.function with
  | some f => if t.active then proper (spawn f) else []
  | none => []

/-- Breadth first: at most `k` tasks, a task's additions after everything that waits already. -/
def breadthFirst {F : Type} (spawn : F → List (STask F)) : Nat → List (STask F) → List (STask F)
  | 0, _ => []
  | _ + 1, [] => []
  | k + 1, t :: ts => t :: breadthFirst spawn k (ts ++ offspring spawn t)

/-- Starting over from inside a task: the functions for which `fresh` gives a list empty the table of `n` slots with
`Scheduler_init` and add these tasks, the others leave the table alone; each does `act f` to the rest of the world. -/
def restarting {F G : Type} (fresh : F → Option (List (STask F))) (act : F → G → G) (n : U32) (f : F) (w : World F G) :
    World F G :=
  ⟨match fresh f with
    | none => w.tasks
    | some adds =>
      match init w.tasks n with
      | .error _ => w.tasks
      | .ok empty =>
        match addAll n empty adds with
        | .ok (_, tasks) => tasks
        | .error _ => empty, act f w.rest⟩

end IMU.Spec
