import Verif.Model.Scheduler

/-! # What a schedule is -/

namespace IMU.Spec
open Scheduler

/-- The functions a table asks to be called, in order. -/
def schedule {F : Type} (tasks : List (STask F)) : List F :=
  tasks.filterMap fun t => if t.active then t.function else none

/-- Calling functions one after the other. -/
def callAll {F G : Type} (call : F → World F G → World F G) (w : World F G) (fs : List F) : World F G :=
  fs.foldl (fun w f => call f w) w

/-- The additions that carry a function. -/
def proper {F : Type} (adds : List (STask F)) : List (STask F) := adds.filter (·.function.isSome)

/-- A history of additions. -/
def addAll {F : Type} (n : U32) : List (STask F) → List (STask F) → Except UB (List Bool × List (STask F))
  | tasks, [] => .ok ([], tasks)
  | tasks, t :: ts =>
    match addTask tasks n t with
    | .error e => .error e
    | .ok (r, tasks') =>
      match addAll n tasks' ts with
      | .error e => .error e
      | .ok (rs, tasks'') => .ok (r :: rs, tasks'')

end IMU.Spec
