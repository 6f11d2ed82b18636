import Verif.Model.Scheduler

/-!
# What a run of the scheduler shows of an entry
-/

namespace IMU.Spec
open IMU.Scheduler
variable {F G : Type}

/-- An entry of the table as a run of the scheduler shows it. -/
inductive Seen (F : Type) where
  | empty
  | inactive
  | active (f : F)
  deriving DecidableEq

/-- Empty, inactive, or active and with which function; of an inactive entry not which function it has, and of an empty one
not whether it is marked active. -/
def seen (t : STask F) : Seen F :=
  match t.function with
  | none => .empty
  | some f => if t.active then .active f else .inactive

/-- The steps a run takes for an entry. -/
def seenSteps : Seen F → Nat
  | .empty => 3
  | .inactive => 5
  | .active _ => 7

/-- The first free entry, the number of entries if there is none. -/
def firstFree (tasks : List (STask F)) : Nat := tasks.findIdx fun t => t.function.isNone

/-- What a run finds in `n` entries from entry `i` on, if the task functions may change the table: every entry as it is when
its turn comes, after the functions of the active entries before it. -/
def found (call : F → World F G → World F G) : Nat → Nat → World F G → List (Seen F)
  | 0, _, _ => []
  | n + 1, i, w =>
    match w.tasks[i]?.map seen with
    | none => []
    | some (.active f) => .active f :: found call n (i + 1) (call f w)
    | some s => s :: found call n (i + 1) w

end IMU.Spec
