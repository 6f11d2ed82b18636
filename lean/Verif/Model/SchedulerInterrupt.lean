import Verif.Model.Scheduler

/-!
# Src/scheduler.c with interrupts

`irq i p` is what interrupt handlers do at point `p` of the round for slot `i`: an arbitrary transformer of the world, task
table included.  The accesses of the interrupted function to the table are single reads and writes of members in program
order; the loop counter and the members of `new_task` are not shared.  Simplification: handlers terminate without undefined
behaviour of their own.
-/

namespace IMU.Scheduler

/-- Points of one round of the loop in Src/scheduler.c:48-55. -/
inductive AddPoint where
  | test    -- before line 49 reads `function`
  | found   -- after it was read as null, before line 50 stores `function`
  | stored  -- between lines 50 and 51
  | done    -- after line 51
  deriving DecidableEq

/-- Points of one round of the loop in Src/scheduler.c:61-65. -/
inductive RunPoint where
  | test    -- before line 62 reads `function`
  | flag    -- after it was read as not null, before line 62 reads `active`
  | call    -- after it was read as true, before line 63 reads `function`
  deriving DecidableEq

variable {F G : Type}

/-- Src/scheduler.c:48-55: the loop of `Scheduler_addTask`, `n` rounds left, at slot `i`; without a free slot
`irq i .test` runs before the return in line 56. -/
def addLoopInt (irq : Nat → AddPoint → World F G → World F G) (new_task : STask F) :
    Nat → Nat → World F G → Except UB (Bool × World F G)
  | 0, i, w => .ok (false, irq i .test w)
  | n + 1, i, w =>
    let w := irq i .test w
    match w.tasks[i]? with
    | none => .error .oobRead
    | some t =>
      match t.function with
      | some _ => addLoopInt irq new_task n (i + 1) w
      | none =>
        let w := irq i .found w
        match w.tasks[i]? with
        | none => .error .oobWrite
        | some t =>
          let w := irq i .stored { w with tasks := w.tasks.set i ⟨new_task.function, t.active⟩ }
          match w.tasks[i]? with
          | none => .error .oobWrite
          | some t => .ok (true, irq i .done { w with tasks := w.tasks.set i ⟨t.function, new_task.active⟩ })

/-- Src/scheduler.c:45-57 `Scheduler_addTask`, interrupted. -/
def addTaskInt (irq : Nat → AddPoint → World F G → World F G) (w : World F G) (max_num_tasks : U32) (new_task : STask F) :
    Except UB (Bool × World F G) :=
  addLoopInt irq new_task max_num_tasks.toNat 0 w

/-- Src/scheduler.c:61-65: the loop of `Scheduler_run`; lines 62 and 63 read `function` twice. -/
def runLoopInt (irq : Nat → RunPoint → World F G → World F G) (call : F → World F G → World F G) :
    Nat → Nat → World F G → Except UB (World F G)
  | 0, i, w => .ok (irq i .test w)
  | n + 1, i, w =>
    let w := irq i .test w
    match w.tasks[i]? with
    | none => .error .oobRead
    | some t =>
      match t.function with
      | none => runLoopInt irq call n (i + 1) w
      | some _ =>
        let w := irq i .flag w
        match w.tasks[i]? with
        | none => .error .oobRead
        | some t =>
          if t.active then
            let w := irq i .call w
            match w.tasks[i]? with
            | none => .error .oobRead
            | some t =>
              match t.function with
              | none => .error .nullDeref
              | some f => runLoopInt irq call n (i + 1) (call f w)
          else runLoopInt irq call n (i + 1) w

/-- Src/scheduler.c:59-66 `Scheduler_run`, interrupted. -/
def runInt (irq : Nat → RunPoint → World F G → World F G) (call : F → World F G → World F G) (w : World F G)
    (num_of_tasks : U32) : Except UB (World F G) :=
  runLoopInt irq call num_of_tasks.toNat 0 w

end IMU.Scheduler
