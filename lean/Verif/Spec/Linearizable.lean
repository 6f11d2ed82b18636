import Verif.Spec.Queue

/-!
# Linearizable histories of two callers

A history is what the callers see: which operation a caller starts, which answer it gets, in the order of time.  It is
linearizable (Herlihy and Wing) if every operation can be given one instant between its start and its answer, so that
the operations carried out one after the other at these instants give exactly these answers.
-/

namespace IMU.Spec

section
variable {Op Obs S : Type}

/-- What a caller sees. -/
inductive HEv (Op Obs : Type) where
  | call (op : Op)
  | ret (r : Obs)
  deriving DecidableEq

/-- The same with the instants: at `lin op r` the operation takes effect and its answer is fixed. -/
inductive XEv (Op Obs : Type) where
  | vis (e : HEv Op Obs)
  | lin (op : Op) (r : Obs)

/-- Where a caller is. -/
inductive Phase (Op Obs : Type) where
  | idle
  | called (op : Op)
  | done (r : Obs)

/-- The events of one caller, from phase `ph` on: start of an operation, its instant, its answer, and again; it may
stop anywhere. -/
def Follows : Phase Op Obs → List (XEv Op Obs) → Prop
  | _, [] => True
  | .idle, .vis (.call op) :: l => Follows (.called op) l
  | .called op, .lin op' r :: l => op' = op ∧ Follows (.done r) l
  | .done r, .vis (.ret r') :: l => r' = r ∧ Follows .idle l
  | _, _ :: _ => False

/-- The operations carried out one after the other give these answers. -/
def Legal (step : S → Op → Obs × S) : S → List (Op × Obs) → Prop
  | _, [] => True
  | s, (op, r) :: l => (step s op).1 = r ∧ Legal step (step s op).2 l

/-- The visible event, if it is one. -/
def visible : Bool × XEv Op Obs → Option (Bool × HEv Op Obs)
  | (t, .vis e) => some (t, e)
  | (_, .lin ..) => none

/-- The event, if it belongs to caller `t`. -/
def ofCaller (t : Bool) : Bool × XEv Op Obs → Option (XEv Op Obs)
  | (t', e) => if t' = t then some e else none

/-- The operation and its answer, if this is an instant. -/
def instant : Bool × XEv Op Obs → Option (Op × Obs)
  | (_, .vis _) => none
  | (_, .lin op r) => some (op, r)

/-- The history `h` is linearizable for the sequential object `step`, `s`. -/
def Linearizable (step : S → Op → Obs × S) (s : S) (h : List (Bool × HEv Op Obs)) : Prop :=
  ∃ x : List (Bool × XEv Op Obs), x.filterMap visible = h ∧
    (∀ t, Follows .idle (x.filterMap (ofCaller t))) ∧ Legal step s (x.filterMap instant)

end

instance : DecidableEq (HEv QOp QObs) := inferInstance

/-- The events of caller `t`. -/
def eventsOf {Op Obs : Type} (t : Bool) (h : List (Bool × HEv Op Obs)) : List (HEv Op Obs) :=
  h.filterMap fun e => if e.1 = t then some e.2 else none

/-- The elements that were accepted, in this order; the last one also if its answer is still outstanding. -/
def accepted : List (HEv QOp QObs) → List (List Byte)
  | .call (.enq e) :: .ret (true, _) :: l => e :: accepted l
  | .call (.enq _) :: .ret (false, _) :: l => accepted l
  | [.call (.enq e)] => [e]
  | _ => []

/-- The elements that were delivered, in this order. -/
def delivered (l : List (HEv QOp QObs)) : List (List Byte) :=
  l.filterMap fun
    | .ret (_, x) => x
    | .call _ => none

/-- Only enqueues are started. -/
def OnlyEnq (l : List (HEv QOp QObs)) : Prop := ∀ op, .call op ∈ l → ∃ e, op = .enq e

/-- Only dequeues are started. -/
def OnlyDeq (l : List (HEv QOp QObs)) : Prop := ∀ op, .call op ∈ l → op = .deq

end IMU.Spec
