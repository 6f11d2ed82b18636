import Verif.C.Mem
import Mathlib.Data.Finset.Card

/-!
# Ideal bounded map

The state is the log of successful insertions, oldest first.
-/

namespace IMU.Spec

abbrev Bytes := List Byte

inductive MapOp where
  | ins (key value : Bytes)
  | get (key : Bytes)

/-- Returned status and delivered value. -/
abbrev MapObs := Bool × Option Bytes

/-- The value of the latest insertion for `key`. -/
def latest (log : List (Bytes × Bytes)) (key : Bytes) : Option Bytes :=
  (log.reverse.find? (fun e => e.1 == key)).map Prod.snd

/-- Number of distinct keys. -/
def distinctKeys (log : List (Bytes × Bytes)) : Nat := (log.map Prod.fst).toFinset.card

/-- One operation on the ideal map with room for `cap` keys. -/
def mapStep (cap : Nat) (log : List (Bytes × Bytes)) : MapOp → MapObs × List (Bytes × Bytes)
  | .ins k v =>
    if k ∈ log.map Prod.fst ∨ distinctKeys log < cap then ((true, none), log ++ [(k, v)])
    else ((false, none), log)
  | .get k => (((latest log k).isSome, latest log k), log)

def mapRun (cap : Nat) : List (Bytes × Bytes) → List MapOp → List MapObs × List (Bytes × Bytes)
  | log, [] => ([], log)
  | log, op :: ops =>
    ((mapStep cap log op).1 :: (mapRun cap (mapStep cap log op).2 ops).1,
      (mapRun cap (mapStep cap log op).2 ops).2)

end IMU.Spec
