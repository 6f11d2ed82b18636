import Verif.Model.LeakJson
import Verif.Spec.JsonCalls

/-!
# How many steps building a JSON text takes
-/

namespace IMU.Spec.JsonBuildCost
open Spec.Json

/-- One addition to the text `t`: the text, the key and the value are measured and the last character is looked at, with
a comma if it is a quote; if there is room, key and value are copied and measured once more. -/
def addSteps (size : Nat) (t : List Byte) (x : List Byte × List Byte) : Nat :=
  t.length + x.1.length + x.2.length + 7 + (if t.getLast? = some 34#8 then 4 else 0) +
    if (add size t x).1 then 3 * (x.1.length + x.2.length) + 14 else 0

/-- Several additions in turn. -/
def additionSteps (size : Nat) (t : List Byte) : List (List Byte × List Byte) → Nat
  | [] => 0
  | x :: l => addSteps size t x + additionSteps size (add size t x).2 l

/-- The closing brace. -/
def endSteps (size : Nat) (t : List Byte) : Nat := t.length + 2 + if t.length + 2 ≤ size then 2 else 0

/-- Several `Json_addData` calls on one buffer, observed. -/
def addAllT (buffer : Ptr) (size : SizeT) : List (Ptr × Ptr) → T (List Bool)
  | [] => pure []
  | (key, value) :: l => do
    let r ← IMU.Json.addDataT buffer size key value
    let rs ← addAllT buffer size l
    return r :: rs

/-- `Json_startString`, the additions, `Json_endString`, observed. -/
def buildT (buffer : Ptr) (size : SizeT) (l : List (Ptr × Ptr)) : T (List Bool) := do
  let a ← IMU.Json.startStringT buffer size
  let rs ← addAllT buffer size l
  let e ← IMU.Json.endStringT buffer size
  return a :: rs ++ [e]

/-- The lengths of the documents with the first 0, 1, 2, ... members, added up. -/
def lengths (l : List (List Byte × List Byte)) : Nat :=
  ((List.range (l.length + 1)).map fun i => (document (l.take i)).length).sum

end IMU.Spec.JsonBuildCost
