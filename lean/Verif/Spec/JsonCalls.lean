import Verif.Model.Json
import Verif.Spec.Json
import Verif.Spec.Str

/-!
# Sequences of calls of the JSON builder
-/

namespace IMU.Spec.Json

/-- Several `Json_addData` calls on one buffer; the results in order. -/
def addAll (buffer : Ptr) (size : SizeT) : List (Ptr × Ptr) → C (List Bool)
  | [] => pure []
  | (key, value) :: l => do
    let r ← IMU.Json.addData buffer size key value
    let rs ← addAll buffer size l
    return r :: rs

/-- `Json_startString`, the additions, `Json_endString`; all results in order. -/
def build (buffer : Ptr) (size : SizeT) (l : List (Ptr × Ptr)) : C (List Bool) := do
  let a ← IMU.Json.startString buffer size
  let rs ← addAll buffer size l
  let e ← IMU.Json.endString buffer size
  return a :: rs ++ [e]

/-- The additions as seen from outside: results and final text; `none` if a separator is due when the text already
fills the buffer. -/
def run (size : Nat) (t : List Byte) : List (List Byte × List Byte) → Option (List Bool × List Byte)
  | [] => some ([], t)
  | x :: l =>
    if t.length + (sep t).length < size then
      (run size (add size t x).2 l).map fun r => ((add size t x).1 :: r.1, r.2)
    else none

/-- The pointers `ps` point to the keys and values `l`, all of them outside the bytes `[o, o + n)` of block `b`. -/
def Holds (m : Mem) (b o n : Nat) : List (Ptr × Ptr) → List (List Byte × List Byte) → Prop
  | [], [] => True
  | p :: ps, x :: l => (∃ bk ok bv ov, p = (ptr bk ok, ptr bv ov) ∧ CStr (m.bytes bk) ok x.1 ∧
      CStr (m.bytes bv) ov x.2 ∧ (bk ≠ b ∨ ok + x.1.length + 1 ≤ o ∨ o + n ≤ ok) ∧
      (bv ≠ b ∨ ov + x.2.length + 1 ≤ o ∨ o + n ≤ ov)) ∧ Holds m b o n ps l
  | _, _ => False

end IMU.Spec.Json
