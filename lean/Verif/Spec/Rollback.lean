import Verif.Spec.Queue

/-! # What a saved structure finds when it is put back -/

namespace IMU.Spec

/-- The elements whose enqueueing was reported as done, in this order. -/
def taken : List QOp → List QObs → List (List Byte)
  | .enq e :: ops, o :: os => if o.1 then e :: taken ops os else taken ops os
  | _ :: ops, _ :: os => taken ops os
  | _, _ => []

/-- Writing `acc`, one after the other, to the places `s`, `s + 1`, ... counted round a circle of `cap` places of which
`ys` are the first. -/
def overwrite (cap : Nat) (ys : List (List Byte)) (s : Nat) : List (List Byte) → List (List Byte)
  | [] => ys
  | e :: acc => overwrite cap (ys.set (s % cap) e) (s + 1) acc

end IMU.Spec
