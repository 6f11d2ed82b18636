import Verif.Spec.Map

/-! # Which keys a map keeps -/

namespace IMU.Spec

/-- The pairs that are inserted, in this order. -/
def inserted : List MapOp → List (Bytes × Bytes)
  | [] => []
  | .ins k v :: ops => (k, v) :: inserted ops
  | .get _ :: ops => inserted ops

/-- The different keys in the order of their first occurrence. -/
def firsts (ks : List Bytes) : List Bytes := ks.foldl (fun acc k => if k ∈ acc then acc else acc ++ [k]) []

/-- What a map with room for `n` keys keeps of the insertions: for each of the first `n` keys its last value. -/
def kept (n : Nat) (ops : List MapOp) (k : Bytes) : Option Bytes :=
  if k ∈ (firsts ((inserted ops).map Prod.fst)).take n then latest (inserted ops) k else none

end IMU.Spec
