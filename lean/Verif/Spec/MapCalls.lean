import Verif.Model.Map
import Verif.Spec.Map
import Verif.Spec.Frame

/-! # Histories of map calls -/

namespace IMU.Props
open Spec IMU.Map

inductive MapKind where
  | ins | get
  deriving DecidableEq

/-- One call: function, the caller's memory (arbitrary apart from the objects holding the two arrays)
and the addresses of key and value. -/
structure MapCall where
  kind : MapKind
  w : Mem
  kblk : Nat
  koff : Nat
  vblk : Nat
  voff : Nat

/-- Memory at the call: the caller's, with the objects `kb`, `vb` of the arrays as the map left them. -/
def MapCall.mem (c : MapCall) (kb vb : Nat) (m : Mem) : Mem :=
  { c.w with bytes := fun b => if b = kb ∨ b = vb then m.bytes b else c.w.bytes b }

/-- Key and value arguments are valid and outside the objects of the arrays. -/
structure MapCall.Valid (c : MapCall) (kb vb ks vs : Nat) : Prop where
  k1 : c.kblk ≠ kb
  k2 : c.kblk ≠ vb
  v1 : c.vblk ≠ kb
  v2 : c.vblk ≠ vb
  kl : c.koff + ks ≤ (c.w.bytes c.kblk).length
  vl : c.voff + vs ≤ (c.w.bytes c.vblk).length

def MapCall.key (c : MapCall) (ks : Nat) : Bytes := slice (c.w.bytes c.kblk) c.koff ks

def MapCall.op (c : MapCall) (ks vs : Nat) : MapOp :=
  match c.kind with
  | .ins => .ins (c.key ks) (slice (c.w.bytes c.vblk) c.voff vs)
  | .get => .get (c.key ks)

/-- Execute one call with the modelled code; the error is the undefined behaviour. -/
def MapCall.exec (c : MapCall) (kb vb vs : Nat) (map : MapT) (m : Mem) : Except UB (MapObs × MapT × Mem) :=
  match c.kind with
  | .ins => match insert (some map) (ptr c.kblk c.koff) (ptr c.vblk c.voff) (c.mem kb vb m) with
    | .ok (r, some map') m' => .ok ((r, none), map', m')
    | .ok (_, none) _ => .error .nullDeref
    | .ub e => .error e
  | .get => match getValue (some map) (ptr c.kblk c.koff) (ptr c.vblk c.voff) (c.mem kb vb m) with
    | .ok r m' => .ok ((r, if r then some (slice (m'.bytes c.vblk) c.voff vs) else none), map, m')
    | .ub e => .error e

def mapExecAll (kb vb vs : Nat) : MapT → Mem → List MapCall → Except UB (List MapObs × MapT × Mem)
  | map, m, [] => .ok ([], map, m)
  | map, m, c :: cs =>
    match c.exec kb vb vs map m with
    | .error e => .error e
    | .ok (o, map', m') =>
      match mapExecAll kb vb vs map' m' cs with
      | .error e => .error e
      | .ok (os, map'', m'') => .ok (o :: os, map'', m'')

/-- Only the two arrays may change in an insert, only the caller's value in a lookup. -/
def MapCall.Frame (c : MapCall) (kb ko kn vb vo vn vs : Nat) (m m' : Mem) : Prop :=
  match c.kind with
  | .ins => m'.words = m.words ∧ (∀ x, (m'.bytes x).length = (m.bytes x).length) ∧
      ∀ x i, ¬ (x = kb ∧ ko ≤ i ∧ i < ko + kn) → ¬ (x = vb ∧ vo ≤ i ∧ i < vo + vn) →
        (m'.bytes x)[i]? = (m.bytes x)[i]?
  | .get => OnlyChanged m m' c.vblk c.voff vs

end IMU.Props
