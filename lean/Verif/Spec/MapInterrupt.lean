import Verif.Model.MapInterrupt
import Verif.Spec.Map

/-! # What the arrays of a map hold -/

namespace IMU.Spec
open Map

/-- Bytes of `a` at the positions `S`, of `b` elsewhere. -/
def mixed (S : Nat → Bool) (a b : Bytes) : Bytes :=
  (List.range b.length).map fun i => if S i then a.getD i 0 else b.getD i 0

/-- Key and value at place `j` of arrays at byte `ko` of object `kb` and byte `vo` of object `vb`. -/
def mapSlot (ks vs kb ko vb vo : Nat) (m : Mem) (j : Nat) : Bytes × Bytes :=
  (slice (m.bytes kb) (ko + j * ks) ks, slice (m.bytes vb) (vo + j * vs) vs)

/-- The entries of a map, oldest first. -/
def mapEntries (ks vs kb ko vb vo : Nat) (map : MapT) (m : Mem) : List (Bytes × Bytes) :=
  (List.range map.current_size.toNat).map (mapSlot ks vs kb ko vb vo m)

/-- What a lookup in a list of entries finds. -/
def valueOf (es : List (Bytes × Bytes)) (key : Bytes) : Option Bytes :=
  (es.find? (fun e => e.1 == key)).map Prod.snd

/-- What an insertion into a map of at most `n` entries answers and leaves. -/
def entryPut (n : Nat) (es : List (Bytes × Bytes)) (key value : Bytes) : Bool × List (Bytes × Bytes) :=
  if key ∈ es.map Prod.fst then (true, es.map fun e => if e.1 = key then (key, value) else e)
  else if es.length < n then (true, es ++ [(key, value)])
  else (false, es)

end IMU.Spec
