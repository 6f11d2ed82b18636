import Verif.Spec.PriorityQueue

/-! # What is left of a value after something has been written over part of it -/

namespace IMU.Spec

/-- The bytes `old` that lay at byte `a` of object `b`, after the bytes `x` were written to byte `o` of object `b'`. -/
def overlay (b a : Nat) (old : List Byte) (b' o : Nat) (x : List Byte) : List Byte :=
  old.mapIdx fun i c => if b = b' ∧ o ≤ a + i then (x[a + i - o]?).getD c else c

/-- The elements `xs`, the first at place `f` of the ring, after `x` was written to byte `eo` of object `eb`. -/
def ringOverlay (cap esz bb bo f : Nat) (xs : List (List Byte)) (eb eo : Nat) (x : List Byte) : List (List Byte) :=
  xs.mapIdx fun k e => overlay bb (bo + ((f + k) % cap) * esz) e eb eo x

/-- The entries `xs`, the first at place `f`, after `x` was written to byte `eo` of object `eb`. -/
def itemsOverlay (esz bb bo f : Nat) (xs : List PItem) (eb eo : Nat) (x : List Byte) : List PItem :=
  xs.mapIdx fun k e => (e.1, overlay bb (bo + (f + k) * esz) e.2 eb eo x)

end IMU.Spec
