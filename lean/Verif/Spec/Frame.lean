import Verif.C.Mem

/-! # Frame conditions -/

namespace IMU.Spec

/-- Between `m` and `m'` at most the `n` bytes of object `b` from offset `o` on changed. -/
def OnlyChanged (m m' : Mem) (b o n : Nat) : Prop :=
  m'.words = m.words ∧ (∀ x, x ≠ b → m'.bytes x = m.bytes x) ∧
  (m'.bytes b).length = (m.bytes b).length ∧
  ∀ i, i < o ∨ o + n ≤ i → (m'.bytes b)[i]? = (m.bytes b)[i]?

/-- `ser` stores a `k`-byte value at the destination in the byte order `value`, changes only these
bytes, and is undefined exactly if they are not all inside the object. -/
def Serialises {w : Nat} (ser : Ptr → BitVec w → C Unit) (k : Nat) (value : List Byte → Nat) : Prop :=
  ∀ (b o : Nat) (v : BitVec w) (m : Mem),
    (o + k ≤ (m.bytes b).length → ∃ m', ser (ptr b o) v m = .ok () m' ∧
      value (slice (m'.bytes b) o k) = v.toNat % 256 ^ k ∧ OnlyChanged m m' b o k) ∧
    ((m.bytes b).length < o + k → ser (ptr b o) v m = .ub .oobWrite)

/-- `des` returns the `k`-byte value at the source in the byte order `value`, changes nothing, and is
undefined exactly if the bytes are not all inside the object. -/
def Deserialises {w : Nat} (des : Ptr → C (BitVec w)) (k : Nat) (value : List Byte → Nat) : Prop :=
  ∀ (b o : Nat) (m : Mem),
    (o + k ≤ (m.bytes b).length → ∃ v, des (ptr b o) m = .ok v m ∧
      v.toNat = value (slice (m.bytes b) o k)) ∧
    ((m.bytes b).length < o + k → des (ptr b o) m = .ub .oobRead)

/-- Reading back what was just written gives the value (modulo 2^(8k)); writing back what was just
read leaves memory unchanged. -/
def RoundTrips {w : Nat} (ser : Ptr → BitVec w → C Unit) (des : Ptr → C (BitVec w)) (k : Nat) : Prop :=
  ∀ (b o : Nat) (m : Mem), o + k ≤ (m.bytes b).length →
    (∀ v : BitVec w, ∃ m' v', ser (ptr b o) v m = .ok () m' ∧ des (ptr b o) m' = .ok v' m' ∧
      v'.toNat = v.toNat % 256 ^ k) ∧
    (∃ v, des (ptr b o) m = .ok v m ∧ ser (ptr b o) v m = .ok () m)

end IMU.Spec
