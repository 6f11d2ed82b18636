import Verif.Spec.Utils

/-! # Records of fields of fixed sizes -/

namespace IMU.Spec

/-- The formats of the fields for which Src/utils.c has a pair of functions. -/
inductive Kind
  | u8 | be16 | be24 | be32 | le16 | le24 | le32
  deriving DecidableEq

/-- The number of bytes of a field. -/
def Kind.size : Kind → Nat
  | .u8 => 1
  | .be16 | .le16 => 2
  | .be24 | .le24 => 3
  | .be32 | .le32 => 4

/-- The number that the bytes of a field stand for. -/
def Kind.value : Kind → List Byte → Nat
  | .u8 | .be16 | .be24 | .be32 => valueBE
  | .le16 | .le24 | .le32 => valueLE

/-- A field at an offset. -/
structure Slot where
  o : Nat
  kind : Kind

/-- The fields have no byte in common. -/
def Slot.Apart (s t : Slot) : Prop := s.o + s.kind.size ≤ t.o ∨ t.o + t.kind.size ≤ s.o

/-- Fields one behind the other. -/
def packed (o : Nat) : List Kind → List Slot
  | [] => []
  | k :: ks => ⟨o, k⟩ :: packed (o + k.size) ks

/-- The size of a record. -/
def total : List Kind → Nat
  | [] => 0
  | k :: ks => k.size + total ks

end IMU.Spec
