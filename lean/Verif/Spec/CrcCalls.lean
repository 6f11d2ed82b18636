import Verif.Model.CrcVariants
import Verif.Spec.CrcCatalogue

/-! # Calls of the CRC functions -/

namespace IMU.Spec.Crc

/-- The interface of a CRC function: data, length, `final_crc`, and what `last_crc_ptr` points to.  Functions
without the parameter `final_crc` ignore it. -/
abbrev CrcFn (w : Nat) := Ptr → U32 → Bool → Option (BitVec w) → C (BitVec w)

/-- `f` is one of the 45 functions, and `e` the entry of the catalogue under its name. -/
inductive Shipped : (w : Nat) → Entry w → CrcFn w → Prop where
  | crc8 {v : IMU.Crc.Variant 8} {e : Entry 8} (hv : v ∈ IMU.Crc.variants8) (he : e ∈ catalogue8) (hn : v.name = e.name) :
      Shipped 8 e (v.call IMU.Crc.base8)
  | crc16 {v : IMU.Crc.Variant 16} {e : Entry 16} (hv : v ∈ IMU.Crc.variants16) (he : e ∈ catalogue16) (hn : v.name = e.name) :
      Shipped 16 e (v.call IMU.Crc.base16)
  | crc32 {v : IMU.Crc.Variant 32} {e : Entry 32} (hv : v ∈ IMU.Crc.variants32) (he : e ∈ catalogue32) (hn : v.name = e.name) :
      Shipped 32 e (v.call IMU.Crc.base32)

/-- A piece of a message: object, offset, number of bytes. -/
structure Piece where
  b : Nat
  o : Nat
  n : U32

/-- The bytes of a piece. -/
def Piece.data (m : Mem) (p : Piece) : List Byte := slice (m.bytes p.b) p.o p.n.toNat

/-- The piece lies within its object. -/
def Piece.In (m : Mem) (p : Piece) : Prop := p.o + p.n.toNat ≤ (m.bytes p.b).length

/-- The checksum of a message that arrives in pieces: every call gets the result of the one before, and only the last
one is told that it is the last. -/
def chunked {w : Nat} (f : CrcFn w) (last : Option (BitVec w)) (p : Piece) : List Piece → C (BitVec w)
  | [] => f (ptr p.b p.o) p.n true last
  | q :: rest => do
    let r ← f (ptr p.b p.o) p.n false last
    chunked f (some r) q rest

end IMU.Spec.Crc
