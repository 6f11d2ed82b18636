import Verif.C.Mem

/-!
# Specification of cyclic redundancy checks

The "Rocksoft model": a register of `w` bits, one message bit at a time.
-/

namespace IMU.Spec.Crc

/-- One message bit enters the register. -/
def feed {w : Nat} (P : BitVec w) (r : BitVec w) (bit : Bool) : BitVec w :=
  r <<< 1 ^^^ (if r.msb != bit then P else 0#w)

/-- The register after some message bits. -/
def crcBits {w : Nat} (P : BitVec w) (r : BitVec w) (bits : List Bool) : BitVec w := bits.foldl (feed P) r

/-- The bits of a byte, most significant first. -/
def bitsMSB (b : Byte) : List Bool :=
  [b.getLsbD 7, b.getLsbD 6, b.getLsbD 5, b.getLsbD 4, b.getLsbD 3, b.getLsbD 2, b.getLsbD 1, b.getLsbD 0]

/-- The bits of a message in the order in which they enter the register. -/
def bits (refin : Bool) (msg : List Byte) : List Bool :=
  msg.flatMap fun b => if refin then (bitsMSB b).reverse else bitsMSB b

/-- The parameters of a CRC. -/
structure Params (w : Nat) where
  poly : BitVec w
  init : BitVec w
  refin : Bool
  refout : Bool
  xorout : BitVec w
  deriving DecidableEq

/-- The CRC of a message. -/
def crc {w : Nat} (p : Params w) (msg : List Byte) : BitVec w :=
  let r := crcBits p.poly p.init (bits p.refin msg)
  (if p.refout then r.reverse else r) ^^^ p.xorout

/-- One step of the right-shifting algorithm. -/
def stepLSB {w : Nat} (Q : BitVec w) (r : BitVec w) : BitVec w := r >>> 1 ^^^ (if r.getLsbD 0 then Q else 0#w)

/-- `f` applied `n` times. -/
def rounds {α : Type} (f : α → α) : Nat → α → α
  | 0, x => x
  | n + 1, x => rounds f n (f x)

/-- The textbook right-shifting byte-at-a-time algorithm: xor the byte into the low bits, then eight steps. -/
def crcLSB {w : Nat} (Q : BitVec w) (r : BitVec w) (msg : List Byte) : BitVec w :=
  msg.foldl (fun r b => rounds (stepLSB Q) 8 (r ^^^ b.setWidth w)) r

end IMU.Spec.Crc
