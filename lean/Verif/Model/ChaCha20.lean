import Verif.Model.Utils
import Verif.Model.BitManipulation

/-!
# Model of Src/crypto/chacha20.c
-/

namespace IMU.ChaCha
open Utils Bits

/-- A call of `BitManipulation_rotl32`, as in Src/crypto/chacha20.c:67. -/
def rotl (x n : U32) : C U32 :=
  match rotl32 x n with
  | some y => pure y
  | none => C.ub .shiftRange

/-- Src/crypto/chacha20.c:64-74 `QuarterRound`: values of the four variables before and after. -/
def quarterRound (a b c d : U32) : C (U32 × U32 × U32 × U32) := do
  let a := a + b
  let d ← rotl (d ^^^ a) 16#32
  let c := c + d
  let b ← rotl (b ^^^ c) 12#32
  let a := a + b
  let d ← rotl (d ^^^ a) 8#32
  let c := c + d
  let b ← rotl (b ^^^ c) 7#32
  return (a, b, c, d)

/-- Src/crypto/chacha20.c:80-95: the local variables `x0` ... `x15` of `Block`. -/
structure Vars where
  (x0 x1 x2 x3 x4 x5 x6 x7 x8 x9 x10 x11 x12 x13 x14 x15 : U32)

/-- Src/crypto/chacha20.c:97-106, the body of the loop of `Block`. -/
def rounds (x : Vars) : C Vars := do
  let (x0, x4, x8, x12) ← quarterRound x.x0 x.x4 x.x8 x.x12
  let (x1, x5, x9, x13) ← quarterRound x.x1 x.x5 x.x9 x.x13
  let (x2, x6, x10, x14) ← quarterRound x.x2 x.x6 x.x10 x.x14
  let (x3, x7, x11, x15) ← quarterRound x.x3 x.x7 x.x11 x.x15
  let (x0, x5, x10, x15) ← quarterRound x0 x5 x10 x15
  let (x1, x6, x11, x12) ← quarterRound x1 x6 x11 x12
  let (x2, x7, x8, x13) ← quarterRound x2 x7 x8 x13
  let (x3, x4, x9, x14) ← quarterRound x3 x4 x9 x14
  return ⟨x0, x1, x2, x3, x4, x5, x6, x7, x8, x9, x10, x11, x12, x13, x14, x15⟩

/-- Src/crypto/chacha20.c:80-95 and again 108-123: constants, key words, counter and nonce words, read in
this order. -/
def readWords (key : Ptr) (counter : U32) (nonce : Ptr) : C Vars := do
  let x4 ← deserialize32LE (key.addN 0)
  let x5 ← deserialize32LE (key.addN 4)
  let x6 ← deserialize32LE (key.addN 8)
  let x7 ← deserialize32LE (key.addN 12)
  let x8 ← deserialize32LE (key.addN 16)
  let x9 ← deserialize32LE (key.addN 20)
  let x10 ← deserialize32LE (key.addN 24)
  let x11 ← deserialize32LE (key.addN 28)
  let x13 ← deserialize32LE (nonce.addN 0)
  let x14 ← deserialize32LE (nonce.addN 4)
  let x15 ← deserialize32LE (nonce.addN 8)
  return ⟨0x61707865#32, 0x3320646e#32, 0x79622d32#32, 0x6b206574#32, x4, x5, x6, x7, x8, x9, x10, x11,
    counter, x13, x14, x15⟩

/-- Src/crypto/chacha20.c:76-142 `Block`. -/
def block (key : Ptr) (counter : U32) (nonce : Ptr) (out : Ptr) : C Unit := do
  let x ← readWords key counter nonce
  let x ← forN 10 0 (fun _ x => rounds x) x
  let y ← readWords key counter nonce
  serialize32LE (out.addN 0) (x.x0 + y.x0)
  serialize32LE (out.addN 4) (x.x1 + y.x1)
  serialize32LE (out.addN 8) (x.x2 + y.x2)
  serialize32LE (out.addN 12) (x.x3 + y.x3)
  serialize32LE (out.addN 16) (x.x4 + y.x4)
  serialize32LE (out.addN 20) (x.x5 + y.x5)
  serialize32LE (out.addN 24) (x.x6 + y.x6)
  serialize32LE (out.addN 28) (x.x7 + y.x7)
  serialize32LE (out.addN 32) (x.x8 + y.x8)
  serialize32LE (out.addN 36) (x.x9 + y.x9)
  serialize32LE (out.addN 40) (x.x10 + y.x10)
  serialize32LE (out.addN 44) (x.x11 + y.x11)
  serialize32LE (out.addN 48) (x.x12 + y.x12)
  serialize32LE (out.addN 52) (x.x13 + y.x13)
  serialize32LE (out.addN 56) (x.x14 + y.x14)
  serialize32LE (out.addN 60) (x.x15 + y.x15)

/-- Src/crypto/chacha20.c:155-162 and 164-171: one block with index `j` (`uint32_t`), of which the first `n`
bytes are used.  `ks` is the local array `key_stream`. -/
def cryptBlock (ks : Nat) (plaintext key nonce : Ptr) (inc : U32) (result : Ptr) (j : U32) (n : Nat) : C Unit :=
  localArray ks (List.replicate 64 0#8) (do
    block key (j + inc) nonce (ptr ks 0)
    forN n 0 (fun i _ => do
      let p ← load (plaintext.addN (j * 64#32 + BitVec.ofNat 32 i).toNat)
      let k ← load ((ptr ks 0).addN i)
      store (result.addN (j * 64#32 + BitVec.ofNat 32 i).toNat) (p ^^^ k)) ())

/-- Src/crypto/chacha20.c:144-172 `Chacha20_crypt`. -/
def crypt (ks : Nat) (plaintext : Ptr) (plaintext_len : U32) (key nonce : Ptr) (inc : U32) (result : Ptr) :
    C Unit := do
  let blocks := plaintext_len / 64#32
  let remaining_bytes := plaintext_len % 64#32
  forN blocks.toNat 0 (fun j _ => cryptBlock ks plaintext key nonce inc result (BitVec.ofNat 32 j) 64) ()
  if 0#32 ≠ remaining_bytes then
    cryptBlock ks plaintext key nonce inc result blocks remaining_bytes.toNat
  else pure ()

end IMU.ChaCha
