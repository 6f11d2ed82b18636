import Verif.Model.Utils
import Verif.C.Str

/-!
# Model of Src/crypto/caesar_cipher.c
-/

namespace IMU.Caesar
open Utils

/-- Src/crypto/caesar_cipher.c:50-53, 65-68: `ascii_val`. -/
def asciiVal (c : Byte) : Nat := if isUpperChar c then 65 else 97

/-- Src/crypto/caesar_cipher.c:54: `((int) % 26U) + ascii_val` is unsigned arithmetic, then converted to `uint8_t`. -/
def encryptChar (c shift : Byte) : Byte :=
  (BitVec.ofInt 32 ((c.toNat : Int) + shift.toNat - asciiVal c) % 26#32 + BitVec.ofNat 32 (asciiVal c)).setWidth 8

/-- Src/crypto/caesar_cipher.c:69; the difference may be negative and is converted to `unsigned`. -/
def decryptChar (c shift : Byte) : Byte :=
  (BitVec.ofInt 32 ((c.toNat : Int) - shift.toNat - asciiVal c) % 26#32 + BitVec.ofNat 32 (asciiVal c)).setWidth 8

/-- Src/crypto/caesar_cipher.c:45-58 `CaesarCipher_encrypt`; `msg[i]` is read once. -/
def encrypt (msg : Ptr) (shift : Byte) : C Unit := do
  let length ← strlen msg
  forN length 0 (fun i _ => do
    let c ← load (msg.addN i)
    if isAlpha c then store (msg.addN i) (encryptChar c shift) else pure ()) ()

/-- Src/crypto/caesar_cipher.c:60-73 `CaesarCipher_decrypt`. -/
def decrypt (msg : Ptr) (shift : Byte) : C Unit := do
  let length ← strlen msg
  forN length 0 (fun i _ => do
    let c ← load (msg.addN i)
    if isAlpha c then store (msg.addN i) (decryptChar c shift) else pure ()) ()

end IMU.Caesar
