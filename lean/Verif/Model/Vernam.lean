import Verif.Model.Utils
import Verif.C.Str

/-!
# Model of Src/crypto/vernam_cipher.c
-/

namespace IMU.Vernam
open Utils

/-- Src/crypto/vernam_cipher.c:52-55, 79-82: the variable `c`. -/
def keyBase (k : Byte) : Int := if isLowerChar k then 97 else 65

/-- Src/crypto/vernam_cipher.c:57-60, 84-87: `ascii_val`. -/
def asciiVal (c : Byte) : Int := if isUpperChar c then 65 else 97

/-- Src/crypto/vernam_cipher.c:62-64.  `%` truncates towards zero; no intermediate value leaves `int`. -/
def encryptChar (c k : Byte) : Byte :=
  let temp := (c.toInt - asciiVal c + k.toInt - keyBase k).tmod 26
  BitVec.ofInt 8 (temp + asciiVal c)

/-- Src/crypto/vernam_cipher.c:89-91.  The operands are plain `char`s; the conversion of `cipher` to `char` is
modular. -/
def decryptChar (charSigned : Bool) (c k : Byte) : Byte :=
  let cipher := (charVal charSigned c - asciiVal c) - (charVal charSigned k - keyBase k)
  BitVec.ofInt 8 (if cipher < 0 then cipher + 26 + asciiVal c else cipher + asciiVal c)

/-- Src/crypto/vernam_cipher.c:45-70 `VernamCipher_encrypt`; `msg[i]` and `key[i]` are read once.  The cast
`(int32_t)msg_length` is modular. -/
def encrypt (msg key : Ptr) (key_length : U32) : C Bool := do
  let msg_length ← strlen msg
  if BitVec.ofNat 32 msg_length = key_length then
    forN key_length.toInt.toNat 0 (fun i _ => do
      let c ← load (msg.addN i)
      if isAlpha c then
        let k ← load (key.addN i)
        store (msg.addN i) (encryptChar c k)
      else pure ()) ()
    return true
  else return false

/-- Src/crypto/vernam_cipher.c:72-97 `VernamCipher_decrypt`. -/
def decrypt (charSigned : Bool) (msg key : Ptr) (key_length : U32) : C Bool := do
  let msg_length ← strlen msg
  if BitVec.ofNat 32 msg_length = key_length then
    forN key_length.toInt.toNat 0 (fun i _ => do
      let c ← load (msg.addN i)
      if isAlpha c then
        let k ← load (key.addN i)
        store (msg.addN i) (decryptChar charSigned c k)
      else pure ()) ()
    return true
  else return false

end IMU.Vernam
