import Verif.Model.ChaCha20
import Verif.Model.Base64
import Verif.Spec.JsonCalls

/-!
# Using the modules together: an encrypted field of a JSON document

`send` and `receive` are client code, not part of the library: they only call its functions.
-/

namespace IMU.Spec.Pipeline

/-- Encrypt a message, write the ciphertext as Base64 and put it as the value of `name` into a JSON document. -/
def send (ks : Nat) (msg : Ptr) (len : U32) (key nonce : Ptr) (inc : U32) (cipher text : Ptr) (maxText : SizeT) (json : Ptr)
    (size : SizeT) (name : Ptr) : C Bool := do
  IMU.ChaCha.crypt ks msg len key nonce inc cipher
  let e ← IMU.Base64.encode cipher (len.setWidth 64) text maxText
  let rs ← Json.build json size [(name, text)]
  return e == 0 && rs.all id

/-- Find the field `name`, decode and decrypt it. -/
def receive (ks : Nat) (json : Ptr) (size : SizeT) (name value : Ptr) (maxValue : SizeT) (cipher : Ptr) (len : U32) (key nonce : Ptr)
    (inc : U32) (out : Ptr) : C Bool := do
  let f ← IMU.Json.findByKey json size name value maxValue
  let n ← IMU.strlen value
  let d ← IMU.Base64.decode value (BitVec.ofNat 64 n) cipher (len.setWidth 64)
  IMU.ChaCha.crypt ks cipher len key nonce inc out
  return f && d == 0

end IMU.Spec.Pipeline
