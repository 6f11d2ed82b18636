import Verif.Spec.Base64

/-!
# Other Base64 texts of the same data
-/

namespace IMU.Spec.Base64

/-- The character of Table 1 of RFC 4648 that a character of another alphabet stands for: `-` and `_` of base64url
(RFC 4648, section 5), `,` of the mailbox names of IMAP (RFC 3501, section 5.1.3), and `.`. -/
def standard (c : Byte) : Byte :=
  if c = 45#8 ∨ c = 46#8 then 43#8 else if c = 44#8 ∨ c = 95#8 then 47#8 else c

/-- `s` is the text of `d` in one of these alphabets (or a mixture), with or without the padding. -/
def TextOf (d s : List Byte) : Prop :=
  s.map standard = encode d ∨ s.map standard = (encode d).filter (· ≠ pad)

instance (d s : List Byte) : Decidable (TextOf d s) := by unfold TextOf; infer_instance

/-- The digits of an incomplete last group that matter: the rest of the last one is not used. -/
def lastDigits (a b c : Byte) : List Nat :=
  if c = pad then [value a, value b / 16] else [value a, value b, value c / 4]

/-- The digits of a text that matter. -/
def digits : List Byte → List Nat
  | a :: b :: c :: d :: t =>
    if t = [] ∧ d = pad then lastDigits a b c else [value a, value b, value c, value d] ++ digits t
  | [a, b, c] => lastDigits a b c
  | [a, b] => lastDigits a b pad
  | _ => []

end IMU.Spec.Base64
