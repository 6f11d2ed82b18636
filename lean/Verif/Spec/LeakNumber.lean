import Verif.Spec.Utils

/-!
# What can be told of a text that is read as a number (independent of the model)
-/

namespace IMU.Spec.LeakNumber

/-- Where a character lies. -/
inductive Side where
  | below
  | digit
  | above
  deriving DecidableEq, Repr

/-- Digit, or on which side of the digits, as numbers of type `char`. -/
def side (charSigned : Bool) (c : Byte) : Side :=
  if IsDigit c then .digit else if charVal charSigned c < 48 then .below else .above

/-- The number of digits at the front, and on which side the character behind them lies. -/
def front (charSigned : Bool) : List Byte → Nat × Option Side
  | [] => (0, none)
  | c :: s => if IsDigit c then ((front charSigned s).1 + 1, (front charSigned s).2) else (0, some (side charSigned c))

/-- How near a number of ten digits is to `2^32 = 4294967296`: smaller in the first nine digits, equal in the first nine
digits and below or not, greater in the first nine digits. -/
def level (v : Nat) : Nat :=
  if v < 4294967290 then 0 else if v < 4294967296 then 1 else if v < 4294967300 then 2 else 3

/-- What can be told of a text: of more than ten characters only the first one matters, and the size of the number
matters only if there are ten digits. -/
def told (charSigned : Bool) (s : List Byte) : (Nat × Option Side) × Nat :=
  (front charSigned (if 10 < s.length then s.take 1 else s),
    if s.length = 10 ∧ ∀ c ∈ s, IsDigit c then level (decimal s) else 0)

end IMU.Spec.LeakNumber
