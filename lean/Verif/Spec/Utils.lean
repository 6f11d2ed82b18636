import Verif.C.Mem

/-!
# Specifications for Src/utils.c (independent of the model)
-/

namespace IMU.Spec

/-- ASCII digit. -/
def IsDigit (c : Byte) : Prop := 48 ≤ c.toNat ∧ c.toNat ≤ 57
instance (c : Byte) : Decidable (IsDigit c) := by unfold IsDigit; infer_instance

/-- The number denoted by a string of ASCII digits, most significant first. -/
def decimal (s : List Byte) : Nat := s.foldl (fun acc c => acc * 10 + (c.toNat - 48)) 0

/-- Big-endian value of a byte string. -/
def valueBE (s : List Byte) : Nat := s.foldl (fun acc c => acc * 256 + c.toNat) 0

/-- Little-endian value of a byte string. -/
def valueLE : List Byte → Nat
  | [] => 0
  | c :: s => c.toNat + 256 * valueLE s

/-- ASCII letters. -/
def upperLetters : List Char := "ABCDEFGHIJKLMNOPQRSTUVWXYZ".toList
def lowerLetters : List Char := "abcdefghijklmnopqrstuvwxyz".toList

end IMU.Spec
