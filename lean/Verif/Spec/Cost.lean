import Verif.Spec.LeakContainers

/-!
# Numbers of steps

A step is a memory access (a byte, an item of a priority array, an item of a constant table) or a decision.
-/

namespace IMU.Spec.Cost
open Spec.Leak

/-- Moving `k` entries of a priority queue one place down. -/
def moveSteps (es k : Nat) : Nat := k * (2 * es + 3) + 1

/-- Searching a table of keys for `key`: up to and including the entry that equals it; every comparison reads both keys up
to the first difference. -/
def searchSteps (key : List Byte) : List (List Byte) → Nat
  | [] => 1
  | k :: l => 2 + 2 * min key.length (agree k key + 1) + if k = key then 0 else searchSteps key l

/-- Reflecting the low `n` bits of a number. -/
def reflectSteps (n : Nat) : Nat := 2 * n + 1

/-- A checksum of `len` bytes of width `w`. -/
def crcSteps (w len : Nat) (reflected_input reflected_output : Bool) : Nat :=
  len * (if reflected_input then 4 + reflectSteps 8 else 4) + (if reflected_output then reflectSteps w else 0) + 3

/-- Encrypting `len` bytes with ChaCha20: 164 steps for each block or part of a block, four and one for each byte. -/
def chachaSteps (len : Nat) : Nat := 165 * (len / 64) + 4 * len + (if len % 64 = 0 then 0 else 164) + 2

/-- Base64 encoding of `len` bytes into enough room. -/
def base64Steps (len : Nat) : Nat := 16 * (len / 3) + (if len % 3 = 0 then 4 else if len % 3 = 1 then 14 else 17)

/-- The Caesar cipher on a character of kind 0 to 4: other characters take less than letters. -/
def caesarChar (c : Byte) : Nat := [7, 12, 8, 13, 9].getD (kind c) 0

/-- The Caesar cipher on a text: measuring the text, and each character. -/
def caesarSteps (s : List Byte) : Nat := (s.map caesarChar).sum + 2

/-- The Vernam cipher on a character with the character of the key; `x` is what decryption takes in addition. -/
def vernamChar (x : Nat) (c k : Byte) : Nat :=
  if kind c = 1 ∨ kind c = 3 then caesarChar c + (if k.toNat < 97 then 3 else 4) + x else caesarChar c

/-- The Vernam cipher on a text and a key of its length. -/
def vernamSteps (x : Nat) (s k : List Byte) : Nat := (List.zipWith (vernamChar x) s k).sum + 3

end IMU.Spec.Cost
