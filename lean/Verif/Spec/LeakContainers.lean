import Verif.Spec.Leak

/-!
# What an observer can learn of keys and priorities (no reference to the model)
-/

namespace IMU.Spec.Leak

/-- The length of the common beginning of two byte strings. -/
def agree : List Byte → List Byte → Nat
  | a :: s, b :: t => if a = b then agree s t + 1 else 0
  | _, _ => 0

/-- How far `key` agrees with the keys of a table, up to and including the first one that equals it. -/
def compared (key : List Byte) : List (List Byte) → List Nat
  | [] => []
  | k :: ks => agree k key :: if k = key then [] else compared key ks

/-- Is item `i` of `l` greater than all items before it? -/
def Record (l : List U32) (i : Nat) : Prop := ∀ j, j < i → l.getD j 0 < l.getD i 0

/-- Is item `i` of `l` smaller than all items before it? -/
def RecordLow (l : List U32) (i : Nat) : Prop := ∀ j, j < i → l.getD i 0 < l.getD j 0

/-- `f` keeps the order of the numbers in `S`. -/
def Keeps (S : U32 → Prop) (f : U32 → U32) : Prop := ∀ a b, S a → S b → (a < b ↔ f a < f b)

end IMU.Spec.Leak
