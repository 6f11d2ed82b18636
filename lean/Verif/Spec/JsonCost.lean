import Verif.Spec.Json
import Verif.Spec.LeakContainers

/-!
# How many steps a JSON lookup takes

A step is one byte read or written or one decision.
-/

namespace IMU.Spec.JsonCost
open Spec.Json Spec.Leak

/-- Finding the key `k`: at every place up to the first where it stands, as long as something follows it, four steps for
every byte that agrees and five more; at the place where it stands four for every byte and four more; at the end one. -/
def findSteps (k : List Byte) : List Byte → Nat
  | [] => 1
  | c :: t =>
    if k.length < (c :: t).length then
      if k <+: c :: t then 4 * k.length + 4 else 4 * agree (c :: t) k + 5 + findSteps k t
    else 1

/-- Finding the next quote. -/
def skipSteps : List Byte → Nat
  | [] => 1
  | c :: t => if c = 34#8 then 3 else 3 + skipSteps t

/-- Copying up to the next quote into an output of `room` bytes. -/
def copySteps : List Byte → Nat → Nat
  | [], _ => 1
  | _ :: _, 0 => 2
  | c :: t, room + 1 => if c = 34#8 then 7 else 6 + copySteps t room

/-- The whole lookup of the key `k` in the text `t`. -/
def lookupSteps (k t : List Byte) (room : Nat) : Nat :=
  k.length + 3 + findSteps k t +
    match afterKey k t with
    | none => 0
    | some r => skipSteps r + copySteps ((r.dropWhile notQuote).drop 1) room

end IMU.Spec.JsonCost
