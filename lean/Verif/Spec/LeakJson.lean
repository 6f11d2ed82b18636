import Verif.Spec.Json
import Verif.Spec.LeakContainers

/-!
# What a JSON lookup shows
-/

namespace IMU.Spec.LeakJson
open Spec.Json Spec.Leak

/-- With how many leading bytes of the key `k` the text agrees at its first, second, ... place, up to the place where the
key stands or the last one with something behind the key. -/
def agrees (k : List Byte) : List Byte → List Nat
  | [] => []
  | c :: t =>
    if k.length < (c :: t).length then agree (c :: t) k :: (if k <+: c :: t then [] else agrees k t) else []

/-- What can be told from the lookup of `k` in `t` with an output of `room` bytes: the length of the key; how far it agrees
at each place; and, if a quote follows it, how far away the next quote is and how much is copied. -/
def told (k t : List Byte) (room : Nat) : Nat × List Nat × Option (Nat × Nat) :=
  (k.length, agrees k t, (afterKey k t).map fun r =>
    ((r.takeWhile notQuote).length, min room (((r.dropWhile notQuote).drop 1).takeWhile notQuote).length))

/-- The bytes up to the first NUL. -/
def upToNul (t : List Byte) : List Byte := t.takeWhile fun c => !decide (c = 0#8)

end IMU.Spec.LeakJson
