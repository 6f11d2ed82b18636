import Verif.C.Mem

/-!
# Specification of the JSON texts and of the lookup
-/

namespace IMU.Spec.Json

/-- A JSON string without escapes. -/
def str (s : List Byte) : List Byte := [34#8] ++ s ++ [34#8]

/-- `"k":"v"`. -/
def member (k v : List Byte) : List Byte := str k ++ [58#8] ++ str v

/-- Members separated by commas. -/
def members : List (List Byte × List Byte) → List Byte
  | [] => []
  | [x] => member x.1 x.2
  | x :: y :: l => member x.1 x.2 ++ [44#8] ++ members (y :: l)

/-- `{"k1":"v1",...,"kn":"vn"}`. -/
def document (l : List (List Byte × List Byte)) : List Byte := [123#8] ++ members l ++ [125#8]

/-- The separator that is due behind the text `t`. -/
def sep (t : List Byte) : List Byte := if t.getLast? = some 34#8 then [44#8] else []

/-- One addition to the text `t` in a buffer of `size` bytes: status and new text. -/
def add (size : Nat) (t : List Byte) (x : List Byte × List Byte) : Bool × List Byte :=
  if (t ++ sep t ++ member x.1 x.2).length + 1 ≤ size then (true, t ++ sep t ++ member x.1 x.2) else (false, t ++ sep t)

/-- What follows the first occurrence of `k` and a quote; nothing if another character follows this occurrence, or
none. -/
def afterKey (k : List Byte) : List Byte → Option (List Byte)
  | [] => none
  | c :: t =>
    if k <+: c :: t ∧ k.length < (c :: t).length then
      (if (c :: t)[k.length]? = some 34#8 then some ((c :: t).drop (k.length + 1)) else none)
    else afterKey k t

/-- Not `"`. -/
def notQuote (c : Byte) : Bool := !decide (c = 34#8)

/-- The text between the first two quotes. -/
def quoted (t : List Byte) : Option (List Byte) :=
  match t.dropWhile notQuote with
  | [] => none
  | _ :: t => if 34#8 ∈ t then some (t.takeWhile notQuote) else none

/-- The lookup that `Json_findByKey` implements. -/
def lookup (k t : List Byte) : Option (List Byte) := (afterKey k t).bind quoted

end IMU.Spec.Json
