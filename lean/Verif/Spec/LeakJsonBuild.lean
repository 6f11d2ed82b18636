import Verif.Spec.JsonCalls
import Verif.C.Leak

/-!
# What building a JSON text shows
-/

namespace IMU.Spec.LeakJsonBuild
open Spec.Json

/-- `n` reads from byte `o` of block `b` on. -/
def rd (b o n : Nat) : List Leak := (List.range n).map fun i => .read (ptr b (o + i))

/-- `n` writes. -/
def wr (b o n : Nat) : List Leak := (List.range n).map fun i => .write (ptr b (o + i))

/-- `n` bytes copied. -/
def cp (b o bs os n : Nat) : List Leak := (List.range n).flatMap fun i => [.read (ptr bs (os + i)), .write (ptr b (o + i))]

/-- The comma behind a text of `n` characters that ends with a quote or not. -/
def commaShown (b o n : Nat) (quote : Bool) : List Leak :=
  if quote then [.read (ptr b (o + (n - 1))), .branch true, .read (ptr b (o + n)), .branch true, .branch true] ++ wr b (o + n) 2
  else [.read (ptr b (o + (n - 1))), .branch false, .branch false]

/-- A member of `k` and `v` characters written behind a text of `n` characters. -/
def memberShown (b o bk ok bv ov n k v : Nat) : List Leak :=
  wr b (o + n) 2 ++ cp b (o + n + 1) bk ok (k + 1) ++ rd bk ok (k + 1) ++ wr b (o + n + 1 + k) 4 ++
    cp b (o + n + k + 4) bv ov (v + 1) ++ rd bv ov (v + 1) ++ wr b (o + n + k + 4 + v) 2

/-- `Json_addData`: made from the lengths of text, key and value, and whether the text ends with a quote. -/
def addShown (b o bk ok bv ov size n : Nat) (quote : Bool) (k v : Nat) : List Leak :=
  rd b o (n + 1) ++ rd bk ok (k + 1) ++ rd bv ov (v + 1) ++ commaShown b o n quote ++
    let n' := if quote then n + 1 else n
    if n' + k + v + 6 ≤ size then .branch true :: memberShown b o bk ok bv ov n' k v else [.branch false]

/-- Does the text end with a quote? -/
def quoted (t : List Byte) : Bool := decide (t.getLast? = some 34#8)

/-- Members of the same lengths. -/
def SameLengths : List (List Byte × List Byte) → List (List Byte × List Byte) → Prop
  | [], [] => True
  | x :: l, y :: l' => x.1.length = y.1.length ∧ x.2.length = y.2.length ∧ SameLengths l l'
  | _, _ => False

end IMU.Spec.LeakJsonBuild
