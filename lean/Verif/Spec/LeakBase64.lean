import Verif.Spec.Leak

/-!
# What decoding a Base64 text shows

`s` stands for the characters read, `n` for the stated length, `mx` for the stated room.
-/

namespace IMU.Spec.Leak

/-- Reading the character `c` at `p` and its place in the table. -/
def charShown (p : Ptr) (c : Byte) : List Leak := [.read p, .table c.toNat]

/-- The groups of four characters from group `r` on. -/
def groupsShown (inp out : Ptr) : Nat → List Byte → List Leak
  | r, a :: b :: c :: d :: t =>
    .branch true :: (charShown (inp.addN (4 * r)) a ++ charShown (inp.addN (4 * r + 1)) b ++ charShown (inp.addN (4 * r + 2)) c ++
      charShown (inp.addN (4 * r + 3)) d ++ [.write (out.addN (3 * r)), .write (out.addN (3 * r + 1)), .write (out.addN (3 * r + 2))]) ++
      groupsShown inp out (r + 1) t
  | _, _ => [.branch false]

/-- The third character of a last group. -/
def thirdShown (inp out : Ptr) (q mx : Nat) (c : Byte) : List Leak :=
  [.read (inp.addN (4 * q + 2)), .branch (decide (c ≠ 61#8))] ++
    if c = 61#8 then [] else
      [.branch (decide (mx < 3 * q + 2))] ++
        if mx < 3 * q + 2 then [] else charShown (inp.addN (4 * q + 2)) c ++ [.write (out.addN (3 * q + 1))]

/-- The last group behind `q` whole ones, `a`, `b` being its characters and `c` the third one if there is one. -/
def lastShown (inp out : Ptr) (q mx : Nat) : List Byte → List Leak
  | a :: b :: g =>
    charShown (inp.addN (4 * q)) a ++ charShown (inp.addN (4 * q + 1)) b ++ [.write (out.addN (3 * q)), .branch (decide (g ≠ []))] ++
      (match g with | [] => [] | c :: _ => thirdShown inp out q mx c)
  | _ => []

/-- The last group is not a whole one. -/
def cut (n : Nat) (s : List Byte) : Bool := decide (0 < n) && (decide (n % 4 ≠ 0) || s[n - 1]? == some 61#8)

/-- The number of whole groups. -/
def whole (n : Nat) (s : List Byte) : Nat := (n + 3) / 4 - if cut n s then 1 else 0

/-- Finding out whether the last group is a whole one. -/
def cutShown (inp : Ptr) (n : Nat) (s : List Byte) : List Leak :=
  .branch (decide (0 < n)) :: if 0 < n then
    .branch (decide (n % 4 ≠ 0)) :: if n % 4 ≠ 0 then [] else [.read (inp.addN (n - 1)), .branch (s[n - 1]? == some 61#8)]
  else []

/-- The call is refused before anything is decoded. -/
def refused (n mx : Nat) (s : List Byte) : Bool :=
  decide (mx < 3 * whole n s + if cut n s then 1 else 0) || decide (whole n s = 0)

/-- The whole call. -/
def decodeShown (inp out : Ptr) (n mx : Nat) (s : List Byte) : List Leak :=
  cutShown inp n s ++ [.branch (cut n s), .branch (decide (mx < 3 * whole n s + if cut n s then 1 else 0)), .branch (decide (whole n s = 0)),
    .branch (!refused n mx s)] ++
    if refused n mx s then [] else
      groupsShown inp out 0 (s.take (4 * whole n s)) ++
        .branch (cut n s) :: if cut n s then lastShown inp out (whole n s) mx (s.drop (4 * whole n s)) else []

end IMU.Spec.Leak
