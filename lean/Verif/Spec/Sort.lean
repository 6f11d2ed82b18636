import Verif.C.Mem

/-! # What sorting means -/

namespace IMU.Spec

/-- `gt` ("first is greater than second") is a strict weak order.  (It is no restriction to ask this for
lists of all lengths: a comparator for elements of one size can be extended by treating every other list
like some fixed element.) -/
structure StrictWeak {α : Type} (gt : α → α → Bool) : Prop where
  asymm : ∀ a b, gt a b = true → gt b a = false
  negTrans : ∀ a b c, gt a b = false → gt b c = false → gt a c = false

/-- `gt` is a strict weak order among the members of `L`; nothing is said about other arguments. -/
structure StrictWeakOn {α : Type} (L : List α) (gt : α → α → Bool) : Prop where
  asymm : ∀ a ∈ L, ∀ b ∈ L, gt a b = true → gt b a = false
  negTrans : ∀ a ∈ L, ∀ b ∈ L, ∀ c ∈ L, gt a b = false → gt b c = false → gt a c = false

/-- No element is greater than a later one. -/
def Sorted {α : Type} (gt : α → α → Bool) (l : List α) : Prop := l.Pairwise fun a b => gt a b = false

/-- Neither is greater than the other. -/
def tied {α : Type} (gt : α → α → Bool) (a b : α) : Bool := !gt a b && !gt b a

/-- The elements tied with any given one come in the same order in both lists. -/
def SameTies {α : Type} (gt : α → α → Bool) (l l' : List α) : Prop :=
  ∀ x, l.filter (tied gt x) = l'.filter (tied gt x)

/-- The elements tied with any given element of `l` come in the same order in both lists. -/
def SameTiesOn {α : Type} (gt : α → α → Bool) (l l' : List α) : Prop :=
  ∀ x ∈ l, l.filter (tied gt x) = l'.filter (tied gt x)

/-- The `n` elements of `sz` bytes each at byte `o`. -/
def elems (bytes : List Byte) (o sz n : Nat) : List (List Byte) :=
  (List.range n).map fun k => slice bytes (o + k * sz) sz

end IMU.Spec
