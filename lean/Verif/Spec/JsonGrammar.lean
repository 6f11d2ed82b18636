import Verif.C.Mem

/-!
# The grammar of JSON texts (RFC 8259), on bytes

Texts are UTF-8 (RFC 8259 section 8.1, RFC 3629 section 4).  Each rule relates a byte string to what it denotes.
-/

namespace IMU.Spec.Rfc8259

/-- RFC 3629 section 4: `UTF8-tail = %x80-BF`. -/
def Tail (b : Byte) : Prop := 0x80 ≤ b.toNat ∧ b.toNat ≤ 0xBF

/-- RFC 3629 section 4: one character and its code point. -/
inductive Utf8 : List Byte → Nat → Prop where
  | one {a : Byte} (ha : a.toNat ≤ 0x7F) : Utf8 [a] a.toNat
  | two {a b : Byte} (ha : 0xC2 ≤ a.toNat ∧ a.toNat ≤ 0xDF) (hb : Tail b) : Utf8 [a, b] ((a.toNat - 0xC0) * 64 + (b.toNat - 0x80))
  | three {a b c : Byte} (ha : 0xE0 ≤ a.toNat ∧ a.toNat ≤ 0xEF) (hb : Tail b) (hc : Tail c)
      (h1 : a.toNat = 0xE0 → 0xA0 ≤ b.toNat) (h2 : a.toNat = 0xED → b.toNat ≤ 0x9F) :
      Utf8 [a, b, c] ((a.toNat - 0xE0) * 4096 + (b.toNat - 0x80) * 64 + (c.toNat - 0x80))
  | four {a b c d : Byte} (ha : 0xF0 ≤ a.toNat ∧ a.toNat ≤ 0xF4) (hb : Tail b) (hc : Tail c) (hd : Tail d)
      (h1 : a.toNat = 0xF0 → 0x90 ≤ b.toNat) (h2 : a.toNat = 0xF4 → b.toNat ≤ 0x8F) :
      Utf8 [a, b, c, d] ((a.toNat - 0xF0) * 262144 + (b.toNat - 0x80) * 4096 + (c.toNat - 0x80) * 64 + (d.toNat - 0x80))

/-- A hexadecimal digit and its value. -/
def Hex (b : Byte) (n : Nat) : Prop :=
  (48 ≤ b.toNat ∧ b.toNat ≤ 57 ∧ n = b.toNat - 48) ∨ (65 ≤ b.toNat ∧ b.toNat ≤ 70 ∧ n = b.toNat - 55) ∨
  (97 ≤ b.toNat ∧ b.toNat ≤ 102 ∧ n = b.toNat - 87)

/-- The escapes of one letter: `\"`, `\\`, `\/`, `\b`, `\f`, `\n`, `\r`, `\t`. -/
def escapes : List (Byte × Nat) :=
  [(34#8, 0x22), (92#8, 0x5C), (47#8, 0x2F), (98#8, 0x08), (102#8, 0x0C), (110#8, 0x0A), (114#8, 0x0D), (116#8, 0x09)]

/-- RFC 8259 section 7, `char`: a character other than quotation mark, reverse solidus and the control characters U+0000 to
U+001F, or an escape; with the number it denotes (for `\uXXXX` the number XXXX). -/
inductive Chr : List Byte → Nat → Prop where
  | plain {x : List Byte} {c : Nat} (hx : Utf8 x c) (h : 0x20 ≤ c ∧ c ≠ 0x22 ∧ c ≠ 0x5C) : Chr x c
  | esc {b : Byte} {c : Nat} (h : (b, c) ∈ escapes) : Chr [92#8, b] c
  | hex {a b c d : Byte} {i j k l : Nat} (ha : Hex a i) (hb : Hex b j) (hc : Hex c k) (hd : Hex d l) :
      Chr [92#8, 117#8, a, b, c, d] (((i * 16 + j) * 16 + k) * 16 + l)

/-- `*char`: what may stand between the quotation marks. -/
inductive Body : List Byte → List Nat → Prop where
  | nil : Body [] []
  | cons {x y : List Byte} {c : Nat} {s : List Nat} (hx : Chr x c) (hy : Body y s) : Body (x ++ y) (c :: s)

/-- `string = quotation-mark *char quotation-mark`. -/
def Str (x : List Byte) (s : List Nat) : Prop := ∃ y, Body y s ∧ x = [34#8] ++ y ++ [34#8]

/-- `ws`: space, tab, line feed, carriage return. -/
def Ws (x : List Byte) : Prop := ∀ b ∈ x, b = 0x20#8 ∨ b = 0x09#8 ∨ b = 0x0A#8 ∨ b = 0x0D#8

def Digits (x : List Byte) : Prop := x ≠ [] ∧ ∀ b ∈ x, 48 ≤ b.toNat ∧ b.toNat ≤ 57

/-- RFC 8259 section 6: `number = [ minus ] int [ frac ] [ exp ]`. -/
def Number (x : List Byte) : Prop :=
  ∃ s i f e, x = s ++ i ++ f ++ e ∧ (s = [] ∨ s = [45#8]) ∧ (i = [48#8] ∨ (Digits i ∧ i.head? ≠ some 48#8)) ∧
    (f = [] ∨ ∃ d, Digits d ∧ f = [46#8] ++ d) ∧
    (e = [] ∨ ∃ b g d, (b = 101#8 ∨ b = 69#8) ∧ (g = [] ∨ g = [43#8] ∨ g = [45#8]) ∧ Digits d ∧ e = [b] ++ g ++ d)

/-- What a JSON text denotes. -/
inductive Tree where
  | null
  | bool (b : Bool)
  | number (text : List Byte)
  | string (s : List Nat)
  | array (l : List Tree)
  | object (l : List (List Nat × Tree))

/-! RFC 8259 sections 2 to 5.  `Value` is `value`, `Elements` and `Members` are the
insides of arrays and objects. -/
mutual
inductive Value : List Byte → Tree → Prop where
  | null : Value [110#8, 117#8, 108#8, 108#8] .null
  | true : Value [116#8, 114#8, 117#8, 101#8] (.bool true)
  | false : Value [102#8, 97#8, 108#8, 115#8, 101#8] (.bool false)
  | number {x : List Byte} (h : Number x) : Value x (.number x)
  | string {x : List Byte} {s : List Nat} (h : Str x s) : Value x (.string s)
  | array {x : List Byte} {l : List Tree} (h : Elements x l) : Value ([91#8] ++ x ++ [93#8]) (.array l)
  | array0 {w : List Byte} (h : Ws w) : Value ([91#8] ++ w ++ [93#8]) (.array [])
  | object {x : List Byte} {l : List (List Nat × Tree)} (h : Members x l) : Value ([123#8] ++ x ++ [125#8]) (.object l)
  | object0 {w : List Byte} (h : Ws w) : Value ([123#8] ++ w ++ [125#8]) (.object [])
inductive Elements : List Byte → List Tree → Prop where
  | one {a x b : List Byte} {v : Tree} (ha : Ws a) (hx : Value x v) (hb : Ws b) : Elements (a ++ x ++ b) [v]
  | cons {a x b y : List Byte} {v : Tree} {l : List Tree} (ha : Ws a) (hx : Value x v) (hb : Ws b) (hy : Elements y l) :
      Elements (a ++ x ++ b ++ [44#8] ++ y) (v :: l)
inductive Members : List Byte → List (List Nat × Tree) → Prop where
  | one {a k b c x d : List Byte} {s : List Nat} {v : Tree} (ha : Ws a) (hk : Str k s) (hb : Ws b) (hc : Ws c) (hx : Value x v)
      (hd : Ws d) : Members (a ++ k ++ b ++ [58#8] ++ c ++ x ++ d) [(s, v)]
  | cons {a k b c x d y : List Byte} {s : List Nat} {v : Tree} {l : List (List Nat × Tree)} (ha : Ws a) (hk : Str k s)
      (hb : Ws b) (hc : Ws c) (hx : Value x v) (hd : Ws d) (hy : Members y l) :
      Members (a ++ k ++ b ++ [58#8] ++ c ++ x ++ d ++ [44#8] ++ y) ((s, v) :: l)
end

/-- `JSON-text = ws value ws`. -/
def JsonText (t : List Byte) (v : Tree) : Prop := ∃ a x b, Ws a ∧ Value x v ∧ Ws b ∧ t = a ++ x ++ b

/-- A text of characters (no escapes): UTF-8 without control characters, quotation marks and reverse solidi; with its code
points. -/
inductive Plain : List Byte → List Nat → Prop where
  | nil : Plain [] []
  | cons {x y : List Byte} {c : Nat} {s : List Nat} (hx : Utf8 x c) (h : 0x20 ≤ c ∧ c ≠ 0x22 ∧ c ≠ 0x5C) (hy : Plain y s) :
      Plain (x ++ y) (c :: s)

end IMU.Spec.Rfc8259
