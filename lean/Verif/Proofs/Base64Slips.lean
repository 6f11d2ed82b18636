import Verif.Spec.Base64Slips
import Verif.Proofs.Base64Pieces
import Verif.Proofs.CrcZeros
import Verif.Proofs.CrcExchange
import Verif.Proofs.CrcErrors
import Verif.Spec.CrcCalls

/-! The bytes of a text as functions of its 6-bit values, and the checksums of their changes. -/

namespace IMU.Base64
open IMU.Spec.Base64 IMU.Spec.Crc

/-- The 6-bit value at place `j` of a text. -/
def val (s : List Byte) (j : Nat) : Nat := value (s.getD j 0#8)

/-- Byte `i` of the 6-bit values `v`. -/
def byteAt (v : Nat → Nat) (i : Nat) : Byte :=
  octet (v (4 * (i / 3)) * 64 ^ 3 + v (4 * (i / 3) + 1) * 64 ^ 2 + v (4 * (i / 3) + 2) * 64 + v (4 * (i / 3) + 3)) (i % 3)

theorem byteAt_add (v : Nat → Nat) (i q : Nat) : byteAt v (3 * q + i) = byteAt (fun j => v (4 * q + j)) i := by
  unfold byteAt
  rw [show (3 * q + i) / 3 = q + i / 3 by omega, show (3 * q + i) % 3 = i % 3 by omega,
    show 4 * (q + i / 3) = 4 * q + 4 * (i / 3) by ring]
  rfl

theorem value_nul : value 0#8 = 0 := by decide
theorem value_pad : value pad = 0 := by decide

theorem last_byteAt (a b c d : Byte) (t : List Byte) (hd : value d = 0) (i : Nat) (hi : i < (last a b c).length) :
    (last a b c)[i]? = some (byteAt (val (a :: b :: c :: d :: t)) i) := by
  unfold last at hi ⊢
  split at hi
  · rename_i hc
    rw [if_pos hc]
    have : i = 0 := by simpa using hi
    subst this
    subst hc
    simp [byteAt, val, quad, value_pad, value_nul, hd]
  · rename_i hc
    rw [if_neg hc]
    have : i = 0 ∨ i = 1 := by simp at hi; omega
    rcases this with rfl | rfl <;> simp [byteAt, val, quad, value_nul, hd]

theorem decode_byteAt : ∀ (s : List Byte) (i : Nat), i < (Spec.Base64.decode s).length →
    (Spec.Base64.decode s)[i]? = some (byteAt (val s) i)
  | [], i, hi => by simp [Spec.Base64.decode] at hi
  | [_], i, hi => by simp [Spec.Base64.decode] at hi
  | [a, b], i, hi => by
    simp only [Spec.Base64.decode] at hi ⊢
    rw [last_byteAt a b pad 0#8 [] value_nul i hi]
    have : i = 0 := by simpa [last] using hi
    subst this
    simp [byteAt, val, value_pad, value_nul]
  | [a, b, c], i, hi => by
    simp only [Spec.Base64.decode] at hi ⊢
    rw [last_byteAt a b c 0#8 [] value_nul i hi]
    have : i < 3 := by
      unfold last at hi
      split at hi <;> simp at hi <;> omega
    have h0 : i / 3 = 0 := by omega
    simp [byteAt, val, h0, value_nul]
  | a :: b :: c :: d :: t, i, hi => by
    simp only [Spec.Base64.decode] at hi ⊢
    split at hi
    · rename_i h
      rw [if_pos h]
      exact last_byteAt a b c d t (by rw [h.2]; exact value_pad) i hi
    · rename_i h
      rw [if_neg h]
      by_cases h3 : i < 3
      · have : i = 0 ∨ i = 1 ∨ i = 2 := by omega
        rcases this with rfl | rfl | rfl <;> simp [byteAt, val, quad]
      · obtain ⟨k, rfl⟩ : ∃ k, i = 3 * 1 + k := ⟨i - 3, by omega⟩
        rw [byteAt_add]
        have ih := decode_byteAt t k (by simp at hi; omega)
        rw [List.getElem?_append_right (by simp)]
        simp only [List.length_cons, List.length_nil]
        rw [show 3 * 1 + k - (0 + 1 + 1 + 1) = k by omega, ih]
        have e : (fun j => val (a :: b :: c :: d :: t) (4 * 1 + j)) = val t := by
          funext j
          rw [show 4 * 1 + j = j + 1 + 1 + 1 + 1 by omega]
          simp [val]
        rw [e]

theorem xor_pair (x y x' y' : Nat) (hy : y < 64) (hy' : y' < 64) :
    (x * 64 + y) ^^^ (x' * 64 + y') = (x ^^^ x') * 64 + (y ^^^ y') := by
  have hx : y ^^^ y' < 2 ^ 6 := Nat.xor_lt_two_pow (by omega) (by omega)
  apply Nat.eq_of_testBit_eq
  intro i
  rw [Nat.testBit_xor, Nat.mul_comm x, Nat.mul_comm x', Nat.mul_comm (x ^^^ x'),
    show (64 : Nat) = 2 ^ 6 from rfl, Nat.testBit_two_pow_mul_add _ (by omega), Nat.testBit_two_pow_mul_add _ (by omega),
    Nat.testBit_two_pow_mul_add _ hx]
  split <;> simp

theorem octet_xor (n k i : Nat) : octet n i ^^^ octet k i = octet (n ^^^ k) i := by
  unfold octet
  rw [show 256 ^ (2 - i) = 2 ^ (8 * (2 - i)) by rw [show 256 = 2 ^ 8 from rfl, ← Nat.pow_mul], ← Nat.shiftRight_eq_div_pow,
    ← Nat.shiftRight_eq_div_pow, ← Nat.shiftRight_eq_div_pow, Nat.shiftRight_xor_distrib, BitVec.ofNat_xor]

theorem byteAt_xor (v u : Nat → Nat) (hv : ∀ j, v j < 64) (hu : ∀ j, u j < 64) (i : Nat) :
    byteAt v i ^^^ byteAt u i = byteAt (fun j => v j ^^^ u j) i := by
  unfold byteAt
  rw [octet_xor]
  congr 1
  have e : ∀ a b c d : Nat, a * 64 ^ 3 + b * 64 ^ 2 + c * 64 + d = ((a * 64 + b) * 64 + c) * 64 + d := by
    intros; ring
  rw [e, e, e, xor_pair _ _ _ _ (hv _) (hu _), xor_pair _ _ _ _ (hv _) (hu _), xor_pair _ _ _ _ (hv _) (hu _)]

theorem val_lt (s : List Byte) (j : Nat) : val s j < 64 := value_lt _

/-- The bytes `0 … n-1` of 6-bit values. -/
def bytesOf (v : Nat → Nat) (n : Nat) : List Byte := (List.range n).map (byteAt v)

theorem decode_eq (s : List Byte) : Spec.Base64.decode s = bytesOf (val s) (Spec.Base64.decode s).length := by
  apply List.ext_getElem?
  intro i
  by_cases hi : i < (Spec.Base64.decode s).length
  · rw [decode_byteAt s i hi]; simp [bytesOf, hi]
  · rw [List.getElem?_eq_none (by omega), List.getElem?_eq_none (by simp [bytesOf]; omega)]

theorem decode_diff (s t : List Byte) (h : (Spec.Base64.decode s).length = (Spec.Base64.decode t).length) :
    List.zipWith (· ^^^ ·) (Spec.Base64.decode s) (Spec.Base64.decode t) =
      bytesOf (fun j => val s j ^^^ val t j) (Spec.Base64.decode s).length := by
  conv_lhs => rw [decode_eq s, decode_eq t, ← h]
  apply List.ext_getElem
  · simp [bytesOf]
  · intro i h1 h2
    simp only [bytesOf, List.getElem_zipWith, List.getElem_map, List.getElem_range]
    exact byteAt_xor _ _ (val_lt s) (val_lt t) i

theorem byteAt_zero (v : Nat → Nat) (i : Nat) (h : ∀ j, 4 * (i / 3) ≤ j → j < 4 * (i / 3) + 4 → v j = 0) : byteAt v i = 0#8 := by
  unfold byteAt
  rw [h _ (by omega) (by omega), h _ (by omega) (by omega), h _ (by omega) (by omega), h _ (by omega) (by omega)]
  simp [octet]

/-- Values that are zero outside of `g` groups. -/
theorem bytesOf_window (v : Nat → Nat) (g q n : Nat) (h : ∀ j, j < 4 * q ∨ 4 * q + 4 * g ≤ j → v j = 0) (hq : 3 * q ≤ n) :
    bytesOf v n = List.replicate (3 * q) 0#8 ++ (bytesOf (fun j => v (4 * q + j)) (min (3 * g) (n - 3 * q)) ++
      List.replicate (n - (3 * q + 3 * g)) 0#8) := by
  apply List.ext_getElem?
  intro i
  by_cases hi : i < n
  · rw [show (bytesOf v n)[i]? = some (byteAt v i) by simp [bytesOf, hi]]
    by_cases h1 : i < 3 * q
    · rw [List.getElem?_append_left (by simpa using h1), List.getElem?_replicate, if_pos h1, byteAt_zero]
      intro j _ hj; exact h j (by omega)
    · rw [List.getElem?_append_right (by simp; omega), List.length_replicate]
      by_cases h2 : i < 3 * q + 3 * g
      · rw [List.getElem?_append_left (by simp [bytesOf]; omega)]
        obtain ⟨k, rfl⟩ : ∃ k, i = 3 * q + k := ⟨i - 3 * q, by omega⟩
        rw [byteAt_add, show 3 * q + k - 3 * q = k by omega]
        simp [bytesOf, show k < 3 * g by omega, show k < n - 3 * q by omega]
      · rw [List.getElem?_append_right (by simp [bytesOf]; omega)]
        rw [List.getElem?_replicate, if_pos (by simp [bytesOf]; omega), byteAt_zero]
        intro j hj _; exact h j (by omega)
  · rw [List.getElem?_eq_none (by simp [bytesOf]; omega), List.getElem?_eq_none (by simp [bytesOf]; omega)]

theorem crcBits_window {w : Nat} {P : BitVec w} (hP : P.getLsbD 0 = true) (r : Bool) (a z : Nat) (d : List Byte) :
    crcBits P 0#w (bits r (List.replicate a 0#8 ++ (d ++ List.replicate z 0#8))) = 0#w ↔ crcBits P 0#w (bits r d) = 0#w := by
  rw [Crc.bits_append, Crc.crcBits_append, Crc.bits_zeros, Crc.crcBits_zeros, Crc.rounds_zero, Crc.bits_append,
    Crc.crcBits_append]
  have h0 : crcBits P 0#w (bits r (List.replicate z 0#8)) = 0#w := by
    rw [Crc.bits_zeros, Crc.crcBits_zeros, Crc.rounds_zero]
  constructor
  · intro h
    exact (Crc.crcBits_inj hP _).mp (h.trans h0.symm)
  · intro h
    rw [h, h0]

theorem bytes_eq_iff (x y : List Byte) (h : x.length = y.length) :
    x = y ↔ List.zipWith (· ^^^ ·) x y = List.replicate x.length 0#8 := by
  constructor
  · rintro rfl
    apply List.ext_getElem
    · simp
    · intro i h1 h2; simp
  · intro hz
    apply List.ext_getElem h
    intro i h1 h2
    have : (List.zipWith (· ^^^ ·) x y)[i]'(by simp; omega) = 0#8 := by
      simp only [hz, List.getElem_replicate]
    rw [List.getElem_zipWith] at this
    exact BitVec.xor_eq_zero_iff.mp this

/-- The 6-bit value `d` at place `r`. -/
def one (r d j : Nat) : Nat := if j = r then d else 0

/-- The 6-bit value `d` at places `r` and `r + 1`. -/
def two (r d j : Nat) : Nat := if j = r ∨ j = r + 1 then d else 0

/-- The rows of a function in a table. -/
def rowsOf (name : String) (t : List (String × Nat × Nat)) (r : Nat) : List Nat :=
  (t.filter (fun x => x.1 == name && x.2.1 == r)).map (·.2.2)

/-- The checksum register of the bytes of values. -/
def reg {w : Nat} (P : BitVec w) (refin : Bool) (v : Nat → Nat) (k : Nat) : BitVec w :=
  crcBits P 0#w (bits refin (bytesOf v k))

theorem reg_xor {w : Nat} (P : BitVec w) (refin : Bool) (v u : Nat → Nat) (hv : ∀ j, v j < 64) (hu : ∀ j, u j < 64)
    (k : Nat) : reg P refin (fun j => v j ^^^ u j) k = reg P refin v k ^^^ reg P refin u k := by
  have e : bytesOf (fun j => v j ^^^ u j) k = List.zipWith (· ^^^ ·) (bytesOf v k) (bytesOf u k) := by
    apply List.ext_getElem
    · simp [bytesOf]
    · intro i h1 h2
      simp only [bytesOf, List.getElem_zipWith, List.getElem_map, List.getElem_range]
      exact (byteAt_xor v u hv hu i).symm
  unfold reg
  rw [e, Crc.bits_xor _ _ _ (by simp [bytesOf]),
    Crc.crcBits_xor P _ _ 0#w 0#w (by rw [Crc.bits_length, Crc.bits_length]; simp [bytesOf]), BitVec.xor_self]

/-- The registers of the single bits of a value. -/
def unit {w : Nat} (P : BitVec w) (refin : Bool) (f : Nat → Nat → Nat) (k b : Nat) : Nat := (reg P refin (f (2 ^ b)) k).toNat

/-- The sum of the registers selected by the bits of `d`. -/
def comb (x0 x1 x2 x3 x4 x5 : Nat) (d : Nat) : Nat :=
  (((((d % 2 * x0) ^^^ (d / 2 % 2 * x1)) ^^^ (d / 4 % 2 * x2)) ^^^ (d / 8 % 2 * x3)) ^^^ (d / 16 % 2 * x4)) ^^^
    (d / 32 % 2 * x5)

def chk (x0 x1 x2 x3 x4 x5 : Nat) (ex : List Nat) : Nat → Bool
  | 0 => true
  | d + 1 => (comb x0 x1 x2 x3 x4 x5 d == 0) == (d == 0 || ex.contains d) && chk x0 x1 x2 x3 x4 x5 ex d

theorem chk_spec {x0 x1 x2 x3 x4 x5 : Nat} {ex : List Nat} : ∀ {n : Nat}, chk x0 x1 x2 x3 x4 x5 ex n = true →
    ∀ d, d < n → (comb x0 x1 x2 x3 x4 x5 d = 0 ↔ d = 0 ∨ d ∈ ex) := by
  intro n
  induction n with
  | zero => intro _ d hd; omega
  | succ n ih =>
    intro h d hd
    rw [chk, Bool.and_eq_true] at h
    by_cases hn : d = n
    · subst hn
      have := h.1
      rw [beq_iff_eq] at this
      have h2 : (comb x0 x1 x2 x3 x4 x5 d == 0) = true ↔ (d == 0 || ex.contains d) = true := by rw [this]
      simpa using h2
    · exact ih h.2 d (by omega)

/-- `f d` puts the value `d` at some places. -/
structure Places (f : Nat → Nat → Nat) : Prop where
  zero : ∀ j, f 0 j = 0
  lt : ∀ d j, d < 64 → f d j < 64
  xor : ∀ d e j, f (d ^^^ e) j = f d j ^^^ f e j

theorem places_one (r : Nat) : Places (one r) := by
  refine ⟨?_, ?_, ?_⟩ <;> intros <;> unfold one <;> split <;> simp_all

theorem places_two (r : Nat) : Places (two r) := by
  refine ⟨?_, ?_, ?_⟩ <;> intros <;> unfold two <;> split <;> simp_all

theorem value_split : ∀ d, d < 64 → d = (((((d % 2 * 1) ^^^ (d / 2 % 2 * 2)) ^^^ (d / 4 % 2 * 4)) ^^^ (d / 8 % 2 * 8)) ^^^
    (d / 16 % 2 * 16)) ^^^ (d / 32 % 2 * 32) := by decide +kernel

theorem reg_comb {w : Nat} (P : BitVec w) (refin : Bool) {f : Nat → Nat → Nat} (hf : Places f) (k d : Nat) (hd : d < 64) :
    (reg P refin (f d) k).toNat = comb (unit P refin f k 0) (unit P refin f k 1) (unit P refin f k 2) (unit P refin f k 3)
      (unit P refin f k 4) (unit P refin f k 5) d := by
  have h0 : reg P refin (f 0) k = 0#w := by
    have e : bytesOf (f 0) k = List.replicate k 0#8 := by
      apply List.ext_getElem
      · simp [bytesOf]
      · intro i _ _
        simp only [bytesOf, List.getElem_map, List.getElem_range, List.getElem_replicate]
        exact byteAt_zero _ _ (fun j _ _ => hf.zero j)
    unfold reg
    rw [e, Crc.bits_zeros, Crc.crcBits_zeros, Crc.rounds_zero]
  have hx : ∀ x y, x < 64 → y < 64 → (reg P refin (f (x ^^^ y)) k).toNat =
      (reg P refin (f x) k).toNat ^^^ (reg P refin (f y) k).toNat := by
    intro x y hx hy
    have e : f (x ^^^ y) = fun j => f x j ^^^ f y j := funext (hf.xor x y)
    rw [e, reg_xor P refin _ _ (fun j => hf.lt x j hx) (fun j => hf.lt y j hy), BitVec.toNat_xor]
  have hb : ∀ c b, (reg P refin (f (c % 2 * b)) k).toNat = c % 2 * (reg P refin (f b) k).toNat := by
    intro c b
    rcases Nat.mod_two_eq_zero_or_one c with h | h <;> simp [h, h0]
  have hl : ∀ x y, x < 64 → y < 64 → x ^^^ y < 64 := fun x y h1 h2 => Nat.xor_lt_two_pow (n := 6) h1 h2
  have hc : ∀ c b, b ≤ 32 → c % 2 * b < 64 := by
    intro c b h
    rcases Nat.mod_two_eq_zero_or_one c with e | e <;> simp [e]; omega
  have h1 := hc d 1 (by omega)
  have h2 := hc (d / 2) 2 (by omega)
  have h3 := hc (d / 4) 4 (by omega)
  have h4 := hc (d / 8) 8 (by omega)
  have h5 := hc (d / 16) 16 (by omega)
  have h6 := hc (d / 32) 32 (by omega)
  have g2 := hl _ _ h1 h2
  have g3 := hl _ _ g2 h3
  have g4 := hl _ _ g3 h4
  have g5 := hl _ _ g4 h5
  conv_lhs => rw [value_split d hd]
  rw [hx _ _ g5 h6, hx _ _ g4 h5, hx _ _ g3 h4, hx _ _ g2 h3, hx _ _ h1 h2, hb, hb, hb, hb, hb, hb]
  rfl

/-- The check of all values at places `f`, with exceptions `ex`. -/
def valuesOk {w : Nat} (P : BitVec w) (refin : Bool) (f : Nat → Nat → Nat) (k : Nat) (ex : List Nat) : Bool :=
  chk (unit P refin f k 0) (unit P refin f k 1) (unit P refin f k 2) (unit P refin f k 3) (unit P refin f k 4)
    (unit P refin f k 5) ex 64

theorem values_spec {w : Nat} {P : BitVec w} {refin : Bool} {f : Nat → Nat → Nat} (hf : Places f) {k : Nat} {ex : List Nat}
    (h : valuesOk P refin f k ex = true) (d : Nat) (hd : d < 64) : reg P refin (f d) k = 0#w ↔ d = 0 ∨ d ∈ ex := by
  rw [← chk_spec h d hd, ← reg_comb P refin hf k d hd]
  constructor
  · intro e; rw [e]; rfl
  · intro e; exact BitVec.eq_of_toNat_eq (by rw [e]; rfl)

theorem one8 : ∀ e ∈ catalogue8, ∀ r ∈ List.range 4,
    valuesOk e.params.poly e.params.refin (one r) 3 (rowsOf e.name slips r) = true := by decide +kernel
theorem two8 : ∀ e ∈ catalogue8, ∀ r ∈ List.range 4,
    valuesOk e.params.poly e.params.refin (two r) 6 (rowsOf e.name swaps r) = true := by decide +kernel

/-- The divisors and directions of the 16-bit functions. -/
def pairs16 : List (BitVec 16 × Bool) := [(0x1021#16, true), (0x1021#16, false), (0x8005#16, true), (0x8005#16, false),
  (0xC867#16, false), (0x0589#16, false), (0x3D65#16, true), (0x3D65#16, false), (0x8BB7#16, false), (0xA097#16, false)]

/-- The divisors and directions of the 32-bit functions. -/
def pairs32 : List (BitVec 32 × Bool) := [(0x04C11DB7#32, true), (0x04C11DB7#32, false), (0x1EDC6F41#32, true),
  (0xA833982B#32, true), (0x814141AB#32, false), (0x000000AF#32, false)]

theorem in16 : ∀ e ∈ catalogue16, (e.params.poly, e.params.refin) ∈ pairs16 ∧
    ∀ r ∈ List.range 4, rowsOf e.name slips r = [] ∧ rowsOf e.name swaps r = [] := by decide +kernel
theorem in32 : ∀ e ∈ catalogue32, (e.params.poly, e.params.refin) ∈ pairs32 ∧
    ∀ r ∈ List.range 4, rowsOf e.name slips r = [] ∧ rowsOf e.name swaps r = [] := by decide +kernel

theorem one16 : ∀ x ∈ pairs16, ∀ r ∈ List.range 4, valuesOk x.1 x.2 (one r) 3 [] = true := by decide +kernel
theorem two16 : ∀ x ∈ pairs16, ∀ r ∈ List.range 4, valuesOk x.1 x.2 (two r) 6 [] = true := by decide +kernel
theorem one32 : ∀ x ∈ pairs32, ∀ r ∈ List.range 4, valuesOk x.1 x.2 (one r) 3 [] = true := by decide +kernel
theorem two32 : ∀ x ∈ pairs32, ∀ r ∈ List.range 4, valuesOk x.1 x.2 (two r) 6 [] = true := by decide +kernel

theorem rowsOf_nil {name : String} {t : List (String × Nat × Nat)} {r d : Nat} : d ∈ rowsOf name t r ↔ (name, r, d) ∈ t := by
  unfold rowsOf
  simp only [List.mem_map, List.mem_filter, Bool.and_eq_true, beq_iff_eq]
  constructor
  · rintro ⟨⟨a, b, c⟩, ⟨h1, rfl, rfl⟩, rfl⟩; exact h1
  · intro h; exact ⟨(name, r, d), ⟨h, rfl, rfl⟩, rfl⟩

theorem ones {w : Nat} {e : Entry w} {f : CrcFn w} (hf : Shipped w e f) {r : Nat} (hr : r < 4) :
    valuesOk e.params.poly e.params.refin (one r) 3 (rowsOf e.name slips r) = true := by
  have hr := List.mem_range.mpr hr
  cases hf with
  | crc8 _ he _ => exact one8 _ he r hr
  | crc16 _ he _ => rw [((in16 _ he).2 r hr).1]; exact one16 _ (in16 _ he).1 r hr
  | crc32 _ he _ => rw [((in32 _ he).2 r hr).1]; exact one32 _ (in32 _ he).1 r hr

theorem twos {w : Nat} {e : Entry w} {f : CrcFn w} (hf : Shipped w e f) {r : Nat} (hr : r < 4) :
    valuesOk e.params.poly e.params.refin (two r) 6 (rowsOf e.name swaps r) = true := by
  have hr := List.mem_range.mpr hr
  cases hf with
  | crc8 _ he _ => exact two8 _ he r hr
  | crc16 _ he _ => rw [((in16 _ he).2 r hr).2]; exact two16 _ (in16 _ he).1 r hr
  | crc32 _ he _ => rw [((in32 _ he).2 r hr).2]; exact two32 _ (in32 _ he).1 r hr

theorem one_rest : ∀ r < 4, ∀ k < 4, 6 * r + 5 < 8 * k → ∀ d < 64,
    bytesOf (one r d) 3 = bytesOf (one r d) k ++ List.replicate (3 - k) 0#8 := by decide +kernel
theorem one_zero : ∀ r < 4, ∀ d < 64, bytesOf (one r d) 3 = List.replicate 3 0#8 ↔ d = 0 := by decide +kernel
theorem two_rest : ∀ r < 4, ∀ k < 7, 6 * (r + 2) ≤ 8 * k → ∀ d < 64,
    bytesOf (two r d) 6 = bytesOf (two r d) k ++ List.replicate (6 - k) 0#8 := by decide +kernel
theorem one_cut : ∀ r < 4, ∀ k < 4, 8 * k ≤ 6 * r + 5 → ∀ d < 64,
    k = 0 ∨ (bytesOf (one r d) k).take (k - 1) = List.replicate (k - 1) 0#8 := by decide +kernel

theorem reg_rest {w : Nat} {P : BitVec w} (hP : P.getLsbD 0 = true) (refin : Bool) {x y : List Byte} {z : Nat}
    (h : x = y ++ List.replicate z 0#8) :
    crcBits P 0#w (bits refin y) = 0#w ↔ crcBits P 0#w (bits refin x) = 0#w := by
  have := crcBits_window hP refin 0 z y
  rw [h]; simpa using this.symm

theorem last_byte {w : Nat} (hw : 8 ≤ w) {P : BitVec w} (hP : P.getLsbD 0 = true) (refin : Bool) (a : Nat) (x : Byte) :
    crcBits P 0#w (bits refin (List.replicate a 0#8 ++ [x])) = 0#w ↔ x = 0#8 := by
  constructor
  · intro h
    by_contra hx
    have key : ∀ (r : Bool) (x : Byte), x ≠ 0#8 → true ∈ bits r [x] := by decide +kernel
    have hb := Crc.burst hP (8 * a) 0 (e := bits refin [x]) (by rw [Crc.bits_length]; simpa using hw) (key _ x hx)
    rw [List.replicate_zero, List.append_nil, ← Crc.bits_zeros refin, ← Crc.bits_append] at hb
    exact hb h
  · rintro rfl
    rw [← List.replicate_one, List.replicate_append_replicate, Crc.bits_zeros, Crc.crcBits_zeros, Crc.rounds_zero]

theorem one_shift (q r d : Nat) : (fun j => one (4 * q + r) d (4 * q + j)) = one r d := by
  funext j
  unfold one
  by_cases h : j = r
  · rw [if_pos h, if_pos (by omega)]
  · rw [if_neg h, if_neg (by omega)]

theorem two_shift (q r d : Nat) : (fun j => two (4 * q + r) d (4 * q + j)) = two r d := by
  funext j
  unfold two
  by_cases h : j = r ∨ j = r + 1
  · rw [if_pos h, if_pos (by omega)]
  · rw [if_neg h, if_neg (by omega)]

theorem replicate_three (a b : Nat) (x : List Byte) :
    List.replicate a 0#8 ++ (x ++ List.replicate b 0#8) = List.replicate (a + x.length + b) 0#8 ↔
      x = List.replicate x.length 0#8 := by
  rw [← List.replicate_append_replicate, ← List.replicate_append_replicate, List.append_assoc]
  constructor
  · intro h
    exact List.append_cancel_right (List.append_cancel_left h)
  · intro h; rw [← h]

/-- One changed value. -/
theorem one_change {w : Nat} {e : Entry w} {f : CrcFn w} (hf : Shipped w e f) (hw : 8 ≤ w)
    (hP : e.params.poly.getLsbD 0 = true) (j n d : Nat) (hd : d < 64) :
    crcBits e.params.poly 0#w (bits e.params.refin (bytesOf (one j d) n)) = 0#w ↔
      bytesOf (one j d) n = List.replicate n 0#8 ∨ (e.name, j % 4, d) ∈ slips ∧ (6 * j + 5) / 8 < n := by
  obtain ⟨q, r, hr, rfl⟩ : ∃ q r, r < 4 ∧ j = 4 * q + r := ⟨j / 4, j % 4, by omega, by omega⟩
  rw [show (4 * q + r) % 4 = r by omega]
  by_cases hq : 3 * q ≤ n
  · have hwin := bytesOf_window (one (4 * q + r) d) 1 q n (by
      intro j hj; unfold one; rw [if_neg (by omega)]) hq
    rw [one_shift] at hwin
    set k := min (3 * 1) (n - 3 * q) with hk
    have hz : bytesOf (one (4 * q + r) d) n = List.replicate n 0#8 ↔ bytesOf (one r d) k = List.replicate k 0#8 := by
      have := replicate_three (3 * q) (n - (3 * q + 3 * 1)) (bytesOf (one r d) k)
      have hl : (bytesOf (one r d) k).length = k := by simp [bytesOf]
      rw [hl] at this
      rw [hwin, ← this]
      rw [show 3 * q + k + (n - (3 * q + 3 * 1)) = n by omega]
    rw [hz, hwin, crcBits_window hP]
    by_cases hc : 6 * r + 5 < 8 * k
    · have h3 := one_rest r hr k (by omega) hc d hd
      have hz' : bytesOf (one r d) k = List.replicate k 0#8 ↔ d = 0 := by
        rw [← one_zero r hr d hd, h3]
        constructor
        · intro h
          rw [h, List.replicate_append_replicate]
          congr 1; omega
        · intro h
          rw [show List.replicate 3 0#8 = List.replicate k 0#8 ++ List.replicate (3 - k) 0#8 by
            rw [List.replicate_append_replicate]; congr 1; omega] at h
          exact List.append_cancel_right h
      rw [reg_rest hP _ h3, hz']
      have := values_spec (places_one r) (ones hf hr) d hd
      unfold reg at this
      rw [this, rowsOf_nil]
      have hin : (6 * (4 * q + r) + 5) / 8 < n := by omega
      simp [hin]
    · have hin : ¬ (6 * (4 * q + r) + 5) / 8 < n := by omega
      simp only [hin, and_false, or_false]
      rcases one_cut r hr k (by omega) (by omega) d hd with h0 | h0
      · rw [h0]; simp [bytesOf, bits, crcBits]
      · by_cases hk0 : k = 0
        · rw [hk0]; simp [bytesOf, bits, crcBits]
        obtain ⟨x, hx⟩ : ∃ x, (bytesOf (one r d) k).drop (k - 1) = [x] := by
          apply List.length_eq_one_iff.mp
          simp [bytesOf]; omega
        have hs : bytesOf (one r d) k = List.replicate (k - 1) 0#8 ++ [x] := by
          rw [← h0, ← hx, List.take_append_drop]
        rw [hs, last_byte hw hP]
        rw [show List.replicate k 0#8 = List.replicate (k - 1) 0#8 ++ [0#8] by
          rw [← List.replicate_one, List.replicate_append_replicate]; congr 1; omega]
        constructor
        · rintro rfl; rfl
        · intro h
          have := List.append_cancel_left h
          simpa using this
  · have hz : bytesOf (one (4 * q + r) d) n = List.replicate n 0#8 := by
      apply List.ext_getElem
      · simp [bytesOf]
      · intro i h1 _
        have h1 : i < n := by simpa [bytesOf] using h1
        simp only [bytesOf, List.getElem_map, List.getElem_range, List.getElem_replicate]
        apply byteAt_zero
        intro j _ hj
        unfold one; rw [if_neg (by omega)]
    rw [hz, Crc.bits_zeros, Crc.crcBits_zeros, Crc.rounds_zero]
    simp

/-- Two neighbouring values changed alike. -/
theorem two_change {w : Nat} {e : Entry w} {f : CrcFn w} (hf : Shipped w e f)
    (hP : e.params.poly.getLsbD 0 = true) (j n d : Nat) (hd : d < 64) (hn : 6 * (j + 2) ≤ 8 * n) :
    crcBits e.params.poly 0#w (bits e.params.refin (bytesOf (two j d) n)) = 0#w ↔ d = 0 ∨ (e.name, j % 4, d) ∈ swaps := by
  obtain ⟨q, r, hr, rfl⟩ : ∃ q r, r < 4 ∧ j = 4 * q + r := ⟨j / 4, j % 4, by omega, by omega⟩
  rw [show (4 * q + r) % 4 = r by omega]
  have hwin := bytesOf_window (two (4 * q + r) d) 2 q n (by
    intro j hj; unfold two; rw [if_neg (by omega)]) (by omega)
  rw [two_shift] at hwin
  have h3 := two_rest r hr (min (3 * 2) (n - 3 * q)) (by omega) (by omega) d hd
  have := values_spec (places_two r) (twos hf hr) d hd
  unfold reg at this
  rw [hwin, crcBits_window hP, reg_rest hP _ h3, this, rowsOf_nil]

theorem xor_zero_iff (x y : Nat) : x ^^^ y = 0 ↔ x = y := by
  constructor
  · intro h
    apply Nat.eq_of_testBit_eq
    intro i
    have : (x ^^^ y).testBit i = false := by rw [h]; simp
    rw [Nat.testBit_xor] at this
    simpa using this
  · rintro rfl; exact Nat.xor_self x

theorem one_complete (j n d : Nat) (hd : d < 64) (hn : 6 * j + 6 ≤ 8 * n)
    (h : bytesOf (one j d) n = List.replicate n 0#8) : d = 0 := by
  obtain ⟨q, r, hr, rfl⟩ : ∃ q r, r < 4 ∧ j = 4 * q + r := ⟨j / 4, j % 4, by omega, by omega⟩
  have hwin := bytesOf_window (one (4 * q + r) d) 1 q n (by
    intro j hj; unfold one; rw [if_neg (by omega)]) (by omega)
  rw [one_shift, h] at hwin
  set k := min (3 * 1) (n - 3 * q) with hk
  have hl : (bytesOf (one r d) k).length = k := by simp [bytesOf]
  have := replicate_three (3 * q) (n - (3 * q + 3 * 1)) (bytesOf (one r d) k)
  rw [hl, show 3 * q + k + (n - (3 * q + 3 * 1)) = n by omega] at this
  have hz := this.mp hwin.symm
  rw [← one_zero r hr d hd, one_rest r hr k (by omega) (by omega) d hd, hz, List.replicate_append_replicate]
  congr 1; omega

end IMU.Base64
