import Verif.C.Lemmas
import Verif.Model.Crc
import Verif.Proofs.CrcCore
import Verif.Proofs.Bits
import Verif.Proofs.Base64

/-! # The table generators and the loops over the message -/

namespace IMU.Crc
open Spec.Crc
open Base64 (Reads constAt)

/-! ### Single steps -/

theorem and_top (x : U32) (k : Nat) (hk : k < 32) : (0#32 = x &&& BitVec.twoPow 32 k) ↔ x.getLsbD k = false := by
  rw [BitVec.and_twoPow]
  cases h : x.getLsbD k
  · simp
  · simp only [if_pos, reduceCtorEq, iff_false]
    intro e
    have := congrArg (fun y => y.getLsbD k) e
    simp [BitVec.getLsbD_twoPow, hk] at this

theorem step_msb {w : Nat} (P r : BitVec w) : step P r = if r.msb = false then r <<< 1 else r <<< 1 ^^^ P := by
  unfold step feed
  cases r.msb <;> simp

theorem residue8_step (P r : Byte) : residue8 P r = step P r := by
  have e : (0x80#8).setWidth 32 = BitVec.twoPow 32 7 := by decide
  have c : (0#32 = r.setWidth 32 &&& (0x80#8).setWidth 32) ↔ r.msb = false := by
    rw [e, and_top _ _ (by decide), BitVec.msb_eq_getLsbD_last]; simp
  unfold residue8
  rw [step_msb]
  simp only [c]
  split
  · apply BitVec.eq_of_getLsbD_eq; intro i hi; simp [hi, show i < 32 by omega]
  · apply BitVec.eq_of_getLsbD_eq; intro i hi
    simp [hi, show i < 32 by omega, show i - 1 < 32 by omega]

theorem residue16_step (P r : U16) : residue16 P r = step P r := by
  have e : (0x8000#16).setWidth 32 = BitVec.twoPow 32 15 := by decide
  have c : (0#32 = r.setWidth 32 &&& (0x8000#16).setWidth 32) ↔ r.msb = false := by
    rw [e, and_top _ _ (by decide), BitVec.msb_eq_getLsbD_last]; simp
  unfold residue16
  rw [step_msb]
  simp only [c]
  split
  · apply BitVec.eq_of_getLsbD_eq; intro i hi; simp [hi, show i < 32 by omega]
  · apply BitVec.eq_of_getLsbD_eq; intro i hi
    simp [hi, show i < 32 by omega, show i - 1 < 32 by omega]

theorem residue32_step (P r : U32) : residue32 P r = step P r := by
  have e : (0x80000000#32) = BitVec.twoPow 32 31 := by decide
  have c : (0#32 = r &&& 0x80000000#32) ↔ r.msb = false := by
    rw [e, and_top _ _ (by decide), BitVec.msb_eq_getLsbD_last]
  unfold residue32
  rw [step_msb]
  simp only [c]

theorem residues8_rounds (P : Byte) (n : Nat) : ∀ r, residues8 P n r = rounds (step P) n r := by
  induction n with
  | zero => intro r; rfl
  | succ n ih => intro r; rw [residues8, ih, residue8_step]; rfl

theorem residues16_rounds (P : U16) (n : Nat) : ∀ r, residues16 P n r = rounds (step P) n r := by
  induction n with
  | zero => intro r; rfl
  | succ n ih => intro r; rw [residues16, ih, residue16_step]; rfl

theorem residues32_rounds (P : U32) (n : Nat) : ∀ r, residues32 P n r = rounds (step P) n r := by
  induction n with
  | zero => intro r; rfl
  | succ n ih => intro r; rw [residues32, ih, residue32_step]; rfl

/-! ### The tables -/

/-- The table of a polynomial. -/
def tableOf {w : Nat} (P : BitVec w) : List (BitVec w) := (List.range 256).map fun d => entry P (BitVec.ofNat 8 d)

theorem tableOf_get {w : Nat} (P : BitVec w) (d : Byte) : (tableOf P)[d.toNat]? = some (entry P d) := by
  unfold tableOf
  rw [List.getElem?_map, List.getElem?_range (by have := d.isLt; omega)]
  simp

theorem fill_ok {α : Type} (f : Nat → α) (m : Mem) (n : Nat) : ∀ (T : List α), n ≤ T.length →
    forN n 0 (fun i T => put T i (f i)) T m = .ok ((List.range n).map f ++ T.drop n) m := by
  induction n with
  | zero => intro T _; simp
  | succ n ih =>
    intro T h
    rw [forN_snoc, ih T (by omega)]
    have hl : 0 + n < ((List.range n).map f ++ T.drop n).length := by simp; omega
    show put _ _ _ m = _
    rw [put, if_pos hl, List.range_succ, List.map_append]
    have hd : T.drop n = T[n] :: T.drop (n + 1) := List.drop_eq_getElem_cons (by omega)
    simp only [C.pure_run, Nat.zero_add]
    congr 1
    rw [List.set_append_right _ _ (by simp)]
    simp only [List.length_map, List.length_range, Nat.sub_self, List.map_cons, List.map_nil, List.append_assoc,
      List.singleton_append]
    rw [hd, List.set_cons_zero]

theorem fill_oob {α : Type} (f : Nat → α) (m : Mem) (n : Nat) (T : List α) (h : T.length < n) :
    forN n 0 (fun i T => put T i (f i)) T m = .ub .oobWrite := by
  obtain ⟨k, rfl⟩ : ∃ k, n = T.length + (1 + k) := ⟨n - T.length - 1, by omega⟩
  rw [forN_add, fill_ok f m T.length T (Nat.le_refl _)]
  simp only [forN_add]
  simp [forN_succ, put]

theorem tableCalculator8_ok (P : Byte) (T : List Byte) (m : Mem) (h : 256 ≤ T.length) :
    tableCalculator8 P T m = .ok (tableOf P ++ T.drop 256) m := by
  unfold tableCalculator8
  rw [fill_ok _ m 256 T h]
  congr 2
  unfold tableOf
  apply List.map_congr_left
  intro d hd
  rw [residues8_rounds, entry]; congr 1
  simp [topByte]

theorem tableCalculator16_ok (P : U16) (T : List U16) (m : Mem) (h : 256 ≤ T.length) :
    tableCalculator16 P T m = .ok (tableOf P ++ T.drop 256) m := by
  unfold tableCalculator16
  rw [fill_ok _ m 256 T h]
  congr 2
  unfold tableOf
  apply List.map_congr_left
  intro d hd
  have hd : d < 256 := List.mem_range.mp hd
  rw [residues16_rounds, entry]; congr 1
  apply BitVec.eq_of_toNat_eq
  simp [topByte, BitVec.toNat_setWidth, BitVec.toNat_ofNat, Nat.shiftLeft_eq]
  omega

theorem tableCalculator32_ok (P : U32) (T : List U32) (m : Mem) (h : 256 ≤ T.length) :
    tableCalculator32 P T m = .ok (tableOf P ++ T.drop 256) m := by
  unfold tableCalculator32
  rw [fill_ok _ m 256 T h]
  congr 2
  unfold tableOf
  apply List.map_congr_left
  intro d hd
  have hd : d < 256 := List.mem_range.mp hd
  have e : BitVec.ofNat 32 d = (BitVec.ofNat 8 d).setWidth 32 := by
    apply BitVec.eq_of_toNat_eq
    simp only [BitVec.toNat_setWidth, BitVec.toNat_ofNat]
    omega
  rw [residues32_rounds, entry, topByte, e]

/-! ### Reflection -/

theorem reflect_run {x y : U32} {n : Byte} (h : Bits.reflect x n = some y) (m : Mem) : reflect x n m = .ok y m := by
  unfold reflect; rw [h]; rfl

theorem reflect8 (d : Byte) (m : Mem) : ∃ y, reflect (d.setWidth 32) 8#8 m = .ok y m ∧ y.setWidth 8 = d.reverse := by
  obtain ⟨y, hy, h⟩ := Bits.reflect_bits (d.setWidth 32) 8#8 (by decide)
  refine ⟨y, reflect_run hy m, BitVec.eq_of_getLsbD_eq fun i hi => ?_⟩
  rw [BitVec.getLsbD_setWidth, h, BitVec.getLsbD_reverse, BitVec.getMsbD_eq_getLsbD]
  simp [hi, show 7 - i < 32 by omega]

theorem reflect16 (d : U16) (m : Mem) : ∃ y, reflect (d.setWidth 32) 16#8 m = .ok y m ∧ y.setWidth 16 = d.reverse := by
  obtain ⟨y, hy, h⟩ := Bits.reflect_bits (d.setWidth 32) 16#8 (by decide)
  refine ⟨y, reflect_run hy m, BitVec.eq_of_getLsbD_eq fun i hi => ?_⟩
  rw [BitVec.getLsbD_setWidth, h, BitVec.getLsbD_reverse, BitVec.getMsbD_eq_getLsbD]
  simp [hi, show 15 - i < 32 by omega]

theorem reflect32 (d : U32) (m : Mem) : reflect d 32#8 m = .ok d.reverse m := by
  obtain ⟨y, hy, h⟩ := Bits.reflect_bits d 32#8 (by decide)
  rw [reflect_run hy m, show y = d.reverse from BitVec.eq_of_getLsbD_eq fun i hi => ?_]
  rw [h, BitVec.getLsbD_reverse, BitVec.getMsbD_eq_getLsbD]
  simp [hi]

theorem temp_run (refin : Bool) (d : Byte) (m : Mem) : (if refin then do
      let r ← reflect (d.setWidth 32) 8#8
      return r.setWidth 8
    else return d : C Byte) m = .ok (if refin then d.reverse else d) m := by
  cases refin
  · rfl
  · obtain ⟨y, hy, h⟩ := reflect8 d m
    simp only [if_true]
    rw [C.bind_ok hy, C.pure_run, h]

/-- The bits of one byte in the order in which they enter the register. -/
def bitsOf (refin : Bool) (d : Byte) : List Bool := if refin then (bitsMSB d).reverse else bitsMSB d

theorem bitsMSB_reverse (d : Byte) : bitsMSB d.reverse = (bitsMSB d).reverse := by
  simp only [bitsMSB, BitVec.getLsbD_reverse, BitVec.getMsbD_eq_getLsbD]; rfl

theorem bitsOf_eq (refin : Bool) (d : Byte) : bitsMSB (if refin then d.reverse else d) = bitsOf refin d := by
  cases refin
  · rfl
  · simp only [if_true, bitsMSB_reverse, bitsOf]

/-! ### One byte of the message -/

theorem constAt_table {w : Nat} (P : BitVec w) (d : Byte) (m : Mem) : constAt (tableOf P) d.toNat m = .ok (entry P d) m := by
  unfold constAt; rw [tableOf_get]; rfl

theorem round8_ok (P : Byte) {m : Mem} {b o : Nat} (refin : Bool) {i : Nat} (crc : Byte) {d : Byte}
    (h : (m.bytes b)[o + i]? = some d) :
    round8 (tableOf P) (ptr b o) refin i crc m = .ok (crcBits P crc (bitsOf refin d)) m := by
  unfold round8
  rw [ptr_addN, C.bind_ok (load_ok h), C.bind_ok (temp_run refin d m), ← bitsOf_eq, crcBits_byte (by decide)]
  rw [constAt_table]
  congr 1
  rw [show crc <<< 8 = 0#8 from BitVec.eq_of_getLsbD_eq (by intro i hi; simp [hi]), BitVec.zero_xor]
  simp [high]

theorem round16_ok (P : U16) {m : Mem} {b o : Nat} (refin : Bool) {i : Nat} (crc : U16) {d : Byte}
    (h : (m.bytes b)[o + i]? = some d) :
    round16 (tableOf P) (ptr b o) refin i crc m = .ok (crcBits P crc (bitsOf refin d)) m := by
  unfold round16
  rw [ptr_addN, C.bind_ok (load_ok h), C.bind_ok (temp_run refin d m), ← bitsOf_eq, crcBits_byte (by decide)]
  generalize (if refin then d.reverse else d) = t
  have e : (crc.setWidth 32 >>> 8 ^^^ t.setWidth 32).setWidth 8 = high crc ^^^ t := by
    apply BitVec.eq_of_getLsbD_eq
    intro i hi
    simp [high, hi, show i < 32 by omega]
    intro; omega
  rw [e, C.bind_ok (constAt_table _ _ _), C.pure_run]
  congr 1
  apply BitVec.eq_of_getLsbD_eq
  intro i hi
  simp [hi, show i < 32 by omega, show i - 8 < 32 by omega]

theorem round32_ok (P : U32) {m : Mem} {b o : Nat} (refin : Bool) {i : Nat} (crc : U32) {d : Byte}
    (h : (m.bytes b)[o + i]? = some d) :
    round32 (tableOf P) (ptr b o) refin i crc m = .ok (crcBits P crc (bitsOf refin d)) m := by
  unfold round32
  rw [ptr_addN, C.bind_ok (load_ok h), C.bind_ok (temp_run refin d m), ← bitsOf_eq, crcBits_byte (by decide)]
  generalize (if refin then d.reverse else d) = t
  have e : (crc >>> 24 ^^^ t.setWidth 32).setWidth 8 = high crc ^^^ t := by
    apply BitVec.eq_of_getLsbD_eq
    intro i hi
    simp [high, hi, show i < 32 by omega]
  rw [e, C.bind_ok (constAt_table _ _ _), C.pure_run]

/-! ### The whole message -/

theorem bits_cons (refin : Bool) (d : Byte) (msg : List Byte) : bits refin (d :: msg) = bitsOf refin d ++ bits refin msg := rfl

theorem bits_append (refin : Bool) (a b : List Byte) : bits refin (a ++ b) = bits refin a ++ bits refin b := by
  simp [bits]

theorem loop_ok {w : Nat} (P : BitVec w) (refin : Bool) {round : Nat → BitVec w → C (BitVec w)} {m : Mem} {b o : Nat}
    (hround : ∀ i crc d, (m.bytes b)[o + i]? = some d → round i crc m = .ok (crcBits P crc (bitsOf refin d)) m) :
    ∀ (msg : List Byte) (k : Nat) (crc : BitVec w), Reads m b (o + k) msg →
      forN msg.length k round crc m = .ok (crcBits P crc (bits refin msg)) m := by
  intro msg
  induction msg with
  | nil => intro k crc _; rfl
  | cons d msg ih =>
    intro k crc h
    have h0 : (m.bytes b)[o + k]? = some d := by simpa using h 0 (by simp)
    have h1 : Reads m b (o + (k + 1)) msg := by
      intro i hi
      have := h (i + 1) (by simpa using hi)
      rw [show o + (k + 1) + i = o + k + (i + 1) by omega, this]; simp
    rw [List.length_cons, forN_succ, hround k crc d h0, bits_cons, crcBits_append]
    exact ih (k + 1) _ h1

/-- The last steps of the functions. -/
def finish {w : Nat} (r fxv : BitVec w) (refout fx : Bool) : BitVec w :=
  (if refout then r.reverse else r) ^^^ (if fx then fxv else 0#w)

theorem finish8_ok (r fxv : Byte) (refout fx : Bool) (m : Mem) :
    finish8 r fxv refout fx m = .ok (finish r fxv refout fx) m := by
  unfold finish8 finish
  rw [C.bind_ok (temp_run refout r m), C.pure_run]
  cases fx <;> simp

theorem finish16_ok (r fxv : U16) (refout fx : Bool) (m : Mem) :
    finish16 r fxv refout fx m = .ok (finish r fxv refout fx) m := by
  unfold finish16 finish
  cases refout
  · cases fx <;> simp [C.bind_ok (C.pure_run r m), C.pure_run]
  · obtain ⟨y, hy, h⟩ := reflect16 r m
    have e : (if true = true then do
        let r ← reflect (r.setWidth 32) 16#8
        return r.setWidth 16
      else return r : C U16) m = .ok r.reverse m := by
      rw [if_pos rfl, C.bind_ok hy, C.pure_run, h]
    rw [C.bind_ok e, C.pure_run]
    cases fx <;> simp

theorem finish32_ok (r fxv : U32) (refout fx : Bool) (m : Mem) :
    finish32 r fxv refout fx m = .ok (finish r fxv refout fx) m := by
  unfold finish32 finish
  cases refout
  · cases fx <;> simp [C.bind_ok (C.pure_run r m), C.pure_run]
  · have e : (if true = true then do
        let r ← reflect r 32#8
        return r
      else return r : C U32) m = .ok r.reverse m := by
      rw [if_pos rfl]; exact reflect32 r m
    rw [C.bind_ok e, C.pure_run]
    cases fx <;> simp

theorem base8_ok (P : Byte) {m : Mem} {b o : Nat} {msg : List Byte} {len : U32} (h : Reads m b o msg)
    (hl : msg.length = len.toNat) (init fxv : Byte) (refout refin fx : Bool) :
    base8 (tableOf P) (ptr b o) len init fxv refout refin fx m =
      .ok (finish (crcBits P init (bits refin msg)) fxv refout fx) m := by
  unfold base8
  rw [← hl, C.bind_ok (loop_ok P refin (fun i crc d hd => round8_ok P refin crc hd) msg 0 init (by simpa using h)),
    finish8_ok]

theorem base16_ok (P : U16) {m : Mem} {b o : Nat} {msg : List Byte} {len : U32} (h : Reads m b o msg)
    (hl : msg.length = len.toNat) (init fxv : U16) (refout refin fx : Bool) :
    base16 (tableOf P) (ptr b o) len init fxv refout refin fx m =
      .ok (finish (crcBits P init (bits refin msg)) fxv refout fx) m := by
  unfold base16
  rw [← hl, C.bind_ok (loop_ok P refin (fun i crc d hd => round16_ok P refin crc hd) msg 0 init (by simpa using h)),
    finish16_ok]

theorem base32_ok (P : U32) {m : Mem} {b o : Nat} {msg : List Byte} {len : U32} (h : Reads m b o msg)
    (hl : msg.length = len.toNat) (init fxv : U32) (refout refin fx : Bool) :
    base32 (tableOf P) (ptr b o) len init fxv refout refin fx m =
      .ok (finish (crcBits P init (bits refin msg)) fxv refout fx) m := by
  unfold base32
  rw [← hl, C.bind_ok (loop_ok P refin (fun i crc d hd => round32_ok P refin crc hd) msg 0 init (by simpa using h)),
    finish32_ok]

end IMU.Crc
