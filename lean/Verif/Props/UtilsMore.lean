import Verif.Props.Utils

/-!
# Properties C80, C81: decimal numerals, byte order of serialised values
-/

namespace IMU.Props
open Spec Utils

/-! ### C80 -/

/-- The characters of the usual decimal numeral of `v` (what `printf("%u")` writes), as bytes. -/
def numeral (v : Nat) : List Byte := (Nat.toDigits 10 v).map fun c => BitVec.ofNat 8 c.toNat

theorem digit_val {c : Char} (h : c.isDigit) : IsDigit (BitVec.ofNat 8 c.toNat) ∧ (BitVec.ofNat 8 c.toNat).toNat = c.toNat := by
  have h1 : 48 ≤ c.toNat ∧ c.toNat ≤ 57 := by
    simp only [Char.isDigit, Bool.and_eq_true, decide_eq_true_eq] at h
    have a := UInt32.le_iff_toNat_le.mp h.1
    have b := UInt32.le_iff_toNat_le.mp h.2
    exact ⟨a, b⟩
  have h2 : (BitVec.ofNat 8 c.toNat).toNat = c.toNat := by rw [BitVec.toNat_ofNat]; omega
  exact ⟨by unfold IsDigit; omega, h2⟩

theorem numeral_digits (v : Nat) : ∀ c ∈ numeral v, IsDigit c := by
  intro c hc
  obtain ⟨d, hd, rfl⟩ := List.mem_map.mp hc
  exact (digit_val (Nat.isDigit_of_mem_toDigits (by decide) (by decide) hd)).1

theorem decimal_numeral (v : Nat) : decimal (numeral v) = v := by
  have key : ∀ (l : List Char) (a : Nat), (∀ c ∈ l, c.isDigit) →
      (l.map fun c => BitVec.ofNat 8 c.toNat).foldl (fun acc (c : Byte) => acc * 10 + (c.toNat - 48)) a = Nat.ofDigitChars 10 l a := by
    intro l
    induction l with
    | nil => intro a _; simp
    | cons c l ih =>
      intro a h
      rw [List.map_cons, List.foldl_cons, ih _ (fun d hd => h d (List.mem_cons_of_mem _ hd)), Nat.ofDigitChars_cons,
        (digit_val (h c (List.mem_cons_self ..))).2, Nat.mul_comm]
      rfl
  unfold decimal numeral
  rw [key _ _ (fun c hc => Nat.isDigit_of_mem_toDigits (by decide) (by decide) hc)]
  exact Nat.ofDigitChars_ten_toDigits

theorem decimal_inj : ∀ (s t : List Byte), s.length = t.length → (∀ c ∈ s, IsDigit c) → (∀ c ∈ t, IsDigit c) →
    decimal s = decimal t → s = t := by
  intro s
  induction s with
  | nil => intro t h _ _ _; exact (List.length_eq_zero_iff.mp h.symm).symm
  | cons c s ih =>
    intro t h hs ht e
    match t, h with
    | d :: t, h =>
      have hl : s.length = t.length := by simpa using h
      have h1 := decimal_lt s (fun x hx => hs x (List.mem_cons_of_mem _ hx))
      have h2 := decimal_lt t (fun x hx => ht x (List.mem_cons_of_mem _ hx))
      rw [decimal_cons, decimal_cons, hl] at e
      rw [hl] at h1
      have hc := hs c (List.mem_cons_self ..)
      have hd := ht d (List.mem_cons_self ..)
      unfold IsDigit at hc hd
      have hp : 0 < 10 ^ t.length := Nat.pow_pos (by decide)
      have e1 : c.toNat - 48 = d.toNat - 48 := by
        have a := congrArg (· / 10 ^ t.length) e
        rwa [Nat.mul_comm, Nat.mul_add_div hp, Nat.div_eq_of_lt h1, Nat.mul_comm, Nat.mul_add_div hp, Nat.div_eq_of_lt h2] at a
      rw [e1] at e
      have e2 : c = d := BitVec.eq_of_toNat_eq (by omega)
      rw [e2, ih t hl (fun x hx => hs x (List.mem_cons_of_mem _ hx)) (fun x hx => ht x (List.mem_cons_of_mem _ hx)) (by omega)]

theorem decimal_zeros (z : Nat) (s : List Byte) : decimal (List.replicate z 48#8 ++ s) = decimal s := by
  induction z with
  | zero => rfl
  | succ z ih => rw [List.replicate_succ, List.cons_append, decimal_cons, ih]; simp

/-- C80: `Utils_stringToUint32` accepts a non-empty text as `v` exactly if it is the decimal numeral of `v` behind some zeros
and has at most ten characters. -/
theorem C80_numerals (charSigned : Bool) (m : Mem) (b o : Nat) (len : Byte) (hm : o + len.toNat ≤ (m.bytes b).length)
    (h0 : len ≠ 0) (v : U32) :
    stringToUint32 charSigned (ptr b o) len m = .ok (true, v) m ↔
      len.toNat ≤ 10 ∧ ∃ z, slice (m.bytes b) o len.toNat = List.replicate z 48#8 ++ numeral v.toNat := by
  obtain ⟨r, n, h1, h2, h3⟩ := C01_stringToUint32_exact charSigned m b o len hm
  have hl : (slice (m.bytes b) o len.toNat).length = len.toNat := slice_length _ _ _ hm
  have hpos : 0 < len.toNat := Nat.pos_of_ne_zero fun h => h0 (BitVec.eq_of_toNat_eq h)
  rw [h1]
  constructor
  · intro e
    injection e with e _
    injection e with e1 e2
    subst e1 e2
    obtain ⟨a1, a2, a3⟩ := h2.1 rfl
    refine ⟨a1, len.toNat - (numeral n.toNat).length, ?_⟩
    have e := h3 rfl
    have hlen : (numeral n.toNat).length ≤ len.toNat := by
      unfold numeral
      rw [List.length_map, Nat.length_toDigits_le_iff (by decide) hpos, e, ← hl]
      simpa [hl] using decimal_lt _ a2
    apply decimal_inj
    · simp [hl]; omega
    · exact a2
    · intro c hc
      rcases List.mem_append.mp hc with hc | hc
      · rw [List.eq_of_mem_replicate hc]; decide
      · exact numeral_digits _ c hc
    · rw [decimal_zeros, decimal_numeral, e]
  · rintro ⟨a1, z, e⟩
    have hd : decimal (slice (m.bytes b) o len.toNat) = v.toNat := by rw [e, decimal_zeros, decimal_numeral]
    have hr : r = true := by
      refine h2.2 ⟨a1, ?_, by rw [hd]; exact v.isLt⟩
      rw [e]
      intro c hc
      rcases List.mem_append.mp hc with hc | hc
      · rw [List.eq_of_mem_replicate hc]; decide
      · exact numeral_digits _ c hc
    have hn : n = v := BitVec.eq_of_toNat_eq (by rw [h3 hr, hd])
    rw [hr, hn]

/-- C80: every value can be written: its numeral has at most ten characters and is read back as the value. -/
theorem C80_every_value (charSigned : Bool) (v : U32) (m : Mem) (b o : Nat) (h : slice (m.bytes b) o (numeral v.toNat).length = numeral v.toNat)
    (hm : o + (numeral v.toNat).length ≤ (m.bytes b).length) :
    (numeral v.toNat).length ≤ 10 ∧
      stringToUint32 charSigned (ptr b o) (BitVec.ofNat 8 (numeral v.toNat).length) m = .ok (true, v) m := by
  have hl : (numeral v.toNat).length ≤ 10 := by
    unfold numeral
    rw [List.length_map, Nat.length_toDigits_le_iff (by decide) (by decide)]
    have := v.isLt
    omega
  have e : (BitVec.ofNat 8 (numeral v.toNat).length).toNat = (numeral v.toNat).length := by rw [BitVec.toNat_ofNat]; omega
  have hpos : 0 < (numeral v.toNat).length := by
    unfold numeral; rw [List.length_map]; exact Nat.length_toDigits_pos
  refine ⟨hl, (C80_numerals charSigned m b o _ (by rw [e]; exact hm) ?_ v).2 ⟨by rw [e]; exact hl, 0, by rw [e, h]; rfl⟩⟩
  intro h0
  have := congrArg BitVec.toNat h0
  rw [e, show BitVec.toNat (0 : Byte) = 0 from rfl] at this
  omega

/-- The empty text is accepted as 0. -/
theorem C80_empty (charSigned : Bool) (m : Mem) (b o : Nat) (hm : o ≤ (m.bytes b).length) :
    stringToUint32 charSigned (ptr b o) 0#8 m = .ok (true, 0#32) m := by
  obtain ⟨r, n, h1, h2, h3⟩ := C01_stringToUint32_exact charSigned m b o 0#8 (by simpa using hm)
  have hr : r = true := h2.2 (by simp [slice, decimal])
  have := h3 hr
  have hn : n = 0#32 := BitVec.eq_of_toNat_eq (by rw [this]; simp [slice, decimal])
  rw [h1, hr, hn]

/-- Non-vacuity: the numeral of the greatest value. -/
example : numeral 4294967295 = "4294967295".toList.map (fun c => BitVec.ofNat 8 c.toNat) ∧ numeral 0 = [48#8] := by
  decide +kernel

/-! ### C81 -/

/-- What two writers of the same width leave, compared. -/
def Opposite {w : Nat} (be le : Ptr → BitVec w → C Unit) (rbe rle : Ptr → C (BitVec w)) (k : Nat) : Prop :=
  ∀ (b o b' o' : Nat) (v : BitVec w) (m n : Mem), o + k ≤ (m.bytes b).length → o' + k ≤ (n.bytes b').length →
    ∃ m' n', be (ptr b o) v m = .ok () m' ∧ le (ptr b' o') v n = .ok () n' ∧
      slice (n'.bytes b') o' k = (slice (m'.bytes b) o k).reverse ∧
      ∃ u, rle (ptr b o) m' = .ok u m' ∧ rbe (ptr b' o') n' = .ok u n'

theorem opposite {w k : Nat} {be le : Ptr → BitVec w → C Unit} {rbe rle : Ptr → C (BitVec w)} (h1 : Serialises be k valueBE)
    (h2 : Serialises le k valueLE) (h3 : Deserialises rbe k valueBE) (h4 : Deserialises rle k valueLE) :
    Opposite be le rbe rle k := by
  intro b o b' o' v m n hm hn
  obtain ⟨m', a1, a2, a3⟩ := (h1 b o v m).1 hm
  obtain ⟨n', b1, b2, b3⟩ := (h2 b' o' v n).1 hn
  have hm' : o + k ≤ (m'.bytes b).length := by rw [a3.2.2.1]; exact hm
  have hn' : o' + k ≤ (n'.bytes b').length := by rw [b3.2.2.1]; exact hn
  have e : slice (n'.bytes b') o' k = (slice (m'.bytes b) o k).reverse := by
    apply valueLE_inj
    · rw [List.length_reverse, slice_length _ _ _ hm', slice_length _ _ _ hn']
    · rw [← valueBE_eq_LE, a2, b2]
  obtain ⟨u, c1, c2⟩ := (h4 b o m').1 hm'
  obtain ⟨u', d1, d2⟩ := (h3 b' o' n').1 hn'
  have : u' = u := BitVec.eq_of_toNat_eq (by rw [c2, d2, e, valueBE_eq_LE, List.reverse_reverse])
  exact ⟨m', n', a1, b1, e, u, c1, this ▸ d1⟩

/-- C81: the two byte orders are mirror images, and reading a value in the wrong order gives the same (byte-swapped) value
either way. -/
theorem C81_opposite :
    Opposite serialize16BE serialize16LE deserialize16BE deserialize16LE 2 ∧
    Opposite serialize24BE serialize24LE deserialize24BE deserialize24LE 3 ∧
    Opposite serialize32BE serialize32LE deserialize32BE deserialize32LE 4 := by
  obtain ⟨s1, s2, s3, s4, s5, s6, s7⟩ := C04_serialise_layout
  obtain ⟨d1, d2, d3, d4, d5, d6, d7⟩ := C04_deserialise_layout
  exact ⟨opposite s2 s5 d2 d5, opposite s3 s6 d3 d6, opposite s4 s7 d4 d7⟩

/-- Comparing the written bytes from the first on (as `memcmp` does) compares the values. -/
def Monotone {w : Nat} (ser : Ptr → BitVec w → C Unit) (k : Nat) : Prop :=
  ∀ (b o b' o' : Nat) (v u : BitVec w) (m n : Mem), v.toNat < 256 ^ k → u.toNat < 256 ^ k →
    o + k ≤ (m.bytes b).length → o' + k ≤ (n.bytes b').length →
    ∃ m' n', ser (ptr b o) v m = .ok () m' ∧ ser (ptr b' o') u n = .ok () n' ∧
      (slice (m'.bytes b) o k < slice (n'.bytes b') o' k ↔ v < u)

theorem valueBE_cons (c : Byte) (s : List Byte) : valueBE (c :: s) = c.toNat * 256 ^ s.length + valueBE s := by
  have key : ∀ (s : List Byte) (a : Nat), s.foldl (fun acc (c : Byte) => acc * 256 + c.toNat) a = a * 256 ^ s.length + valueBE s := by
    intro s
    unfold valueBE
    induction s with
    | nil => intro a; simp
    | cons d s ih =>
      intro a
      rw [List.foldl_cons, List.foldl_cons, ih, ih (0 * 256 + d.toNat), List.length_cons, Nat.pow_succ]
      ring
  have := key s (0 * 256 + c.toNat)
  unfold valueBE at this ⊢
  rw [List.foldl_cons, this]
  simp

theorem valueBE_lex : ∀ (s t : List Byte), s.length = t.length → (s < t ↔ valueBE s < valueBE t)
  | [], [], _ => by simp
  | [], _ :: _, h => by simp at h
  | _ :: _, [], h => by simp at h
  | c :: s, d :: t, h => by
    have hl : s.length = t.length := by simpa using h
    have h1 := valueBE_lt s
    have h2 := valueBE_lt t
    rw [List.cons_lt_cons_iff, valueBE_lex s t hl, valueBE_cons, valueBE_cons, hl]
    rw [hl] at h1
    generalize 256 ^ t.length = N at *
    constructor
    · rintro (h | ⟨rfl, h⟩)
      · have : (c.toNat + 1) * N ≤ d.toNat * N := Nat.mul_le_mul_right _ h
        rw [Nat.add_mul] at this
        omega
      · omega
    · intro h
      rcases Nat.lt_trichotomy c.toNat d.toNat with h3 | h3 | h3
      · exact Or.inl h3
      · rw [h3] at h
        exact Or.inr ⟨BitVec.eq_of_toNat_eq h3, by omega⟩
      · have : (d.toNat + 1) * N ≤ c.toNat * N := Nat.mul_le_mul_right _ h3
        rw [Nat.add_mul] at this
        omega

theorem monotone {w k : Nat} {be : Ptr → BitVec w → C Unit} (h1 : Serialises be k valueBE) : Monotone be k := by
  intro b o b' o' v u m n hv hu hm hn
  obtain ⟨m', a1, a2, a3⟩ := (h1 b o v m).1 hm
  obtain ⟨n', b1, b2, b3⟩ := (h1 b' o' u n).1 hn
  refine ⟨m', n', a1, b1, ?_⟩
  rw [valueBE_lex, a2, b2, Nat.mod_eq_of_lt hv, Nat.mod_eq_of_lt hu, BitVec.lt_def]
  rw [slice_length _ _ _ (by rw [a3.2.2.1]; exact hm), slice_length _ _ _ (by rw [b3.2.2.1]; exact hn)]

/-- C81: the big-endian writers preserve the order. -/
theorem C81_big_endian_order :
    Monotone serialize16BE 2 ∧ Monotone serialize24BE 3 ∧ Monotone serialize32BE 4 := by
  obtain ⟨s1, s2, s3, s4, -, -, -⟩ := C04_serialise_layout
  exact ⟨monotone s2, monotone s3, monotone s4⟩

/-- C81: the little-endian writers do not. -/
theorem C81_little_endian_order :
    ¬ Monotone serialize16LE 2 ∧ ¬ Monotone serialize24LE 3 ∧ ¬ Monotone serialize32LE 4 := by
  refine ⟨?_, ?_, ?_⟩
  all_goals
    intro h
    obtain ⟨m', n', h1, h2, h3⟩ := h 0 0 0 0 1 256 (mem1 [0, 0, 0, 0]) (mem1 [0, 0, 0, 0]) (by decide) (by decide)
      (by decide) (by decide)
    cases h1
    cases h2
    revert h3
    decide +kernel

end IMU.Props
