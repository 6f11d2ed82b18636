import Verif.Proofs.Frame

/-!
# Properties C01 - C08: Src/utils.c
-/

namespace IMU.Props
open Spec Utils

/-! ### C01 -/

/-- C01: `Utils_stringToUint32` accepts exactly the digit strings of at most ten characters whose value
fits in 32 bits, and stores that value; it reads only the `len` characters (the block may end right
behind them) and does not modify memory. -/
theorem C01_stringToUint32_exact (charSigned : Bool) (m : Mem) (b o : Nat) (len : Byte)
    (hm : o + len.toNat ≤ (m.bytes b).length) :
    ∃ r n, stringToUint32 charSigned (ptr b o) len m = .ok (r, n) m ∧
      (r = true ↔ len.toNat ≤ 10 ∧ (∀ c ∈ slice (m.bytes b) o len.toNat, IsDigit c) ∧
        decimal (slice (m.bytes b) o len.toNat) < 2^32) ∧
      (r = true → n.toNat = decimal (slice (m.bytes b) o len.toNat)) :=
  stringToUint32_spec charSigned m b o len hm

/-- Memory with one object `0` holding `l` (for examples). -/
def mem1 (l : List Byte) : Mem := ⟨fun b => if b = 0 then l else [], fun _ => []⟩

/-- Non-vacuity of C01: "4294967295" is accepted (largest value) ... -/
example : decimal ("4294967295".toList.map fun c => BitVec.ofNat 8 c.toNat) = 4294967295 := by decide
example : ∃ r n m', stringToUint32 true (ptr 0 0) 10
    (mem1 ("4294967295".toList.map fun c => BitVec.ofNat 8 c.toNat)) = .ok (r, n) m' ∧
    r = true ∧ n = 4294967295 := ⟨_, _, _, rfl, rfl, by decide⟩

/-! ### C02 -/

/-- C02: powers of ten. -/
theorem C02_quickPow10_exact (e : Byte) (old : U32) :
    (e.toNat < 10 → (quickUint32Pow10 e old).1 = true ∧
      (quickUint32Pow10 e old).2.toNat = 10 ^ e.toNat) ∧
    (10 ≤ e.toNat → quickUint32Pow10 e old = (false, old)) := by
  constructor
  · intro h
    rw [pow10_eq e old h]
    refine ⟨rfl, ?_⟩
    have : 10 ^ e.toNat ≤ 10 ^ 9 := Nat.pow_le_pow_right (by norm_num) (by omega)
    simp only [BitVec.toNat_ofNat]
    exact Nat.mod_eq_of_lt (by omega)
  · intro h
    unfold quickUint32Pow10
    rw [dif_neg (by omega)]

example : quickUint32Pow10 9 7 = (true, 1000000000) ∧ quickUint32Pow10 10 7 = (false, 7) := by
  decide

/-! ### C04, C05: byte order and frame -/

/-- C04/C05: each serialiser writes the base-256 digits of the value in its byte order, changes only
those bytes and is undefined exactly if they do not fit. -/
theorem C04_serialise_layout :
    Serialises serialize8 1 valueBE ∧
    Serialises serialize16BE 2 valueBE ∧ Serialises serialize24BE 3 valueBE ∧
    Serialises serialize32BE 4 valueBE ∧ Serialises serialize16LE 2 valueLE ∧
    Serialises serialize24LE 3 valueLE ∧ Serialises serialize32LE 4 valueLE :=
  ⟨serialises_of (fun v => [v]) (fun _ => rfl)
      (fun v => by have := v.isLt; simp [valueBE]; omega) serialize8_eq,
   serialises_of _ (fun _ => rfl) (fun v => valueBE_dig2 v.toNat) serialize16BE_eq,
   serialises_of _ (fun _ => rfl) (fun v => valueBE_dig3 v.toNat) serialize24BE_eq,
   serialises_of _ (fun _ => rfl) (fun v => valueBE_dig4 v.toNat) serialize32BE_eq,
   serialises_of _ (fun _ => rfl) (fun v => valueLE_dig2 v.toNat) serialize16LE_eq,
   serialises_of _ (fun _ => rfl) (fun v => valueLE_dig3 v.toNat) serialize24LE_eq,
   serialises_of _ (fun _ => rfl) (fun v => valueLE_dig4 v.toNat) serialize32LE_eq⟩

/-- C04/C05 for the deserialisers. -/
theorem C04_deserialise_layout :
    Deserialises deserialize8 1 valueBE ∧
    Deserialises deserialize16BE 2 valueBE ∧ Deserialises deserialize24BE 3 valueBE ∧
    Deserialises deserialize32BE 4 valueBE ∧ Deserialises deserialize16LE 2 valueLE ∧
    Deserialises deserialize24LE 3 valueLE ∧ Deserialises deserialize32LE 4 valueLE := by
  refine ⟨?_, deserialize16BE_eq, deserialize24BE_eq, deserialize32BE_eq, deserialize16LE_eq,
    deserialize24LE_eq, deserialize32LE_eq⟩
  intro b o m
  refine ⟨fun h => ?_, (deserialize8_eq b o m).2⟩
  obtain ⟨v, h1, h2⟩ := (deserialize8_eq b o m).1 h
  exact ⟨v, h1, by rw [← h2]; simp [valueBE]⟩

/-- A `k`-byte writer is defined exactly if the `k` bytes exist, and changes nothing but them. -/
def WritesOnly {w : Nat} (ser : Ptr → BitVec w → C Unit) (k : Nat) : Prop :=
  ∀ (b o : Nat) (v : BitVec w) (m : Mem),
    ((∃ m', ser (ptr b o) v m = .ok () m') ↔ o + k ≤ (m.bytes b).length) ∧
    ∀ m', ser (ptr b o) v m = .ok () m' → OnlyChanged m m' b o k

/-- A `k`-byte reader is defined exactly if the `k` bytes exist, changes nothing, and its result depends on nothing but
them. -/
def ReadsOnly {w : Nat} (des : Ptr → C (BitVec w)) (k : Nat) : Prop :=
  ∀ (b o : Nat) (m : Mem),
    ((∃ v m', des (ptr b o) m = .ok v m') ↔ o + k ≤ (m.bytes b).length) ∧
    (∀ v m', des (ptr b o) m = .ok v m' → m' = m) ∧
    ∀ (b' o' : Nat) (n : Mem) (v : BitVec w), des (ptr b o) m = .ok v m → o' + k ≤ (n.bytes b').length →
      slice (n.bytes b') o' k = slice (m.bytes b) o k → des (ptr b' o') n = .ok v n

theorem writesOnly {w k : Nat} {ser : Ptr → BitVec w → C Unit} {value : List Byte → Nat} (h : Serialises ser k value) :
    WritesOnly ser k := by
  intro b o v m
  have h := h b o v m
  refine ⟨⟨?_, fun hl => ?_⟩, fun m' hm => ?_⟩
  · rintro ⟨m', hm⟩
    by_contra hc
    rw [h.2 (by omega)] at hm; cases hm
  · obtain ⟨m', h1, _⟩ := h.1 hl
    exact ⟨m', h1⟩
  · by_cases hc : o + k ≤ (m.bytes b).length
    · obtain ⟨m'', h1, _, h3⟩ := h.1 hc
      rw [h1] at hm; cases hm; exact h3
    · rw [h.2 (by omega)] at hm; cases hm

theorem readsOnly {w k : Nat} {des : Ptr → C (BitVec w)} {value : List Byte → Nat} (h : Deserialises des k value) :
    ReadsOnly des k := by
  intro b o m
  have h0 := h b o m
  refine ⟨⟨?_, fun hl => ?_⟩, fun v m' hm => ?_, fun b' o' n v hm hl hs => ?_⟩
  · rintro ⟨v, m', hm⟩
    by_contra hc
    rw [h0.2 (by omega)] at hm; cases hm
  · obtain ⟨v, h1, _⟩ := h0.1 hl
    exact ⟨v, m, h1⟩
  · by_cases hc : o + k ≤ (m.bytes b).length
    · obtain ⟨v', h1, _⟩ := h0.1 hc
      rw [h1] at hm; cases hm; rfl
    · rw [h0.2 (by omega)] at hm; cases hm
  · by_cases hc : o + k ≤ (m.bytes b).length
    · obtain ⟨v', h1, h2⟩ := h0.1 hc
      rw [h1] at hm; cases hm
      obtain ⟨v'', h3, h4⟩ := (h b' o' n).1 hl
      rw [hs, ← h2] at h4
      rw [h3, BitVec.eq_of_toNat_eq h4]
    · rw [h0.2 (by omega)] at hm; cases hm

/-- C05: every serialiser is defined exactly if its bytes exist and changes only them. -/
theorem C05_serialise_frame :
    WritesOnly serialize8 1 ∧ WritesOnly serialize16BE 2 ∧ WritesOnly serialize24BE 3 ∧ WritesOnly serialize32BE 4 ∧
    WritesOnly serialize16LE 2 ∧ WritesOnly serialize24LE 3 ∧ WritesOnly serialize32LE 4 := by
  obtain ⟨s1, s2, s3, s4, s5, s6, s7⟩ := C04_serialise_layout
  exact ⟨writesOnly s1, writesOnly s2, writesOnly s3, writesOnly s4, writesOnly s5, writesOnly s6, writesOnly s7⟩

/-- C05: every deserialiser is defined exactly if its bytes exist and changes nothing. -/
theorem C05_deserialise_frame :
    ReadsOnly deserialize8 1 ∧ ReadsOnly deserialize16BE 2 ∧ ReadsOnly deserialize24BE 3 ∧ ReadsOnly deserialize32BE 4 ∧
    ReadsOnly deserialize16LE 2 ∧ ReadsOnly deserialize24LE 3 ∧ ReadsOnly deserialize32LE 4 := by
  obtain ⟨s1, s2, s3, s4, s5, s6, s7⟩ := C04_deserialise_layout
  exact ⟨readsOnly s1, readsOnly s2, readsOnly s3, readsOnly s4, readsOnly s5, readsOnly s6, readsOnly s7⟩

/-- Non-vacuity of C03-C05: a concrete four-byte buffer and value. -/
example : ∃ m', serialize32BE (ptr 0 1) 0x01020304 (mem1 [9, 0, 0, 0, 0, 8]) = .ok () m' ∧
    m'.bytes 0 = [9, 1, 2, 3, 4, 8] := ⟨_, rfl, by decide⟩
example : ∃ m', serialize32LE (ptr 0 1) 0x01020304 (mem1 [9, 0, 0, 0, 0, 8]) = .ok () m' ∧
    m'.bytes 0 = [9, 4, 3, 2, 1, 8] := ⟨_, rfl, by decide⟩

/-! ### C03 -/

/-- C03: serialise/deserialise round trips in both directions. -/
theorem C03_round_trips :
    RoundTrips serialize8 deserialize8 1 ∧
    RoundTrips serialize16BE deserialize16BE 2 ∧ RoundTrips serialize24BE deserialize24BE 3 ∧
    RoundTrips serialize32BE deserialize32BE 4 ∧ RoundTrips serialize16LE deserialize16LE 2 ∧
    RoundTrips serialize24LE deserialize24LE 3 ∧ RoundTrips serialize32LE deserialize32LE 4 := by
  obtain ⟨s1, s2, s3, s4, s5, s6, s7⟩ := C04_serialise_layout
  obtain ⟨d1, d2, d3, d4, d5, d6, d7⟩ := C04_deserialise_layout
  exact ⟨roundTrips_of valueBE_inj valueBE_lt s1 d1, roundTrips_of valueBE_inj valueBE_lt s2 d2,
    roundTrips_of valueBE_inj valueBE_lt s3 d3, roundTrips_of valueBE_inj valueBE_lt s4 d4,
    roundTrips_of valueLE_inj valueLE_lt s5 d5, roundTrips_of valueLE_inj valueLE_lt s6 d6,
    roundTrips_of valueLE_inj valueLE_lt s7 d7⟩

/-- C03 for full-width values: nothing is lost. -/
theorem C03_round_trip_value (b o : Nat) (m : Mem) (v : U32) (u : U16)
    (h : o + 4 ≤ (m.bytes b).length) :
    (∃ m', serialize32BE (ptr b o) v m = .ok () m' ∧ deserialize32BE (ptr b o) m' = .ok v m') ∧
    (∃ m', serialize32LE (ptr b o) v m = .ok () m' ∧ deserialize32LE (ptr b o) m' = .ok v m') ∧
    (∃ m', serialize16BE (ptr b o) u m = .ok () m' ∧ deserialize16BE (ptr b o) m' = .ok u m') ∧
    (∃ m', serialize16LE (ptr b o) u m = .ok () m' ∧ deserialize16LE (ptr b o) m' = .ok u m') := by
  obtain ⟨-, r2, -, r4, r5, -, r7⟩ := C03_round_trips
  have hv := v.isLt
  have hu := u.isLt
  refine ⟨?_, ?_, ?_, ?_⟩
  · obtain ⟨m', v', h1, h2, h3⟩ := (r4 b o m h).1 v
    have : v' = v := BitVec.eq_of_toNat_eq (by rw [h3]; exact Nat.mod_eq_of_lt hv)
    exact ⟨m', h1, this ▸ h2⟩
  · obtain ⟨m', v', h1, h2, h3⟩ := (r7 b o m h).1 v
    have : v' = v := BitVec.eq_of_toNat_eq (by rw [h3]; exact Nat.mod_eq_of_lt hv)
    exact ⟨m', h1, this ▸ h2⟩
  · obtain ⟨m', v', h1, h2, h3⟩ := (r2 b o m (by omega)).1 u
    have : v' = u := BitVec.eq_of_toNat_eq (by rw [h3]; exact Nat.mod_eq_of_lt hu)
    exact ⟨m', h1, this ▸ h2⟩
  · obtain ⟨m', v', h1, h2, h3⟩ := (r5 b o m (by omega)).1 u
    have : v' = u := BitVec.eq_of_toNat_eq (by rw [h3]; exact Nat.mod_eq_of_lt hu)
    exact ⟨m', h1, this ▸ h2⟩

/-! ### C06 -/

/-- C06: the big-endian blob functions copy, for non-overlapping ranges. -/
theorem C06_blobBE_copies (bd od bs os : Nat) (size : U32) (m : Mem)
    (hd : od + size.toNat ≤ (m.bytes bd).length) (hs : os + size.toNat ≤ (m.bytes bs).length)
    (hno : bd ≠ bs ∨ od + size.toNat ≤ os ∨ os + size.toNat ≤ od) :
    ∃ m', serializeBlobBE (ptr bd od) (ptr bs os) size m = .ok () m' ∧
      deserializeBlobBE (ptr bs os) (ptr bd od) size m = .ok () m' ∧
      slice (m'.bytes bd) od size.toNat = slice (m.bytes bs) os size.toNat ∧
      OnlyChanged m m' bd od size.toNat := by
  have hl := slice_length _ _ _ hs
  refine ⟨_, serializeBlobBE_eq bd od bs os size m hd hs hno,
    deserializeBlobBE_eq bd od bs os size m hd hs hno, ?_, ?_⟩
  · have := slice_splice_same (m.bytes bd) od (slice (m.bytes bs) os size.toNat) (by omega)
    rw [hl] at this
    rw [Mem.upd_bytes, if_pos rfl, this]
  · have := onlyChanged_splice m bd od (slice (m.bytes bs) os size.toNat) (by omega)
    rw [hl] at this; exact this

/-- C06: the little-endian blob functions store the bytes in reverse order (sizes below 2^31). -/
theorem C06_blobLE_reverses (bd od bs os : Nat) (size : U32) (m : Mem) (hsz : size.toNat < 2^31)
    (hd : od + size.toNat ≤ (m.bytes bd).length) (hs : os + size.toNat ≤ (m.bytes bs).length)
    (hno : bd ≠ bs ∨ od + size.toNat ≤ os ∨ os + size.toNat ≤ od) :
    ∃ m', serializeBlobLE (ptr bd od) (ptr bs os) size m = .ok () m' ∧
      deserializeBlobLE (ptr bs os) (ptr bd od) size m = .ok () m' ∧
      slice (m'.bytes bd) od size.toNat = (slice (m.bytes bs) os size.toNat).reverse ∧
      OnlyChanged m m' bd od size.toNat := by
  have hl : (slice (m.bytes bs) os size.toNat).reverse.length = size.toNat := by
    rw [List.length_reverse, slice_length _ _ _ hs]
  refine ⟨_, serializeBlobLE_eq bd od bs os size m hsz hd hs hno,
    deserializeBlobLE_eq bd od bs os size m hsz hd hs hno, ?_, ?_⟩
  · have := slice_splice_same (m.bytes bd) od (slice (m.bytes bs) os size.toNat).reverse (by omega)
    rw [hl] at this
    rw [Mem.upd_bytes, if_pos rfl, this]
  · have := onlyChanged_splice m bd od (slice (m.bytes bs) os size.toNat).reverse (by omega)
    rw [hl] at this; exact this

/-- C06: serialising a blob and deserialising it into a third buffer restores it. -/
theorem C06_blob_round_trip (bd od bs os bt ot : Nat) (size : U32) (m : Mem)
    (hsz : size.toNat < 2^31)
    (hd : od + size.toNat ≤ (m.bytes bd).length) (hs : os + size.toNat ≤ (m.bytes bs).length)
    (ht : ot + size.toNat ≤ (m.bytes bt).length) (hne : bd ≠ bs) (hne' : bd ≠ bt) :
    (∃ m1 m2, serializeBlobLE (ptr bd od) (ptr bs os) size m = .ok () m1 ∧
      deserializeBlobLE (ptr bd od) (ptr bt ot) size m1 = .ok () m2 ∧
      slice (m2.bytes bt) ot size.toNat = slice (m.bytes bs) os size.toNat) ∧
    (∃ m1 m2, serializeBlobBE (ptr bd od) (ptr bs os) size m = .ok () m1 ∧
      deserializeBlobBE (ptr bd od) (ptr bt ot) size m1 = .ok () m2 ∧
      slice (m2.bytes bt) ot size.toNat = slice (m.bytes bs) os size.toNat) := by
  constructor
  · obtain ⟨m1, h1, _, h3, h4⟩ := C06_blobLE_reverses bd od bs os size m hsz hd hs (.inl hne)
    obtain ⟨m2, _, h6, h7, _⟩ := C06_blobLE_reverses bt ot bd od size m1 hsz
      (by rw [h4.2.1 bt (Ne.symm hne')]; exact ht) (by rw [h4.2.2.1]; exact hd) (.inl (Ne.symm hne'))
    refine ⟨m1, m2, h1, h6, ?_⟩
    rw [h7, h3, List.reverse_reverse]
  · obtain ⟨m1, h1, _, h3, h4⟩ := C06_blobBE_copies bd od bs os size m hd hs (.inl hne)
    obtain ⟨m2, _, h6, h7, _⟩ := C06_blobBE_copies bt ot bd od size m1
      (by rw [h4.2.1 bt (Ne.symm hne')]; exact ht) (by rw [h4.2.2.1]; exact hd) (.inl (Ne.symm hne'))
    exact ⟨m1, m2, h1, h6, by rw [h7, h3]⟩

/-- C06: the bound 2^31 is necessary: above it nothing is copied, at it the subtraction overflows. -/
theorem C06_blobLE_limit (p q : Ptr) (size : U32) (m : Mem) :
    (2^31 < size.toNat → serializeBlobLE p q size m = .ok () m ∧
      deserializeBlobLE q p size m = .ok () m) ∧
    (size.toNat = 2^31 → serializeBlobLE p q size m = .ub .signedOverflow ∧
      deserializeBlobLE q p size m = .ub .signedOverflow) :=
  ⟨fun h => ⟨serializeBlobLE_big p q size m h, serializeBlobLE_big p q size m h⟩,
   fun h => ⟨serializeBlobLE_edge p q size m h, serializeBlobLE_edge p q size m h⟩⟩

/-- Memory with objects `0` and `1` (for examples). -/
def mem2 (l l' : List Byte) : Mem :=
  ⟨fun b => if b = 0 then l else if b = 1 then l' else [], fun _ => []⟩

example : ∃ m', serializeBlobLE (ptr 0 1) (ptr 1 0) 3 (mem2 [9, 0, 0, 0, 8] [1, 2, 3]) = .ok () m' ∧
    m'.bytes 0 = [9, 3, 2, 1, 8] := ⟨_, rfl, by decide⟩
example : (2:Nat)^31 < (0x80000001#32).toNat := by decide

/-! ### C07 -/

/-- C07: swapping exchanges the two ranges and nothing else. -/
theorem C07_swap_exchanges (b1 o1 b2 o2 : Nat) (size : U32) (m : Mem)
    (h1 : o1 + size.toNat ≤ (m.bytes b1).length) (h2 : o2 + size.toNat ≤ (m.bytes b2).length)
    (hno : b1 ≠ b2 ∨ o1 + size.toNat ≤ o2 ∨ o2 + size.toNat ≤ o1 ∨ o1 = o2) :
    ∃ m', swapElements (ptr b1 o1) (ptr b2 o2) size m = .ok () m' ∧ m'.words = m.words ∧
      slice (m'.bytes b1) o1 size.toNat = slice (m.bytes b2) o2 size.toNat ∧
      slice (m'.bytes b2) o2 size.toNat = slice (m.bytes b1) o1 size.toNat ∧
      (∀ x, (m'.bytes x).length = (m.bytes x).length) ∧
      (∀ x i, ¬ (x = b1 ∧ o1 ≤ i ∧ i < o1 + size.toNat) → ¬ (x = b2 ∧ o2 ≤ i ∧ i < o2 + size.toNat) →
        (m'.bytes x)[i]? = (m.bytes x)[i]?) := by
  obtain ⟨m', h3, h4, h5⟩ := swapElements_spec b1 o1 b2 o2 size m h1 h2 hno
  have hout : ∀ x i, ¬ (x = b1 ∧ o1 ≤ i ∧ i < o1 + size.toNat) →
      ¬ (x = b2 ∧ o2 ≤ i ∧ i < o2 + size.toNat) → (m'.bytes x)[i]? = (m.bytes x)[i]? := by
    intro x i hx1 hx2
    rw [h5]; unfold swapped
    rw [if_neg (by simpa using hx1), if_neg (by simpa using hx2)]
  refine ⟨m', h3, h4, ?_, ?_, ?_, hout⟩
  · apply List.ext_getElem?; intro k
    rw [getElem?_slice, getElem?_slice]
    split
    · rw [h5]; unfold swapped
      rw [if_pos (by omega)]; congr 1; omega
    · rfl
  · apply List.ext_getElem?; intro k
    rw [getElem?_slice, getElem?_slice]
    split
    · rw [h5]; unfold swapped
      split
      · rename_i hc
        have : b1 = b2 := by omega
        subst this
        have : o1 = o2 := by omega
        subst this
        congr 1; omega
      · rw [if_pos (by omega)]; congr 1; omega
    · rfl
  · intro x
    have hnone : ∀ i : Nat, (m'.bytes x)[i]? = none ↔ (m.bytes x)[i]? = none := by
      intro i
      rw [h5]; unfold swapped
      split
      · rename_i hc
        obtain ⟨rfl, hc⟩ := hc
        simp only [List.getElem?_eq_none_iff]; omega
      · split
        · rename_i hc
          obtain ⟨rfl, hc⟩ := hc
          simp only [List.getElem?_eq_none_iff]; omega
        · rfl
    have a := hnone (m'.bytes x).length
    have c := hnone (m.bytes x).length
    simp only [List.getElem?_eq_none_iff] at a c
    omega

/-- C07: swapping twice is the identity. -/
theorem C07_swap_involutive (b1 o1 b2 o2 : Nat) (size : U32) (m : Mem)
    (h1 : o1 + size.toNat ≤ (m.bytes b1).length) (h2 : o2 + size.toNat ≤ (m.bytes b2).length)
    (hno : b1 ≠ b2 ∨ o1 + size.toNat ≤ o2 ∨ o2 + size.toNat ≤ o1 ∨ o1 = o2) :
    ∃ m', swapElements (ptr b1 o1) (ptr b2 o2) size m = .ok () m' ∧
      swapElements (ptr b1 o1) (ptr b2 o2) size m' = .ok () m := by
  obtain ⟨m', a1, a2, a3, a4, a5, a6⟩ := C07_swap_exchanges b1 o1 b2 o2 size m h1 h2 hno
  obtain ⟨m'', c1, c2, c3, c4, c5, c6⟩ := C07_swap_exchanges b1 o1 b2 o2 size m'
    (by rw [a5]; exact h1) (by rw [a5]; exact h2) hno
  refine ⟨m', a1, ?_⟩
  rw [c1]
  congr 1
  apply Mem.ext'
  · intro x
    apply List.ext_getElem?; intro i
    by_cases hx1 : x = b1 ∧ o1 ≤ i ∧ i < o1 + size.toNat
    · obtain ⟨rfl, hx1⟩ := hx1
      have := congrArg (·[i - o1]?) (c3.trans a4)
      simp only [getElem?_slice] at this
      rw [if_pos (by omega), if_pos (by omega), show o1 + (i - o1) = i by omega] at this
      exact this
    · by_cases hx2 : x = b2 ∧ o2 ≤ i ∧ i < o2 + size.toNat
      · obtain ⟨rfl, hx2⟩ := hx2
        have := congrArg (·[i - o2]?) (c4.trans a3)
        simp only [getElem?_slice] at this
        rw [if_pos (by omega), if_pos (by omega), show o2 + (i - o2) = i by omega] at this
        exact this
      · rw [c6 x i hx1 hx2, a6 x i hx1 hx2]
  · intro x; rw [c2, a2]

example : ∃ m', swapElements (ptr 0 0) (ptr 0 3) 2 (mem1 [1, 2, 3, 4, 5]) = .ok () m' ∧
    m'.bytes 0 = [4, 5, 3, 1, 2] := ⟨_, rfl, by decide⟩

/-! ### C08 -/

/-- C08: the character predicates hold exactly for the ASCII letters. -/
theorem C08_char_classes (c : Byte) :
    (isUpperChar c = true ↔ Char.ofNat c.toNat ∈ upperLetters) ∧
    (isLowerChar c = true ↔ Char.ofNat c.toNat ∈ lowerLetters) ∧
    (isAlpha c = true ↔ Char.ofNat c.toNat ∈ upperLetters ∨ Char.ofNat c.toNat ∈ lowerLetters) ∧
    ¬ (isUpperChar c = true ∧ isLowerChar c = true) := by
  revert c; decide +kernel

end IMU.Props
