import Verif.Proofs.CrcOrders
import Verif.Proofs.SortGlue
import Verif.Props.Crc
import Verif.Props.Utils

/-!
# CRC: properties C73 to C76, the detection of transmission errors

Specification: `Verif/Spec/CrcErrors.lean`.
-/

namespace IMU.Props
open Spec Spec.Crc

/-! ### C73: a message followed by its checksum -/

/-- C73: of all messages that continue `msg` by `w / 8` bytes, exactly the one that continues it by its checksum (low
byte first for the reflected CRCs, high byte first for the others) has the residue as its CRC. -/
theorem C73_residue {w : Nat} (p : Params w) (hp : p.poly.getLsbD 0 = true) (hs : p.refin = p.refout) (msg t : List Byte)
    (ht : 8 * t.length = w) :
    crc p (msg ++ t) = residue p ↔ (if p.refin then valueLE t else valueBE t) = (crc p msg).toNat :=
  Crc.residue_iff p hp hs msg t ht

/-- C73 at the functions: a receiver may check for the residue instead of comparing checksums. -/
theorem C73_functions {w : Nat} {e : Entry w} {f : CrcFn w} (hf : Shipped w e f) {m : Mem} {p q : Piece} (hp : p.In m)
    (hq : q.In m) {t : List Byte} (ht : 8 * t.length = w) (hd : q.data m = p.data m ++ t) :
    ∃ c d, f (ptr p.b p.o) p.n true none m = .ok c m ∧ f (ptr q.b q.o) q.n true none m = .ok d m ∧
      (d = residue e.params ↔ (if e.params.refin then valueLE t else valueBE t) = c.toNat) := by
  have hi := Crc.shipped_impl hf
  refine ⟨_, _, C72_published hf hp, C72_published hf hq, ?_⟩
  rw [← C73_residue e.params hi.odd hi.same (slice (m.bytes p.b) p.o p.n.toNat) t ht]
  rw [show slice (m.bytes q.b) q.o q.n.toNat = slice (m.bytes p.b) p.o p.n.toNat ++ t from hd]

theorem slice_of_onlyChanged {m m' : Mem} {b o k i n : Nat} (h : OnlyChanged m m' b o k) (hi : i + n ≤ o) :
    slice (m'.bytes b) i n = slice (m.bytes b) i n := by
  apply List.ext_getElem?
  intro j
  rw [getElem?_slice, getElem?_slice]
  split
  · exact h.2.2.2 _ (Or.inl (by omega))
  · rfl

theorem send {w k : Nat} {e : Entry w} {f : CrcFn w} (hf : Shipped w e f) (hk : w = 8 * k) {ser : Ptr → BitVec w → C Unit}
    (hser : Serialises ser k (if e.params.refin then valueLE else valueBE)) {m : Mem} {b o : Nat} {len : U32}
    (h : o + len.toNat + k ≤ (m.bytes b).length) (hl : len.toNat + k < 2 ^ 32) :
    ∃ c m', f (ptr b o) len true none m = .ok c m ∧ ser (ptr b (o + len.toNat)) c m = .ok () m' ∧
      f (ptr b o) (len + BitVec.ofNat 32 k) true none m' = .ok (residue e.params) m' := by
  have hi := Crc.shipped_impl hf
  obtain ⟨m', h1, h2, h3⟩ := (hser b (o + len.toNat) (crc e.params (slice (m.bytes b) o len.toNat)) m).1 h
  have hn : (len + BitVec.ofNat 32 k).toNat = len.toNat + k := by
    rw [BitVec.toNat_add, BitVec.toNat_ofNat, Nat.mod_eq_of_lt (show k < 2 ^ 32 by omega), Nat.mod_eq_of_lt hl]
  refine ⟨_, m', C72_published hf (by omega), h1, ?_⟩
  have hlen := h3.2.2.1
  rw [C72_published hf (by rw [hn, hlen]; omega)]
  congr 1
  rw [hn, Sort.slice_add, slice_of_onlyChanged h3 (Nat.le_refl _)]
  have ht : 8 * (slice (m'.bytes b) (o + len.toNat) k).length = w := by rw [slice_length _ _ _ (by omega), hk]
  rw [C73_residue e.params hi.odd hi.same _ _ ht]
  have hlt : (crc e.params (slice (m.bytes b) o len.toNat)).toNat < 256 ^ k := by
    have := (crc e.params (slice (m.bytes b) o len.toNat)).isLt
    have e : (2 : Nat) ^ w = 256 ^ k := by rw [hk, Nat.pow_mul]
    omega
  rw [Nat.mod_eq_of_lt hlt] at h2
  rw [← h2]
  cases e.params.refin <;> rfl

/-- C73: sender and receiver, with the library's own serialisers: the checksum written behind the message makes the CRC
of the whole the residue. -/
theorem C73_send (m : Mem) (b o : Nat) (len : U32) :
    (∀ {e : Entry 8} {f : CrcFn 8}, Shipped 8 e f → o + len.toNat + 1 ≤ (m.bytes b).length → len.toNat + 1 < 2 ^ 32 →
      ∃ c m', f (ptr b o) len true none m = .ok c m ∧ Utils.serialize8 (ptr b (o + len.toNat)) c m = .ok () m' ∧
        f (ptr b o) (len + 1#32) true none m' = .ok (residue e.params) m') ∧
    (∀ {e : Entry 16} {f : CrcFn 16}, Shipped 16 e f → o + len.toNat + 2 ≤ (m.bytes b).length → len.toNat + 2 < 2 ^ 32 →
      ∃ c m', f (ptr b o) len true none m = .ok c m ∧
        (if e.params.refin then Utils.serialize16LE else Utils.serialize16BE) (ptr b (o + len.toNat)) c m = .ok () m' ∧
        f (ptr b o) (len + 2#32) true none m' = .ok (residue e.params) m') ∧
    (∀ {e : Entry 32} {f : CrcFn 32}, Shipped 32 e f → o + len.toNat + 4 ≤ (m.bytes b).length → len.toNat + 4 < 2 ^ 32 →
      ∃ c m', f (ptr b o) len true none m = .ok c m ∧
        (if e.params.refin then Utils.serialize32LE else Utils.serialize32BE) (ptr b (o + len.toNat)) c m = .ok () m' ∧
        f (ptr b o) (len + 4#32) true none m' = .ok (residue e.params) m') := by
  obtain ⟨s1, s2, _, s4, s5, _, s7⟩ := C04_serialise_layout
  refine ⟨fun hf h hl => send hf rfl ?_ h hl, fun hf h hl => send hf rfl ?_ h hl, fun hf h hl => send hf rfl ?_ h hl⟩
  · rename_i e f
    cases e.params.refin
    · exact s1
    · intro b o v m
      have := s1 b o v m
      refine ⟨fun hl => ?_, this.2⟩
      obtain ⟨m', h1, h2, h3⟩ := this.1 hl
      refine ⟨m', h1, ?_, h3⟩
      rw [← h2]
      obtain ⟨a, ha⟩ := Utils.list1 (slice (m'.bytes b) o 1) (slice_length _ _ _ (by rw [h3.2.2.1]; exact hl))
      rw [ha]
      simp [valueLE, valueBE]
  · rename_i e f
    cases e.params.refin
    · exact s2
    · exact s5
  · rename_i e f
    cases e.params.refin
    · exact s4
    · exact s7

/-- The residues of some well-known functions. -/
example : residue ⟨0x04C11DB7#32, 0xFFFFFFFF#32, true, true, 0xFFFFFFFF#32⟩ = 0x2144DF1C#32 ∧
    residue ⟨0x1021#16, 0xFFFF#16, false, false, 0x0000#16⟩ = 0x0000#16 ∧
    residue ⟨0x1021#16, 0xFFFF#16, true, true, 0xFFFF#16⟩ = 0x0F47#16 := by decide +kernel

/-- "123456789" and its CRC-32, low byte first. -/
example : crc ⟨0x04C11DB7#32, 0xFFFFFFFF#32, true, true, 0xFFFFFFFF#32⟩
    ([49#8, 50#8, 51#8, 52#8, 53#8, 54#8, 55#8, 56#8, 57#8] ++ [0x26#8, 0x39#8, 0xF4#8, 0xCB#8]) = 0x2144DF1C#32 ∧
    valueLE [0x26#8, 0x39#8, 0xF4#8, 0xCB#8] = (0xCBF43926#32).toNat := by decide +kernel

/-! ### C74: errors in an odd number of bits -/

/-- An error goes unnoticed exactly if its polynomial is a multiple of the divisor. -/
theorem C74_undetected {w : Nat} (hw : 0 < w) (p : Params w) (hp : p.poly.getLsbD 0 = true) (x y : List Byte)
    (h : x.length = y.length) :
    crc p x = crc p y ↔ divisor p.poly ∣ polyBits (List.zipWith xor (bits p.refin x) (bits p.refin y)) := by
  rw [Crc.crc_eq_iff p x y h, Crc.crcBits_eq_zero hw hp]

/-- C74: a CRC detects all errors in an odd number of bits exactly if its polynomial (without the leading one) has an odd
number of ones. -/
theorem C74_odd_errors {w : Nat} (hw : 0 < w) (h8 : 8 ∣ w) (p : Params w) (hp : p.poly.getLsbD 0 = true) :
    (∀ x y : List Byte, x.length = y.length → hamming x y % 2 = 1 → crc p x ≠ crc p y) ↔ weight p.poly % 2 = 1 := by
  constructor
  · intro h
    by_contra hc
    obtain ⟨k, rfl⟩ := h8
    let l : List Bool := List.replicate 7 false ++ true :: Crc.regBits p.poly
    have hlen : l.length = 8 * (k + 1) := by simp [l, Crc.regBits]; omega
    obtain ⟨x, hx, hb⟩ := Crc.bits_surj p.refin (k + 1) l hlen
    have hl : x.length = (List.replicate (k + 1) 0#8).length := by simp [hx]
    have hz : List.zipWith xor (bits p.refin x) (bits p.refin (List.replicate (k + 1) 0#8)) = l := by
      rw [hb, Crc.bits_zeros, ← hlen]
      apply List.ext_getElem
      · simp
      · intro i h1 h2; simp
    have hcnt : l.count true = weight p.poly + 1 := by
      rw [← Crc.count_regBits]
      show (List.replicate 7 false ++ true :: Crc.regBits p.poly).count true = _
      rw [List.count_append]
      simp
    refine h x _ hl ?_ ?_
    · rw [← Crc.count_diff p.refin hl, hz, hcnt]; omega
    · rw [C74_undetected hw p hp _ _ hl, hz]
      refine ⟨1, ?_⟩
      rw [mul_one, Crc.polyBits_append, Crc.polyBits_zeros, zero_mul, zero_add, polyBits, Crc.polyBits_regBits]
      simp [gf, divisor, Crc.regBits]
  · intro hodd x y hl hh hc
    rw [C74_undetected hw p hp x y hl] at hc
    have := Crc.count_even hodd hc
    rw [Crc.count_diff p.refin hl] at this
    omega

/-- C74: which functions these are. -/
theorem C74_which :
    (∀ e ∈ catalogue8, weight e.params.poly % 2 = 1 ↔ e.name ∈ evenDivisors) ∧
    (∀ e ∈ catalogue16, weight e.params.poly % 2 = 1 ↔ e.name ∈ evenDivisors) ∧
    (∀ e ∈ catalogue32, weight e.params.poly % 2 = 1 ↔ e.name ∈ evenDivisors) := by
  decide +kernel

theorem weight_iff {w : Nat} {e : Entry w} {f : CrcFn w} (hf : Shipped w e f) :
    weight e.params.poly % 2 = 1 ↔ e.name ∈ evenDivisors := by
  cases hf with
  | crc8 _ he _ => exact C74_which.1 _ he
  | crc16 _ he _ => exact C74_which.2.1 _ he
  | crc32 _ he _ => exact C74_which.2.2 _ he

/-- C74 at the functions: 31 of them detect every error in an odd number of bits, the other 14 miss some. -/
theorem C74_functions {w : Nat} {e : Entry w} {f : CrcFn w} (hf : Shipped w e f) :
    (e.name ∈ evenDivisors → ∀ {m : Mem} {p q : Piece}, p.In m → q.In m → p.n = q.n →
      hamming (p.data m) (q.data m) % 2 = 1 →
      ∃ c d, f (ptr p.b p.o) p.n true none m = .ok c m ∧ f (ptr q.b q.o) q.n true none m = .ok d m ∧ c ≠ d) ∧
    (e.name ∉ evenDivisors → ∃ x y : List Byte, x.length = y.length ∧ hamming x y % 2 = 1 ∧ crc e.params x = crc e.params y) := by
  have hi := Crc.shipped_impl hf
  have hw : 0 < w := by have := hi.wide; omega
  have key := C74_odd_errors hw hi.dvd e.params hi.odd
  rw [weight_iff hf] at key
  constructor
  · intro hn m p q hp hq hpq hh
    refine ⟨_, _, C72_published hf hp, C72_published hf hq, key.mpr hn _ _ ?_ hh⟩
    rw [slice_length _ _ _ hp, slice_length _ _ _ hq, hpq]
  · intro hn
    by_contra hc
    apply hn
    apply key.mp
    intro x y hl hh he
    exact hc ⟨x, y, hl, hh, he⟩

/-- Three flipped bits. -/
example : hamming [0x00#8, 0xFF#8] [0x01#8, 0xF9#8] = 3 := by decide

/-! ### C75: two flipped bits -/

/-- C75: two flipped bits go unnoticed exactly if their distance is a multiple of the order of the polynomial. -/
theorem C75_two_bits {w : Nat} (hw : 0 < w) (p : Params w) (hp : p.poly.getLsbD 0 = true) {T : Nat} (hT : IsOrder p.poly T)
    {i j : Nat} (hij : i < j) {x y : List Byte} (h : DifferAt i j (bits p.refin x) (bits p.refin y)) :
    crc p x = crc p y ↔ T ∣ j - i := by
  have hl : x.length = y.length := by
    have := h.1
    rw [Crc.bits_length, Crc.bits_length] at this
    omega
  obtain ⟨k, hk⟩ := Crc.two_pattern hij h
  rw [C74_undetected hw p hp x y hl, hk, Crc.two_dvd hw hp, ← Crc.order_dvd hT, show j - i - 1 + 1 = j - i by omega]

/-- C75: the orders of the polynomials of the functions. -/
theorem C75_orders :
    (∀ x ∈ orders8, IsOrder x.1 x.2) ∧ (∀ x ∈ orders16, IsOrder x.1 x.2) ∧ (∀ x ∈ orders32, IsOrder x.1 x.2) :=
  ⟨fun x hx => Crc.order_of_fullCheck (by decide) (Crc.orders8_ok x hx),
    fun x hx => Crc.order_of_fullCheck (by decide) (Crc.orders16_ok x hx),
    fun x hx => Crc.order_of_fullCheck (by decide) (Crc.orders32_ok x hx)⟩

/-- C75: every function has one. -/
theorem C75_all {w : Nat} {e : Entry w} {f : CrcFn w} (hf : Shipped w e f) : ∃ T, IsOrder e.params.poly T := by
  have h8 : ∀ e ∈ catalogue8, orders8.any (fun x => x.1 == e.params.poly) = true := by decide +kernel
  have h16 : ∀ e ∈ catalogue16, orders16.any (fun x => x.1 == e.params.poly) = true := by decide +kernel
  have h32 : ∀ e ∈ catalogue32, orders32.any (fun x => x.1 == e.params.poly) = true := by decide +kernel
  have key : ∀ {w : Nat} {P : BitVec w} {l : List (BitVec w × Nat)}, (∀ x ∈ l, IsOrder x.1 x.2) →
      l.any (fun x => x.1 == P) = true → ∃ T, IsOrder P T := by
    intro w P l h ha
    obtain ⟨x, hx, hxe⟩ := List.any_eq_true.mp ha
    exact ⟨x.2, (by simpa using hxe : x.1 = P) ▸ h x hx⟩
  cases hf with
  | crc8 _ he _ => exact key C75_orders.1 (h8 _ he)
  | crc16 _ he _ => exact key C75_orders.2.1 (h16 _ he)
  | crc32 _ he _ => exact key C75_orders.2.2 (h32 _ he)

/-- C75 at the functions. -/
theorem C75_functions {w : Nat} {e : Entry w} {f : CrcFn w} (hf : Shipped w e f) {T : Nat} (hT : IsOrder e.params.poly T)
    {m : Mem} {p q : Piece} (hp : p.In m) (hq : q.In m) {i j : Nat} (hij : i < j)
    (h : DifferAt i j (bits e.params.refin (p.data m)) (bits e.params.refin (q.data m))) :
    ∃ c d, f (ptr p.b p.o) p.n true none m = .ok c m ∧ f (ptr q.b q.o) q.n true none m = .ok d m ∧ (c = d ↔ T ∣ j - i) := by
  have hi := Crc.shipped_impl hf
  exact ⟨_, _, C72_published hf hp, C72_published hf hq, C75_two_bits (by have := hi.wide; omega) e.params hi.odd hT hij h⟩

/-- Two bits at the distance 17, in the order in which they enter the register. -/
example : DifferAt 0 17 (bits true [0x01#8, 0x00#8, 0x02#8]) (bits true [0x00#8, 0x00#8, 0x00#8]) := by
  refine ⟨rfl, fun k => ?_⟩
  by_cases hk : k < 24
  · revert k; decide
  · have h1 : (bits true [0x01#8, 0x00#8, 0x02#8])[k]? = none := List.getElem?_eq_none (by rw [Crc.bits_length]; simp; omega)
    have h2 : (bits true [0x00#8, 0x00#8, 0x00#8])[k]? = none := List.getElem?_eq_none (by rw [Crc.bits_length]; simp; omega)
    rw [h1, h2]
    simp; omega

/-- Two bits at the distance 17, the order of the polynomial of `Crc8_darc`: not noticed. -/
example : crc (⟨0x39#8, 0x00#8, true, true, 0x00#8⟩ : Params 8) [0x01#8, 0x00#8, 0x02#8] =
    crc ⟨0x39#8, 0x00#8, true, true, 0x00#8⟩ [0x00#8, 0x00#8, 0x00#8] := by decide +kernel

/-! ### C76: guaranteed detection -/

/-- C76: messages of up to `T` bits, `T` the order of the polynomial: one or two flipped bits are always noticed, three
too if the polynomial has an odd number of ones. -/
theorem C76_few_bits {w : Nat} (hw : 0 < w) (p : Params w) (hp : p.poly.getLsbD 0 = true) {T : Nat} (hT : IsOrder p.poly T)
    {x y : List Byte} (hl : x.length = y.length) (hlen : 8 * x.length ≤ T) (h0 : x ≠ y)
    (hh : hamming x y ≤ 2 ∨ hamming x y ≤ 3 ∧ weight p.poly % 2 = 1) : crc p x ≠ crc p y := by
  intro hc
  rw [C74_undetected hw p hp x y hl] at hc
  have hcount := Crc.count_diff p.refin hl
  have hzl : (List.zipWith xor (bits p.refin x) (bits p.refin y)).length ≤ T := by
    rw [List.length_zipWith, Crc.bits_length, Crc.bits_length]; omega
  have h1 : hamming x y ≠ 1 := by
    intro h
    obtain ⟨k, _, hk⟩ := Crc.polyBits_count1 _ (hcount.trans h)
    rw [hk] at hc
    exact Crc.not_dvd_X_pow hw hp k hc
  have h2 : hamming x y ≠ 2 := by
    intro h
    obtain ⟨j, k, hkj, hj, e⟩ := Crc.polyBits_count2 _ (hcount.trans h)
    rw [e, Crc.dvd_two hw hp hkj, Crc.order_dvd hT] at hc
    have := Nat.le_of_dvd (by omega) hc
    omega
  have hz : hamming x y ≠ 0 := by
    intro h
    apply h0
    rw [hamming] at h
    apply Crc.bits_inj
    have hb : (bits false x).length = (bits false y).length := by rw [Crc.bits_length, Crc.bits_length, hl]
    apply List.ext_getElem hb
    intro i hi1 hi2
    have hi : i < (List.zipWith xor (bits false x) (bits false y)).length := by rw [List.length_zipWith]; omega
    have hne : (List.zipWith xor (bits false x) (bits false y))[i] ≠ true := by
      intro ht
      have := List.count_pos_iff.mpr (ht ▸ List.getElem_mem hi)
      omega
    rw [List.getElem_zipWith] at hne
    revert hne
    cases (bits false x)[i] <;> cases (bits false y)[i] <;> simp
  rcases hh with hh | ⟨hh, hodd⟩
  · omega
  · have := Crc.count_even hodd hc
    rw [hcount] at this
    omega

/-- C76: the bound is exact: longer messages have undetected errors of two bits. -/
theorem C76_sharp {w : Nat} (hw : 0 < w) (p : Params w) (hp : p.poly.getLsbD 0 = true) {T : Nat} (hT : IsOrder p.poly T)
    {n : Nat} (hn : T < 8 * n) : ∃ x y : List Byte, x.length = n ∧ y.length = n ∧ hamming x y = 2 ∧ crc p x = crc p y := by
  let l : List Bool := List.replicate 0 false ++ (true :: List.replicate (T - 1) false) ++ (true :: List.replicate (8 * n - T - 1) false)
  have hT0 := hT.1
  have hlen : l.length = 8 * n := by simp [l]; omega
  obtain ⟨x, hx, hb⟩ := Crc.bits_surj p.refin n l hlen
  have hl : x.length = (List.replicate n 0#8).length := by simp [hx]
  have hz : List.zipWith xor (bits p.refin x) (bits p.refin (List.replicate n 0#8)) = l := by
    rw [hb, Crc.bits_zeros, ← hlen]
    apply List.ext_getElem
    · simp
    · intro i h1 h2; simp
  refine ⟨x, List.replicate n 0#8, hx, by simp, ?_, ?_⟩
  · rw [← Crc.count_diff p.refin hl, hz]
    simp only [l, List.count_append, List.count_cons, List.count_replicate]
    simp
  · rw [C74_undetected hw p hp _ _ hl, hz, Crc.two_dvd hw hp, show T - 1 + 1 = T by omega]
    exact hT.2.1

/-- C76 at the functions: a frame (message and checksum) with the residue as its CRC, and what arrives of it. -/
theorem C76_functions {w : Nat} {e : Entry w} {f : CrcFn w} (hf : Shipped w e f) {T : Nat} (hT : IsOrder e.params.poly T)
    {m : Mem} {p q : Piece} (hp : p.In m) (hq : q.In m) (hn : p.n = q.n) (hlen : 8 * p.n.toNat ≤ T)
    (h0 : p.data m ≠ q.data m) (hh : hamming (p.data m) (q.data m) ≤ 2 ∨
      hamming (p.data m) (q.data m) ≤ 3 ∧ e.name ∈ evenDivisors)
    (hs : f (ptr p.b p.o) p.n true none m = .ok (residue e.params) m) :
    ∃ d, f (ptr q.b q.o) q.n true none m = .ok d m ∧ d ≠ residue e.params := by
  have hi := Crc.shipped_impl hf
  rw [C72_published hf hp] at hs
  have hr : crc e.params (p.data m) = residue e.params := by
    injection hs
  refine ⟨_, C72_published hf hq, ?_⟩
  rw [← hr]
  rw [← weight_iff hf] at hh
  have l1 : (p.data m).length = p.n.toNat := slice_length _ _ _ hp
  have l2 : (q.data m).length = q.n.toNat := slice_length _ _ _ hq
  exact (C76_few_bits (by have := hi.wide; omega) e.params hi.odd hT (by rw [l1, l2, hn]) (by rw [l1]; exact hlen) h0 hh).symm

/-- Two bytes fit in the 17 bits that `Crc8_darc` protects, three do not. -/
example : 8 * [0x01#8, 0x02#8].length ≤ 17 ∧ hamming [0x01#8, 0x02#8] [0x00#8, 0x00#8] = 2 ∧ 17 < 8 * 3 := by decide

end IMU.Props
