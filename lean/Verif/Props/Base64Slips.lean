import Verif.Proofs.Base64Slips
import Verif.Props.Base64Pieces
import Verif.Props.Crc

/-!
# Property C131: slips in a Base64 text and the checksum of its bytes
-/

namespace IMU.Props
open Spec Spec.Crc

/-- Two texts of the same length with `=` at the same places, each in its memory with the same room for its bytes. -/
structure TwoTexts (m m' : Mem) (bi oi bo oo : Nat) (n mx : SizeT) (L : U32) (s t : List Byte) : Prop where
  one : DecArgs m bi oi bo oo n s
  other : DecArgs m' bi oi bo oo n t
  len : s.length = t.length
  pads : ∀ j : Nat, s[j]? = some Spec.Base64.pad ↔ t[j]? = some Spec.Base64.pad
  whole : s.length % 4 ≠ 1
  long : LongEnough s
  size : n.toNat = s.length
  count : L.toNat = (Spec.Base64.decode s).length
  max : (Spec.Base64.decode s).length ≤ mx.toNat
  room : oo + (Spec.Base64.decode s).length ≤ (m.bytes bo).length
  room' : oo + (Spec.Base64.decode s).length ≤ (m'.bytes bo).length

/-- Decoding both texts and the checksums of the results. -/
theorem two_texts {w : Nat} {e : Entry w} {f : CrcFn w} (hf : Shipped w e f) {m m' : Mem} {bi oi bo oo : Nat} {n mx : SizeT}
    {L : U32} {s t : List Byte} (h : TwoTexts m m' bi oi bo oo n mx L s t) :
    ∃ r r' : Mem, ∃ x y, IMU.Base64.decode (ptr bi oi) n (ptr bo oo) mx m = .ok 0 r ∧
      IMU.Base64.decode (ptr bi oi) n (ptr bo oo) mx m' = .ok 0 r' ∧
      f (ptr bo oo) L true none r = .ok x r ∧ f (ptr bo oo) L true none r' = .ok y r' ∧
      slice (r.bytes bo) oo L.toNat = Spec.Base64.decode s ∧ slice (r'.bytes bo) oo L.toNat = Spec.Base64.decode t ∧
      (Spec.Base64.decode s).length = (Spec.Base64.decode t).length ∧
      (x = y ↔ crcBits e.params.poly 0#w (bits e.params.refin (IMU.Base64.bytesOf
        (fun j => IMU.Base64.val s j ^^^ IMU.Base64.val t j) (Spec.Base64.decode s).length)) = 0#w) := by
  obtain ⟨h1, h2, hlen, hpad, hw, hl, hn, hL, hmx, hr, hr'⟩ := h
  have hd := Base64.decode_length_congr s t hlen hpad
  have hl' : LongEnough t := by
    rcases hl with q | ⟨q, q'⟩
    · exact .inl (by omega)
    · refine .inr ⟨by omega, ?_⟩
      rw [List.getLast?_eq_getElem?] at q' ⊢
      rw [← hlen]
      exact fun x => q' ((hpad _).2 x)
  obtain ⟨v, r, a1, a2, -, a4, a5⟩ := C62_decode (mx := mx) h1 hw hn (by omega)
  obtain ⟨v', r', b1, b2, -, b4, b5⟩ := C62_decode (mx := mx) h2 (by omega) (by omega) (by omega)
  have hv : v = 0 := a2.2 ⟨hl, hmx⟩
  have hv' : v' = 0 := b2.2 ⟨hl', by omega⟩
  subst hv
  subst hv'
  have l1 : (r.bytes bo).length = (m.bytes bo).length := a5.2.2.1
  have l2 : (r'.bytes bo).length = (m'.bytes bo).length := b5.2.2.1
  have s1 : slice (r.bytes bo) oo L.toNat = Spec.Base64.decode s := by rw [hL]; exact a4 rfl
  have s2 : slice (r'.bytes bo) oo L.toNat = Spec.Base64.decode t := by rw [hL, hd]; exact b4 rfl
  refine ⟨r, r', crc e.params (Spec.Base64.decode s), crc e.params (Spec.Base64.decode t), a1, b1, ?_, ?_, s1, s2, hd, ?_⟩
  · rw [← s1]
    exact C72_published hf (by omega)
  · rw [← s2]
    exact C72_published hf (by omega)
  · rw [Crc.crc_eq_iff _ _ _ hd, ← Crc.bits_xor _ _ _ hd, IMU.Base64.decode_diff s t hd]

theorem texts_one (u z : List Byte) (a c : Byte) : (fun j => IMU.Base64.val (u ++ a :: z) j ^^^ IMU.Base64.val (u ++ c :: z) j) =
    IMU.Base64.one u.length (Spec.Base64.value a ^^^ Spec.Base64.value c) := by
  funext j
  unfold IMU.Base64.val IMU.Base64.one
  rw [List.getD_eq_getElem?_getD, List.getD_eq_getElem?_getD]
  by_cases hj : j = u.length
  · subst hj; simp
  · rw [if_neg hj]
    have : (u ++ a :: z)[j]? = (u ++ c :: z)[j]? := by
      rw [List.getElem?_append, List.getElem?_append]
      split
      · rfl
      · rw [show j - u.length = (j - u.length - 1) + 1 by omega, List.getElem?_cons_succ, List.getElem?_cons_succ]
    rw [this, Nat.xor_self]

/-- C131: one wrong character.  The checksums of the decoded bytes agree only if the bytes do, except in the one case of
the table. -/
theorem C131_wrong_character {w : Nat} {e : Entry w} {f : CrcFn w} (hf : Shipped w e f) {m m' : Mem} {bi oi bo oo : Nat}
    {n mx : SizeT} {L : U32} {u z : List Byte} {a c : Byte}
    (h : TwoTexts m m' bi oi bo oo n mx L (u ++ a :: z) (u ++ c :: z)) :
    ∃ r r' : Mem, ∃ x y, IMU.Base64.decode (ptr bi oi) n (ptr bo oo) mx m = .ok 0 r ∧
      IMU.Base64.decode (ptr bi oi) n (ptr bo oo) mx m' = .ok 0 r' ∧
      f (ptr bo oo) L true none r = .ok x r ∧ f (ptr bo oo) L true none r' = .ok y r' ∧
      (x = y ↔ slice (r.bytes bo) oo L.toNat = slice (r'.bytes bo) oo L.toNat ∨
        (e.name, u.length % 4, Spec.Base64.value a ^^^ Spec.Base64.value c) ∈ Spec.Base64.slips ∧
          (6 * u.length + 5) / 8 < L.toNat) := by
  obtain ⟨r, r', x, y, a1, a2, a3, a4, s1, s2, hd, hx⟩ := two_texts hf h
  refine ⟨r, r', x, y, a1, a2, a3, a4, ?_⟩
  have hi := Crc.shipped_impl hf
  have hdd := IMU.Base64.decode_diff _ _ hd
  rw [texts_one] at hx hdd
  have hlt : Spec.Base64.value a ^^^ Spec.Base64.value c < 64 :=
    Nat.xor_lt_two_pow (n := 6) (IMU.Base64.value_lt a) (IMU.Base64.value_lt c)
  rw [hx, IMU.Base64.one_change hf hi.wide hi.odd _ _ _ hlt, s1, s2, IMU.Base64.bytes_eq_iff _ _ hd, hdd, h.count]

/-- C131: so a wrong character - another 6-bit value, all of its bits used - is noticed by every function but one. -/
theorem C131_noticed {w : Nat} {e : Entry w} {f : CrcFn w} (hf : Shipped w e f) (hne : e.name ≠ "Crc8_wcdma") {m m' : Mem}
    {bi oi bo oo : Nat} {n mx : SizeT} {L : U32} {u z : List Byte} {a c : Byte}
    (h : TwoTexts m m' bi oi bo oo n mx L (u ++ a :: z) (u ++ c :: z))
    (hv : Spec.Base64.value a ≠ Spec.Base64.value c) (hb : 6 * u.length + 6 ≤ 8 * L.toNat) :
    ∃ r r' : Mem, ∃ x y, IMU.Base64.decode (ptr bi oi) n (ptr bo oo) mx m = .ok 0 r ∧
      IMU.Base64.decode (ptr bi oi) n (ptr bo oo) mx m' = .ok 0 r' ∧
      f (ptr bo oo) L true none r = .ok x r ∧ f (ptr bo oo) L true none r' = .ok y r' ∧ x ≠ y := by
  obtain ⟨r, r', x, y, a1, a2, a3, a4, s1, s2, hd, hx⟩ := two_texts hf h
  refine ⟨r, r', x, y, a1, a2, a3, a4, ?_⟩
  obtain ⟨r₂, r₂', x₂, y₂, b1, b2, b3, b4, hb5⟩ := C131_wrong_character hf h
  rw [a1] at b1; cases b1
  rw [a2] at b2; cases b2
  rw [a3] at b3; cases b3
  rw [a4] at b4; cases b4
  rw [Ne, hb5]
  rintro (he | ⟨he, -⟩)
  · rw [s1, s2, IMU.Base64.bytes_eq_iff _ _ hd, IMU.Base64.decode_diff _ _ hd, texts_one] at he
    exact hv ((IMU.Base64.xor_zero_iff _ _).mp (IMU.Base64.one_complete _ _ _ (Nat.xor_lt_two_pow (n := 6) (IMU.Base64.value_lt a)
      (IMU.Base64.value_lt c)) (by rw [← h.count]; omega) he))
  · simp only [Spec.Base64.slips, List.mem_singleton, Prod.mk.injEq] at he
    exact hne he.1

/-- C131: two neighbouring characters exchanged. -/
theorem C131_exchanged {w : Nat} {e : Entry w} {f : CrcFn w} (hf : Shipped w e f) {m m' : Mem} {bi oi bo oo : Nat}
    {n mx : SizeT} {L : U32} {u z : List Byte} {a c : Byte}
    (h : TwoTexts m m' bi oi bo oo n mx L (u ++ a :: c :: z) (u ++ c :: a :: z)) (hb : 6 * u.length + 12 ≤ 8 * L.toNat) :
    ∃ r r' : Mem, ∃ x y, IMU.Base64.decode (ptr bi oi) n (ptr bo oo) mx m = .ok 0 r ∧
      IMU.Base64.decode (ptr bi oi) n (ptr bo oo) mx m' = .ok 0 r' ∧
      f (ptr bo oo) L true none r = .ok x r ∧ f (ptr bo oo) L true none r' = .ok y r' ∧
      (x = y ↔ Spec.Base64.value a = Spec.Base64.value c ∨
        (e.name, u.length % 4, Spec.Base64.value a ^^^ Spec.Base64.value c) ∈ Spec.Base64.swaps) := by
  obtain ⟨r, r', x, y, a1, a2, a3, a4, s1, s2, hd, hx⟩ := two_texts hf h
  refine ⟨r, r', x, y, a1, a2, a3, a4, ?_⟩
  have hi := Crc.shipped_impl hf
  have hδ : (fun j => IMU.Base64.val (u ++ a :: c :: z) j ^^^ IMU.Base64.val (u ++ c :: a :: z) j) =
      IMU.Base64.two u.length (Spec.Base64.value a ^^^ Spec.Base64.value c) := by
    funext j
    unfold IMU.Base64.val IMU.Base64.two
    rw [List.getD_eq_getElem?_getD, List.getD_eq_getElem?_getD]
    by_cases hj : j = u.length
    · subst hj; simp
    · by_cases hj1 : j = u.length + 1
      · subst hj1; simp [Nat.xor_comm]
      · rw [if_neg (by omega)]
        have : (u ++ a :: c :: z)[j]? = (u ++ c :: a :: z)[j]? := by
          rw [List.getElem?_append, List.getElem?_append]
          split
          · rfl
          · rw [show j - u.length = (j - u.length - 2) + 1 + 1 by omega]
            simp only [List.getElem?_cons_succ]
        rw [this, Nat.xor_self]
  rw [hδ] at hx
  have hlt : Spec.Base64.value a ^^^ Spec.Base64.value c < 64 :=
    Nat.xor_lt_two_pow (n := 6) (IMU.Base64.value_lt a) (IMU.Base64.value_lt c)
  rw [hx, IMU.Base64.two_change hf hi.odd _ _ _ hlt (by rw [← h.count]; omega), IMU.Base64.xor_zero_iff]

/-- C131: the 16-bit and 32-bit functions notice every exchange of neighbours with different values. -/
theorem C131_wide {w : Nat} {e : Entry w} {f : CrcFn w} (hf : Shipped w e f) (hw : w ≠ 8) {m m' : Mem}
    {bi oi bo oo : Nat} {n mx : SizeT} {L : U32} {u z : List Byte} {a c : Byte}
    (h : TwoTexts m m' bi oi bo oo n mx L (u ++ a :: c :: z) (u ++ c :: a :: z)) (hb : 6 * u.length + 12 ≤ 8 * L.toNat)
    (hv : Spec.Base64.value a ≠ Spec.Base64.value c) :
    ∃ r r' : Mem, ∃ x y, IMU.Base64.decode (ptr bi oi) n (ptr bo oo) mx m = .ok 0 r ∧
      IMU.Base64.decode (ptr bi oi) n (ptr bo oo) mx m' = .ok 0 r' ∧
      f (ptr bo oo) L true none r = .ok x r ∧ f (ptr bo oo) L true none r' = .ok y r' ∧ x ≠ y := by
  obtain ⟨r, r', x, y, a1, a2, a3, a4, hx⟩ := C131_exchanged hf h hb
  refine ⟨r, r', x, y, a1, a2, a3, a4, ?_⟩
  rw [Ne, hx]
  rintro (he | he)
  · exact hv he
  · have hr : u.length % 4 ∈ List.range 4 := List.mem_range.mpr (by omega)
    rw [← IMU.Base64.rowsOf_nil] at he
    cases hf with
    | crc8 => exact hw rfl
    | crc16 _ hm _ => rw [((IMU.Base64.in16 _ hm).2 _ hr).2] at he; simp at he
    | crc32 _ hm _ => rw [((IMU.Base64.in32 _ hm).2 _ hr).2] at he; simp at he

/-- Non-vacuity of `C131_wrong_character` and `C131_noticed`: "Zm9vYmFyIQ==" with `X` for `m`. -/
example : TwoTexts (mem1 (ascii "Zm9vYmFyIQ==")) (mem1 (ascii "Zm9vYXFyIQ==")) 0 0 0 0 12 12 7 (ascii "Zm9vY" ++ 109#8 :: ascii "FyIQ==")
    (ascii "Zm9vY" ++ 88#8 :: ascii "FyIQ==") ∧ Spec.Base64.value 109#8 ≠ Spec.Base64.value 88#8 := by
  refine ⟨⟨⟨?_, ?_, ?_, ?_⟩, ⟨?_, ?_, ?_, ?_⟩, ?_, ?_, ?_, ?_, ?_, ?_, ?_, ?_, ?_⟩, ?_⟩
  case refine_10 =>
    intro j
    by_cases hj : j = 5
    · subst hj; decide +kernel
    · rw [List.getElem?_append, List.getElem?_append]
      split
      · rfl
      · have hl : (ascii "Zm9vY").length = 5 := by decide
        rename_i hh
        rw [hl] at hh ⊢
        rw [show j - 5 = (j - 6) + 1 by omega, List.getElem?_cons_succ, List.getElem?_cons_succ]
  all_goals decide +kernel

/-- The exception: `AAAA` and `AdAA` have the same `Crc8_wcdma` checksum; `AAdA` and `AdAA` hand out another one. -/
example : ∀ e ∈ catalogue8, e.name = "Crc8_wcdma" →
    crc e.params (Spec.Base64.decode (ascii "AAAA")) = crc e.params (Spec.Base64.decode (ascii "AdAA")) ∧
    crc e.params (Spec.Base64.decode (ascii "AAdA")) ≠ crc e.params (Spec.Base64.decode (ascii "AdAA")) := by
  decide +kernel

end IMU.Props
