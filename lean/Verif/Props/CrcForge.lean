import Mathlib.SetTheory.Cardinal.Finite
import Mathlib.Data.Fintype.BigOperators
import Verif.Props.CrcErrors

/-!
# Property C82: a checksum is no authentication; all checksums are equally frequent
-/

namespace IMU.Props
open Spec Spec.Crc Utils

theorem bits_inj' (refin : Bool) {x y : List Byte} (h : bits refin x = bits refin y) : x = y := by
  cases refin
  · exact Crc.bits_inj h
  · have := congrArg List.reverse h
    rw [Crc.bits_reverse, Crc.bits_reverse] at this
    exact List.reverse_inj.mp (Crc.bits_inj this)

/-- Two messages that differ in the middle `t`, `t'` of at most `w` bits. -/
theorem burst_middle {w : Nat} (refin : Bool) (pre suf : List Byte) {t t' : List Byte} (hl : t.length = t'.length)
    (hw : 8 * t.length ≤ w) (hne : t ≠ t') : Burst w (bits refin (pre ++ t ++ suf)) (bits refin (pre ++ t' ++ suf)) := by
  have h1 := Crc.bits_length refin pre
  have h2 := Crc.bits_length refin t
  have h3 := Crc.bits_length refin t'
  refine ⟨by rw [Crc.bits_length, Crc.bits_length]; simp [hl], ?_, 8 * pre.length, ?_⟩
  · intro he
    simp only [Crc.bits_append, List.append_assoc] at he
    exact hne (bits_inj' refin (List.append_cancel_right (List.append_cancel_left he)))
  · intro i hi
    simp only [Crc.bits_append, List.append_assoc] at hi
    by_contra hc
    apply hi
    by_cases hlt : i < 8 * pre.length
    · rw [List.getElem?_append_left (by omega), List.getElem?_append_left (by omega)]
    · rw [List.getElem?_append_right (by omega), List.getElem?_append_right (by omega),
        List.getElem?_append_right (by omega), List.getElem?_append_right (by omega), h2, h3, hl]

/-- The `k` base-256 digits of `n`. -/
def bytesOf : Nat → Nat → List Byte
  | 0, _ => []
  | k + 1, n => BitVec.ofNat 8 n :: bytesOf k (n / 256)

theorem bytesOf_length (k n : Nat) : (bytesOf k n).length = k := by
  induction k generalizing n with
  | zero => rfl
  | succ k ih => simp [bytesOf, ih]

theorem valueLE_bytesOf (k n : Nat) : valueLE (bytesOf k n) = n % 256 ^ k := by
  induction k generalizing n with
  | zero => simp [bytesOf, valueLE, Nat.mod_one]
  | succ k ih =>
    simp only [bytesOf, valueLE, ih, BitVec.toNat_ofNat]
    rw [Nat.pow_succ 256, Nat.mul_comm (256 ^ k), Nat.mod_mul]

/-- C82: whatever surrounds them, `w` bits of a message can be chosen in exactly one way so that the message has a given
checksum: changing a message without changing its checksum takes no secret. -/
theorem C82_forge {w k : Nat} (hw : w = 8 * k) (p : Params w) (hp : p.poly.getLsbD 0 = true) (pre suf : List Byte)
    (c : BitVec w) : ∃! t : List Byte, t.length = k ∧ crc p (pre ++ t ++ suf) = c := by
  have huniq : ∀ t t' : List Byte, t.length = k → t'.length = k → crc p (pre ++ t ++ suf) = crc p (pre ++ t' ++ suf) →
      t = t' := by
    intro t t' h1 h2 he
    by_contra hne
    exact C16_burst p hp (burst_middle p.refin pre suf (by omega) (by omega) hne) he
  have hN : (2 : Nat) ^ w = 256 ^ k := by rw [hw, Nat.pow_mul]
  let g : Fin (2 ^ w) → Fin (2 ^ w) := fun n => (crc p (pre ++ bytesOf k n.val ++ suf)).toFin
  have hg : Function.Injective g := by
    intro a b h
    have h := huniq _ _ (bytesOf_length k _) (bytesOf_length k _) (BitVec.toFin_inj.mp h)
    have h := congrArg valueLE h
    rw [valueLE_bytesOf, valueLE_bytesOf, Nat.mod_eq_of_lt (by have := a.isLt; omega),
      Nat.mod_eq_of_lt (by have := b.isLt; omega)] at h
    exact Fin.ext h
  obtain ⟨n, hn⟩ := (Finite.injective_iff_surjective.mp hg) c.toFin
  have hc : crc p (pre ++ bytesOf k n.val ++ suf) = c := BitVec.toFin_inj.mp hn
  exact ⟨bytesOf k n.val, ⟨bytesOf_length k _, hc⟩, fun t ht => huniq _ _ ht.1 (bytesOf_length k _) (ht.2.trans hc.symm)⟩

/-- C82 at the functions: for every shipped function, every message frame and every value there is exactly one choice of the
bytes at the place `o + i` (as many as the checksum has) for which the function returns that value. -/
theorem C82_functions {w k : Nat} {e : Entry w} {f : CrcFn w} (hf : Shipped w e f) (hw : w = 8 * k) {m : Mem} {p : Piece}
    (hp : p.In m) {i : Nat} (hi : i + k ≤ p.n.toNat) (c : BitVec w) :
    ∃! t : List Byte, t.length = k ∧ ∀ m' : Mem, OnlyChanged m m' p.b (p.o + i) k → slice (m'.bytes p.b) (p.o + i) k = t →
      f (ptr p.b p.o) p.n true none m' = .ok c m' := by
  have hs := Crc.shipped_impl hf
  unfold Piece.In at hp
  have hrun : ∀ (t : List Byte) (m' : Mem), OnlyChanged m m' p.b (p.o + i) k → slice (m'.bytes p.b) (p.o + i) k = t →
      f (ptr p.b p.o) p.n true none m' = .ok (crc e.params (slice (m.bytes p.b) p.o i ++ t ++
        slice (m.bytes p.b) (p.o + i + k) (p.n.toNat - i - k))) m' := by
    intro t m' hm ht
    rw [C72_published hf (by rw [hm.2.2.1]; exact hp)]
    congr 2
    rw [show p.n.toNat = i + k + (p.n.toNat - i - k) by omega, Sort.slice_add, Sort.slice_add, ht,
      slice_of_onlyChanged hm (Nat.le_refl _)]
    congr 1
    apply List.ext_getElem?
    intro j
    rw [getElem?_slice, getElem?_slice, ← Nat.add_assoc]
    rw [show i + k + (p.n.toNat - i - k) - i - k = p.n.toNat - i - k by omega]
    split
    · exact hm.2.2.2 _ (Or.inr (by omega))
    · rfl
  obtain ⟨t, ⟨h1, h2⟩, h3⟩ := C82_forge hw e.params hs.odd (slice (m.bytes p.b) p.o i)
    (slice (m.bytes p.b) (p.o + i + k) (p.n.toNat - i - k)) c
  refine ⟨t, ⟨h1, fun m' hm ht => by rw [hrun t m' hm ht, h2]⟩, ?_⟩
  rintro t' ⟨g1, g2⟩
  apply h3 t' ⟨g1, ?_⟩
  have hin : p.o + i + k ≤ (m.bytes p.b).length := by omega
  have hput : OnlyChanged m (m.upd p.b (splice (m.bytes p.b) (p.o + i) t')) p.b (p.o + i) k ∧
      slice ((m.upd p.b (splice (m.bytes p.b) (p.o + i) t')).bytes p.b) (p.o + i) k = t' := by
    have hin' : p.o + i + t'.length ≤ (m.bytes p.b).length := by omega
    refine ⟨⟨rfl, fun x hx => by rw [Mem.upd_bytes, if_neg hx], ?_, ?_⟩, ?_⟩
    · rw [Mem.upd_bytes, if_pos rfl, splice_length _ _ _ hin']
    · intro j hj
      rw [Mem.upd_bytes, if_pos rfl, getElem?_splice _ _ _ hin']
      rcases hj with hj | hj
      · rw [if_pos hj]
      · rw [if_neg (by omega), if_neg (by omega)]
    · rw [Mem.upd_bytes, if_pos rfl]
      have := slice_splice_inner (m.bytes p.b) t' (p.o + i) 0 k hin' (by omega)
      rw [Nat.add_zero] at this
      rw [this, slice, List.drop_zero, List.take_of_length_le (by omega)]
  have a := g2 _ hput.1 hput.2
  rw [hrun t' _ hput.1 hput.2] at a
  injection a

/-- Non-vacuity: with the parameters of Crc16_ccitFalse the forged message `pay 99..o X` with the two bytes 0x38 0xF4 in the
place of ` t` has the checksum of `pay 10 to X`. -/
example : 16 = 8 * 2 ∧ (0x1021#16).getLsbD 0 = true ∧
    crc ⟨0x1021#16, 0xFFFF#16, false, false, 0#16⟩ ([112#8, 97#8, 121#8, 32#8, 57#8, 57#8] ++ [0x38#8, 0xF4#8] ++ [111#8, 32#8, 88#8]) =
    crc ⟨0x1021#16, 0xFFFF#16, false, false, 0#16⟩ [112#8, 97#8, 121#8, 32#8, 49#8, 48#8, 32#8, 116#8, 111#8, 32#8, 88#8] := by
  decide +kernel

/-! Counting. -/

/-- Byte strings of length `n`. -/
def Strings (n : Nat) : Type := {l : List Byte // l.length = n}

theorem card_strings (n : Nat) : Nat.card (Strings n) = 256 ^ n := by
  have e : Strings n ≃ (Fin n → Fin 256) :=
    { toFun := fun l i => (l.1[i.val]'(by rw [l.2]; exact i.isLt)).toFin
      invFun := fun g => ⟨List.ofFn fun i => BitVec.ofFin (g i), by simp⟩
      left_inv := fun l => by
        apply Subtype.ext
        apply List.ext_getElem
        · simp [l.2]
        · intro i h1 h2; simp
      right_inv := fun g => by funext i; simp }
  rw [Nat.card_congr e, Nat.card_fun]
  simp

/-- C82: among the messages of a given length (at least that of the checksum) every checksum occurs equally often: a random
change of the message goes undetected with probability exactly `2 ^ -w`. -/
theorem C82_equidistributed {w k : Nat} (hw : w = 8 * k) (p : Params w) (hp : p.poly.getLsbD 0 = true) {n : Nat} (hn : k ≤ n)
    (c : BitVec w) : Nat.card {l : Strings n // crc p l.1 = c} = 256 ^ (n - k) := by
  rw [← card_strings (n - k)]
  choose t ht hu using fun pre : List Byte => C82_forge hw p hp pre [] c
  refine Nat.card_congr
    { toFun := fun l => ⟨l.1.1.take (n - k), by rw [List.length_take, l.1.2]; omega⟩
      invFun := fun s => ⟨⟨s.1 ++ t s.1, by rw [List.length_append, s.2, (ht s.1).1]; omega⟩, by
        have := (ht s.1).2; simpa using this⟩
      left_inv := fun l => ?_
      right_inv := fun s => ?_ }
  · apply Subtype.ext; apply Subtype.ext
    have h : l.1.1.drop (n - k) = t (l.1.1.take (n - k)) := by
      apply hu
      refine ⟨by rw [List.length_drop, l.1.2]; omega, ?_⟩
      rw [List.append_nil, List.take_append_drop]
      exact l.2
    show l.1.1.take (n - k) ++ t (l.1.1.take (n - k)) = l.1.1
    rw [← h, List.take_append_drop]
  · apply Subtype.ext
    show (s.1 ++ t s.1).take (n - k) = s.1
    rw [List.take_append_of_le_length (by rw [s.2]), List.take_of_length_le (by rw [s.2])]

end IMU.Props
