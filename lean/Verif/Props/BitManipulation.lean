import Verif.Proofs.Bits

/-!
# Properties C09 - C11: Src/bit_manipulation.c
-/

namespace IMU.Props
open Bits

/-- C09: the reflection is defined and bit `p` of it is bit `n-1-p` of the data for `p < n`, else 0. -/
theorem C09_reflect_mirrors (x : U32) (n : Byte) (hn : n.toNat ≤ 32) :
    ∃ y, reflect x n = some y ∧ ∀ p, y.getLsbD p = (decide (p < n.toNat) && x.getLsbD (n.toNat - 1 - p)) :=
  reflect_bits x n hn

/-- C09: reflecting twice keeps exactly the low `n` bits. -/
theorem C09_reflect_involutive (x : U32) (n : Byte) (hn : n.toNat ≤ 32) :
    ∃ y z, reflect x n = some y ∧ reflect y n = some z ∧ z.toNat = x.toNat % 2 ^ n.toNat := by
  obtain ⟨y, hy, h1⟩ := reflect_bits x n hn
  obtain ⟨z, hz, h2⟩ := reflect_bits y n hn
  refine ⟨y, z, hy, hz, ?_⟩
  have : z = BitVec.ofNat 32 (x.toNat % 2 ^ n.toNat) := by
    apply BitVec.eq_of_getLsbD_eq
    intro i hi
    rw [h2, h1, BitVec.getLsbD_ofNat, Nat.testBit_mod_two_pow]
    by_cases h : i < n.toNat
    · have e : n.toNat - 1 - (n.toNat - 1 - i) = i := by omega
      have e' : n.toNat - 1 - i < n.toNat := by omega
      simp [h, e, e', hi, BitVec.getLsbD]
    · simp [h]
  rw [this, BitVec.toNat_ofNat, Nat.mod_eq_of_lt]
  exact Nat.lt_of_le_of_lt (Nat.mod_le _ _) x.isLt

/-- C09: the function is defined for all 256 widths; beyond 32 the mirrored word is rotated: bit `p` of the data goes to
bit `(n-1-p) mod 32`. -/
theorem C09_reflect_any_width (x : U32) (n : Byte) : ∃ y, reflect x n = some y ∧
    ∀ q, y.getLsbD q = true ↔ ∃ p, p < n.toNat ∧ (n.toNat - 1 - p) % 32 = q ∧ x.getLsbD p = true :=
  reflect_any x n

example : reflect 0b1101 4 = some 0b1011 ∧ reflect 1 32 = some 0x80000000 ∧ reflect 1 40 = some 0x80 := by decide +kernel

/-- C10: the single-bit operations for `n <= 31`: exactly bit `n` is concerned. -/
theorem C10_single_bit (x : U32) (n : Byte) (hn : n.toNat ≤ 31) (oldB : Bool) (old : U32) :
    bitSet x n oldB = some (true, x.getLsbD n.toNat) ∧
    (∃ y, setBit x n old = some (true, y) ∧ ∀ i, i < 32 → y.getLsbD i = if i = n.toNat then true else x.getLsbD i) ∧
    (∃ y, clearBit x n old = some (true, y) ∧ ∀ i, i < 32 → y.getLsbD i = if i = n.toNat then false else x.getLsbD i) ∧
    (∃ y, toggleBit x n old = some (true, y) ∧
      ∀ i, i < 32 → y.getLsbD i = if i = n.toNat then !x.getLsbD i else x.getLsbD i) := by
  have hlt : n.toNat < 32 := by omega
  have hs := shl_byte n hn
  refine ⟨?_, ⟨x ||| 1#32 <<< n.toNat, ?_, ?_⟩, ⟨x &&& ~~~(1#32 <<< n.toNat), ?_, ?_⟩, ⟨x ^^^ 1#32 <<< n.toNat, ?_, ?_⟩⟩
  · simp only [bitSet, hn, if_true, hs, Option.bind_eq_bind, Option.bind_some, Option.pure_def, Option.some.injEq,
      Prod.mk.injEq, true_and]
    have hz : (x &&& 1#32 <<< n.toNat) = 0#32 ↔ x.getLsbD n.toNat = false := by
      constructor
      · intro h
        have := congrArg (·.getLsbD n.toNat) h
        simpa [one_shl_getLsbD _ _ hlt] using this
      · intro h
        apply BitVec.eq_of_getLsbD_eq
        intro i _
        rw [BitVec.getLsbD_and, one_shl_getLsbD _ _ hlt]
        by_cases hi : i = n.toNat
        · subst hi; simp [h]
        · simp [hi]
    cases hb : x.getLsbD n.toNat
    · rw [hz.2 hb]; rfl
    · rw [bne_iff_ne]; intro h; rw [hz.1 h] at hb; cases hb
  · simp [setBit, hn, hs]
  · intro i hi
    simp only [BitVec.getLsbD_or, one_shl_getLsbD _ _ hlt]
    by_cases h : i = n.toNat <;> simp [h]
  · simp [clearBit, hn, hs]
  · intro i hi
    simp only [BitVec.getLsbD_and, BitVec.getLsbD_not, one_shl_getLsbD _ _ hlt]
    by_cases h : i = n.toNat <;> simp [h, hi]
  · simp [toggleBit, hn, hs]
  · intro i hi
    simp only [BitVec.getLsbD_xor, one_shl_getLsbD _ _ hlt]
    by_cases h : i = n.toNat <;> simp [h]

/-- C10: `n > 31` is rejected and the output is untouched. -/
theorem C10_out_of_range (x : U32) (n : Byte) (hn : 31 < n.toNat) (oldB : Bool) (old : U32) :
    bitSet x n oldB = some (false, oldB) ∧ setBit x n old = some (false, old) ∧
    clearBit x n old = some (false, old) ∧ toggleBit x n old = some (false, old) := by
  have : ¬ n.toNat ≤ 31 := by omega
  simp [bitSet, setBit, clearBit, toggleBit, this]

/-- C10: toggling twice is the identity. -/
theorem C10_toggle_involutive (x : U32) (n : Byte) (hn : n.toNat ≤ 31) (old old' : U32) :
    ∃ y, toggleBit x n old = some (true, y) ∧ toggleBit y n old' = some (true, x) := by
  refine ⟨x ^^^ 1#32 <<< n.toNat, ?_, ?_⟩ <;> simp [toggleBit, hn, shl_byte n hn, BitVec.xor_assoc]

example : setBit 0b100 0 7 = some (true, 0b101) ∧ clearBit 0b101 2 7 = some (true, 1) ∧
    toggleBit 0 31 7 = some (true, 0x80000000) ∧ bitSet 4 2 false = some (true, true) ∧
    setBit 5 32 7 = some (false, 7) := by decide

/-- C11: `rotl32` is defined exactly for counts 1..31 ... -/
theorem C11_rotl32_defined (x n : U32) :
    (rotl32 x n).isSome = true ↔ 1 ≤ n.toNat ∧ n.toNat ≤ 31 := by
  by_cases h : 1 ≤ n.toNat ∧ n.toNat ≤ 31
  · rw [rotl32_some x n h.1 h.2]; simp [h]
  · rw [rotl32_none x n (by omega)]; simp; omega

/-- C11: ... where it moves bit `i` to bit `(i+n) mod 32`. -/
theorem C11_rotl32_rotates (x n y : U32) (hy : rotl32 x n = some y) (i : Nat) (hi : i < 32) :
    y.getLsbD ((i + n.toNat) % 32) = x.getLsbD i := by
  have h : 1 ≤ n.toNat ∧ n.toNat ≤ 31 := (C11_rotl32_defined x n).1 (by rw [hy]; rfl)
  rw [rotl32_bits x n y h.1 h.2 hy _ (Nat.mod_lt _ (by omega))]
  congr 1; omega

/-- C11: rotating by `n` and then by `32 - n` is the identity. -/
theorem C11_rotl32_inverse (x n y : U32) (hy : rotl32 x n = some y) :
    rotl32 y (32 - n) = some x := by
  have h : 1 ≤ n.toNat ∧ n.toNat ≤ 31 := (C11_rotl32_defined x n).1 (by rw [hy]; rfl)
  have e : (32 - n : U32).toNat = 32 - n.toNat := by
    simp only [BitVec.toNat_sub, BitVec.ofNat_eq_ofNat, BitVec.toNat_ofNat]; omega
  have hs := rotl32_some y (32 - n) (by omega) (by omega)
  rw [hs]; congr 1
  apply BitVec.eq_of_getLsbD_eq
  intro i hi
  rw [rotl32_bits y (32 - n) _ (by omega) (by omega) hs i hi,
    rotl32_bits x n y h.1 h.2 hy _ (Nat.mod_lt _ (by omega))]
  congr 1; omega

example : rotl32 0x80000001 4 = some 0x18 ∧ rotl32 5 0 = none ∧ rotl32 5 32 = none := by decide

end IMU.Props
