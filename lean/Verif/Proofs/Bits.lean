import Verif.Model.BitManipulation
import Verif.C.Lemmas

namespace IMU.Bits

theorem one_shl_getLsbD (n p : Nat) (h : n < 32) : (1#32 <<< n).getLsbD p = decide (p = n) := by
  rw [BitVec.getLsbD_shiftLeft]
  by_cases hp : p = n
  · subst hp; simp [h]
  · simp only [hp, decide_false]
    by_cases h1 : p < n
    · simp [h1]
    · have : p - n ≠ 0 := by omega
      simp [this, BitVec.getLsbD_one]

theorem and_one_eq (x : U32) : x &&& 1#32 = 1#32 ↔ x.getLsbD 0 = true := by
  constructor
  · intro h
    have := congrArg (·.getLsbD 0) h
    simpa using this
  · intro h
    apply BitVec.eq_of_getLsbD_eq
    intro i hi
    rw [BitVec.getLsbD_and, BitVec.getLsbD_one]
    by_cases h0 : i = 0
    · subst h0; simp [h]
    · simp [h0]

theorem and31 (x : U32) : (0x1F#32 &&& x).toNat = x.toNat % 32 := by
  rw [BitVec.toNat_and]
  simp only [BitVec.toNat_ofNat, Nat.reducePow, Nat.reduceMod]
  have h31 : (31 : Nat) = 2 ^ 5 - 1 := by decide
  rw [h31, Nat.and_comm, Nat.and_two_pow_sub_one_eq_mod]

theorem shl_one (x : U32) (h : x.toNat < 32) : shl 1#32 x = some (1#32 <<< x.toNat) := if_pos h

theorem shl_byte (n : Byte) (h : n.toNat ≤ 31) : shl 1#32 (n.setWidth 32) = some (1#32 <<< n.toNat) := by
  have e : (n.setWidth 32).toNat = n.toNat := by rw [BitVec.toNat_setWidth]; omega
  rw [shl_one _ (by omega), e]

theorem reflectLoop_bits (nb : Byte) (x : U32) :
    ∀ (n bit : Nat) (r : U32), bit + n = nb.toNat → ∃ y, reflectLoop nb n bit (x >>> bit) r = some y ∧ ∀ q, y.getLsbD q = true ↔
      r.getLsbD q = true ∨ ∃ p, bit ≤ p ∧ p < nb.toNat ∧ (nb.toNat - 1 - p) % 32 = q ∧ x.getLsbD p = true := by
  intro n
  induction n with
  | zero =>
    intro bit r hb
    refine ⟨r, rfl, fun q => ⟨Or.inl, ?_⟩⟩
    rintro (h | ⟨p, h1, h2, _⟩)
    · exact h
    · omega
  | succ n ih =>
    intro bit r hb
    have hbit : (x >>> bit).getLsbD 0 = x.getLsbD bit := by simp
    have hsh : (0x1F#32 &&& ((nb.setWidth 32 - 1#32) - BitVec.ofNat 32 bit)).toNat = (nb.toNat - 1 - bit) % 32 := by
      rw [and31]
      congr 1
      simp only [BitVec.toNat_sub, BitVec.toNat_ofNat, BitVec.toNat_setWidth]
      omega
    simp only [reflectLoop]
    rw [show x >>> bit >>> 1 = x >>> (bit + 1) from (BitVec.shiftRight_add x bit 1).symm]
    have h32 : (nb.toNat - 1 - bit) % 32 < 32 := Nat.mod_lt _ (by decide)
    by_cases hset : x.getLsbD bit = true
    · rw [if_pos ((and_one_eq _).2 (by rw [hbit]; exact hset)), shl_one _ (by omega), Option.bind_eq_bind, Option.bind_some]
      obtain ⟨y, hy, hq⟩ := ih (bit + 1) (r ||| 1#32 <<< ((nb.toNat - 1 - bit) % 32)) (by omega)
      refine ⟨y, by rw [hsh]; exact hy, fun q => ?_⟩
      rw [hq, BitVec.getLsbD_or, one_shl_getLsbD _ _ h32, Bool.or_eq_true, decide_eq_true_eq]
      constructor
      · rintro ((h | h) | ⟨p, h1, h2⟩)
        · exact .inl h
        · exact .inr ⟨bit, Nat.le_refl _, by omega, h.symm, hset⟩
        · exact .inr ⟨p, by omega, h2⟩
      · rintro (h | ⟨p, h1, h2, h3, h4⟩)
        · exact .inl (.inl h)
        · by_cases e : p = bit
          · subst e; exact .inl (.inr h3.symm)
          · exact .inr ⟨p, by omega, h2, h3, h4⟩
    · rw [if_neg (fun h => hset (by rw [← hbit]; exact (and_one_eq _).1 h))]
      obtain ⟨y, hy, hq⟩ := ih (bit + 1) r (by omega)
      refine ⟨y, hy, fun q => ?_⟩
      rw [hq]
      constructor
      · rintro (h | ⟨p, h1, h2⟩)
        · exact .inl h
        · exact .inr ⟨p, by omega, h2⟩
      · rintro (h | ⟨p, h1, h2, h3, h4⟩)
        · exact .inl h
        · by_cases e : p = bit
          · subst e; exact absurd h4 hset
          · exact .inr ⟨p, by omega, h2, h3, h4⟩

theorem reflect_any (x : U32) (nb : Byte) : ∃ y, reflect x nb = some y ∧ ∀ q, y.getLsbD q = true ↔
    ∃ p, p < nb.toNat ∧ (nb.toNat - 1 - p) % 32 = q ∧ x.getLsbD p = true := by
  obtain ⟨y, hy, hq⟩ := reflectLoop_bits nb x nb.toNat 0 0#32 (by omega)
  refine ⟨y, by simpa [reflect] using hy, fun q => ?_⟩
  rw [hq]
  simp

theorem reflect_bits (x : U32) (nb : Byte) (hN : nb.toNat ≤ 32) :
    ∃ y, reflect x nb = some y ∧ ∀ p, y.getLsbD p = (decide (p < nb.toNat) && x.getLsbD (nb.toNat - 1 - p)) := by
  obtain ⟨y, hy, hq⟩ := reflect_any x nb
  refine ⟨y, hy, fun p => ?_⟩
  rw [Bool.eq_iff_iff, hq, Bool.and_eq_true, decide_eq_true_eq]
  constructor
  · rintro ⟨q, h1, h2, h3⟩
    rw [Nat.mod_eq_of_lt (by omega)] at h2
    exact ⟨by omega, by rw [← h2, show nb.toNat - 1 - (nb.toNat - 1 - q) = q by omega]; exact h3⟩
  · rintro ⟨h1, h2⟩
    exact ⟨_, by omega, by rw [Nat.mod_eq_of_lt (by omega)]; omega, h2⟩

theorem shl_bits (x : U32) (n i : Nat) : (x <<< n).getLsbD i = (decide (i < 32) && (!decide (i < n) && x.getLsbD (i - n))) := by
  rw [BitVec.getLsbD_shiftLeft, Bool.and_assoc]

theorem rotl32_some (x n : U32) (h1 : 1 ≤ n.toNat) (h2 : n.toNat ≤ 31) :
    rotl32 x n = some ((x <<< n.toNat) ^^^ (x >>> (32 - n.toNat))) := by
  have e : (32#32 - n).toNat = 32 - n.toNat := by
    simp only [BitVec.toNat_sub, BitVec.toNat_ofNat]; omega
  have hb : 32 - n.toNat < 32 := by omega
  have ha : n.toNat < 32 := by omega
  simp only [rotl32, shl, shr, e, ha, hb, if_true, Option.bind_eq_bind, Option.bind_some, Option.pure_def]

theorem rotl32_none (x n : U32) (h : n.toNat = 0 ∨ 32 ≤ n.toNat) : rotl32 x n = none := by
  rcases h with h | h
  · have e : (32#32 - n).toNat = 32 := by
      simp only [BitVec.toNat_sub, BitVec.toNat_ofNat]; omega
    simp [rotl32, shl, shr, e, h]
  · have : ¬ n.toNat < 32 := by omega
    simp [rotl32, shl, this]

theorem rotl32_bits (x n y : U32) (h1 : 1 ≤ n.toNat) (h2 : n.toNat ≤ 31)
    (hy : rotl32 x n = some y) (i : Nat) (hi : i < 32) :
    y.getLsbD i = x.getLsbD ((i + (32 - n.toNat)) % 32) := by
  rw [rotl32_some x n h1 h2] at hy
  cases hy
  rw [BitVec.getLsbD_xor, shl_bits, BitVec.getLsbD_ushiftRight]
  by_cases hlt : i < n.toNat
  · have : (i + (32 - n.toNat)) % 32 = 32 - n.toNat + i := by omega
    simp [hlt, this]
  · have e1 : (i + (32 - n.toNat)) % 32 = i - n.toNat := by omega
    have e2 : x.getLsbD (32 - n.toNat + i) = false := BitVec.getLsbD_of_ge x _ (by omega)
    simp [hlt, e1, e2, hi]

end IMU.Bits
