import Verif.Proofs.IntWidth
import Verif.Props.Cipher

/-!
# Property C118: targets whose `int` has another width

`w` is the width of `int` and `unsigned int`; C asks for at least 16 bits.  The functions with suffix `W` are those of
Model/IntWidth, the ones without it are those of the other properties (`int` of 32 bits).
-/

namespace IMU.Props
open Spec Utils

/-- What decryption of a character gives where `int` has `w` bits: right if the shift does not exceed the place of the
letter, off by 2^w modulo 26 otherwise. -/
def caesarBackW (w k : Nat) (c : Byte) : Byte := rot (if k ≤ place c then 25 * k else 25 * k + 2 ^ w) c

theorem pow_ge (w : Nat) (h : 16 ≤ w) : 65536 ≤ 2 ^ w := Nat.pow_le_pow_right (show 0 < 2 by omega) h

theorem toNat_charW {w : Nat} (h : 16 ≤ w) (x : Nat) (hx : x < 2 ^ w) (a : Nat) (ha : a ≤ 97) :
    ((BitVec.ofNat w x % BitVec.ofNat w 26 + BitVec.ofNat w a).setWidth 8 : Byte).toNat = x % 26 + a := by
  have hp := pow_ge w h
  simp only [BitVec.toNat_setWidth, BitVec.toNat_add, BitVec.toNat_umod, BitVec.toNat_ofNat]
  rw [Nat.mod_eq_of_lt hx, Nat.mod_eq_of_lt (a := 26) (by omega), Nat.mod_eq_of_lt (a := a) (by omega),
    Nat.mod_eq_of_lt (a := x % 26 + a) (b := 2 ^ w) (by omega), Nat.mod_eq_of_lt (by omega)]

theorem ofInt_nat (w x : Nat) (i : Int) (h : i = x) : BitVec.ofInt w i = BitVec.ofNat w x := by
  subst h; exact BitVec.ofInt_natCast ..

theorem ofInt_neg (w x : Nat) (i : Int) (h : i + (2 ^ w : Nat) = x) : BitVec.ofInt w i = BitVec.ofNat w x := by
  apply BitVec.eq_of_toNat_eq
  rw [BitVec.toNat_ofInt, BitVec.toNat_ofNat]
  have : i % ((2 ^ w : Nat) : Int) = (x : Int) % ((2 ^ w : Nat) : Int) := by
    rw [← h, Int.add_emod_right]
  rw [this]
  omega

theorem asciiVal_place {c : Byte} (h : Letter c) : c.toNat = place c + Caesar.asciiVal c ∧ place c < 26 ∧
    Caesar.asciiVal c ≤ 97 := by
  unfold Letter at h
  unfold Caesar.asciiVal place
  by_cases hu : 65 ≤ c.toNat ∧ c.toNat ≤ 90
  · rw [if_pos (show isUpperChar c = true by simpa [isUpperChar] using hu), if_pos (by omega)]; omega
  · rw [if_neg (show ¬ isUpperChar c = true by simp [isUpperChar]; omega), if_neg (by omega)]; omega

theorem rot_toNat {c : Byte} (k : Nat) (h : Letter c) : (rot k c).toNat = (place c + k) % 26 + Caesar.asciiVal c := by
  unfold Letter at h
  unfold Caesar.asciiVal place
  by_cases hu : 65 ≤ c.toNat ∧ c.toNat ≤ 90
  · rw [if_pos (show isUpperChar c = true by simpa [isUpperChar] using hu), if_pos (by omega), rot_toNat_upper k hu]; omega
  · rw [if_neg (show ¬ isUpperChar c = true by simp [isUpperChar]; omega), if_neg (by omega), rot_toNat_lower k (by omega)]; omega

theorem encryptCharW_eq {w : Nat} (h : 16 ≤ w) {c : Byte} (shift : Byte) (hL : Letter c) :
    Caesar.encryptCharW w c shift = rot shift.toNat c := by
  obtain ⟨h1, h2, h3⟩ := asciiVal_place hL
  have hs := shift.isLt
  have hp := pow_ge w h
  apply BitVec.eq_of_toNat_eq
  unfold Caesar.encryptCharW
  rw [ofInt_nat w (place c + shift.toNat) _ (by omega), toNat_charW h _ (by omega) _ h3, rot_toNat _ hL]

theorem decryptCharW_eq {w : Nat} (h : 16 ≤ w) {c : Byte} (shift : Byte) (hL : Letter c) :
    Caesar.decryptCharW w c shift = caesarBackW w shift.toNat c := by
  obtain ⟨h1, h2, h3⟩ := asciiVal_place hL
  have hs := shift.isLt
  have hp := pow_ge w h
  apply BitVec.eq_of_toNat_eq
  unfold Caesar.decryptCharW caesarBackW
  rw [rot_toNat _ hL]
  by_cases hk : shift.toNat ≤ place c
  · rw [ofInt_nat w (place c - shift.toNat) _ (by omega), toNat_charW h _ (by omega) _ h3, if_pos hk]
    have : place c + 25 * shift.toNat = (place c - shift.toNat) + 26 * shift.toNat := by omega
    rw [this, Nat.add_mul_mod_self_left]
  · rw [ofInt_neg w (2 ^ w + place c - shift.toNat) _ (by omega), toNat_charW h _ (by omega) _ h3, if_neg hk]
    have : place c + (25 * shift.toNat + 2 ^ w) = (2 ^ w + place c - shift.toNat) + 26 * shift.toNat := by omega
    rw [this, Nat.add_mul_mod_self_left]

/-- C118: encryption by `CaesarCipher_encrypt` is the same for every width. -/
theorem C118_caesar_encrypt {w : Nat} (h : 16 ≤ w) (m : Mem) (b o : Nat) (shift : Byte) (s : List Byte)
    (hs : CStr (m.bytes b) o s) :
    ∃ m', Caesar.encryptW w (ptr b o) shift m = .ok () m' ∧ CStr (m'.bytes b) o (s.map (rot shift.toNat)) ∧
      OnlyChanged m m' b o s.length := by
  have g := cstr_map hs (s' := s.map (rot shift.toNat)) (by simp) (no_nul_map _ hs.1 (fun c hc => rot_ne_zero _ hc))
  exact ⟨_, Caesar.loop_ok (fun c => Caesar.encryptCharW w c shift) (rot shift.toNat) hs
    (fun c hc => encryptCharW_eq h shift hc) (fun c hc => rot_not_letter _ hc), g.1, g.2⟩

/-- C118: what `CaesarCipher_decrypt` computes depends on the width: a letter whose place is less than the shift comes out
2^w modulo 26 places too far. -/
theorem C118_caesar_decrypt {w : Nat} (h : 16 ≤ w) (m : Mem) (b o : Nat) (shift : Byte) (s : List Byte)
    (hs : CStr (m.bytes b) o s) :
    ∃ m', Caesar.decryptW w (ptr b o) shift m = .ok () m' ∧ CStr (m'.bytes b) o (s.map (caesarBackW w shift.toNat)) ∧
      OnlyChanged m m' b o s.length := by
  have g := cstr_map hs (s' := s.map (caesarBackW w shift.toNat)) (by simp)
    (no_nul_map _ hs.1 (fun c hc => rot_ne_zero _ hc))
  exact ⟨_, Caesar.loop_ok (fun c => Caesar.decryptCharW w c shift) (caesarBackW w shift.toNat) hs
    (fun c hc => decryptCharW_eq h shift hc) (fun c hc => rot_not_letter _ hc), g.1, g.2⟩

/-- 2^w is never a multiple of 26; modulo 26 it depends on `w` modulo 12. -/
theorem pow_mod26 (w : Nat) : 2 ^ (w + 1) % 26 = 2 ^ (w % 12 + 1) % 26 := by
  have : ∀ k r, 2 ^ (12 * k + r + 1) % 26 = 2 ^ (r + 1) % 26 := by
    intro k
    induction k with
    | zero => intro r; rw [Nat.mul_zero, Nat.zero_add]
    | succ k ih =>
      intro r
      have e : 2 ^ (12 * (k + 1) + r + 1) = 2 ^ (12 * k + r + 1) * 4096 := by
        rw [show 12 * (k + 1) + r + 1 = (12 * k + r + 1) + 12 by omega, Nat.pow_add]
      rw [e, Nat.mul_mod, ih r]
      have e2 : 2 ^ (r + 1) = 2 * 2 ^ r := by rw [Nat.pow_succ, Nat.mul_comm]
      rw [e2]
      omega
  have := this (w / 12) (w % 12)
  rwa [Nat.div_add_mod] at this

theorem pow_mod26_cases (w : Nat) (h : 1 ≤ w) : 2 ^ w % 26 ≠ 0 := by
  obtain ⟨v, rfl⟩ : ∃ v, w = v + 1 := ⟨w - 1, by omega⟩
  rw [pow_mod26]
  have h12 : v % 12 < 12 := Nat.mod_lt _ (by omega)
  generalize v % 12 = r at h12
  revert r
  decide

theorem pow_mod26_eq (w w' : Nat) (h : 1 ≤ w) (h' : 1 ≤ w') : 2 ^ w % 26 = 2 ^ w' % 26 ↔ w % 12 = w' % 12 := by
  obtain ⟨v, rfl⟩ : ∃ v, w = v + 1 := ⟨w - 1, by omega⟩
  obtain ⟨v', rfl⟩ : ∃ v', w' = v' + 1 := ⟨w' - 1, by omega⟩
  rw [pow_mod26, pow_mod26 v']
  have e : (v + 1) % 12 = (v' + 1) % 12 ↔ v % 12 = v' % 12 := by omega
  rw [e]
  have h1 : v % 12 < 12 := Nat.mod_lt _ (by omega)
  have h2 : v' % 12 < 12 := Nat.mod_lt _ (by omega)
  generalize v % 12 = a at h1
  generalize v' % 12 = b at h2
  revert a b
  decide

/-- C118: so on every target decryption restores the message exactly if no letter went past the end of the alphabet. -/
theorem C118_caesar_round_trip_iff {w : Nat} (h : 16 ≤ w) (m : Mem) (b o : Nat) (shift : Byte) (s : List Byte)
    (hs : CStr (m.bytes b) o s) :
    ∃ m1 m2, Caesar.encryptW w (ptr b o) shift m = .ok () m1 ∧ Caesar.decryptW w (ptr b o) shift m1 = .ok () m2 ∧
      (CStr (m2.bytes b) o s ↔ ∀ c ∈ s, Letter c → place c + shift.toNat < 26) := by
  obtain ⟨m1, a1, a2, -⟩ := C118_caesar_encrypt h m b o shift s hs
  obtain ⟨m2, b1, b2, -⟩ := C118_caesar_decrypt h m1 b o shift _ a2
  refine ⟨m1, m2, a1, b1, ?_⟩
  rw [List.map_map] at b2
  have key : CStr (m2.bytes b) o s ↔ s.map (caesarBackW w shift.toNat ∘ rot shift.toNat) = s :=
    ⟨fun h => (CStr.unique b2 h), fun h => h ▸ b2⟩
  rw [key, map_eq_self]
  refine forall_congr' fun c => imp_congr_right fun _ => ?_
  by_cases hL : Letter c
  · have hp := place_rot shift.toNat hL
    have hlt := Vernam.place_lt hL
    have hm := pow_mod26_cases w (by omega)
    simp only [Function.comp, caesarBackW]
    rw [rot_rot, rot_fix hL, hp]
    constructor
    · intro hh _
      by_cases hw : place c + shift.toNat < 26
      · exact hw
      · exfalso
        by_cases hq : shift.toNat ≤ (place c + shift.toNat) % 26
        · omega
        · rw [if_neg hq] at hh
          omega
    · intro hh
      have := hh hL
      rw [if_pos (by rw [Nat.mod_eq_of_lt this]; omega)]
      omega
  · simp only [Function.comp, caesarBackW]
    rw [rot_not_letter _ hL, rot_not_letter _ hL]
    exact ⟨fun _ hc => absurd hc hL, fun _ => rfl⟩

/-- C118: two targets decrypt alike exactly if their widths are equal modulo 12: 16 and 64 bits agree, 16 and 32 do not. -/
theorem C118_caesar_targets {w w' : Nat} (h : 16 ≤ w) (h' : 16 ≤ w') :
    (∀ m b o shift s, CStr (m.bytes b) o s → Caesar.decryptW w (ptr b o) shift m = Caesar.decryptW w' (ptr b o) shift m) ↔
      w % 12 = w' % 12 := by
  rw [← pow_mod26_eq w w' (by omega) (by omega)]
  constructor
  · intro hh
    have e := hh (mem1 (ascii "a" ++ [0])) 0 0 1 (ascii "a") (cstr_of_slice (by decide) (by decide +kernel))
    obtain ⟨m1, a1, a2, -⟩ := C118_caesar_decrypt h (mem1 (ascii "a" ++ [0])) 0 0 1 (ascii "a")
      (cstr_of_slice (by decide) (by decide +kernel))
    obtain ⟨m2, b1, b2, -⟩ := C118_caesar_decrypt h' (mem1 (ascii "a" ++ [0])) 0 0 1 (ascii "a")
      (cstr_of_slice (by decide) (by decide +kernel))
    rw [a1, b1] at e
    injection e with _ e
    subst e
    have e2 := CStr.unique a2 b2
    have e3 : caesarBackW w (1 : Byte).toNat 97#8 = caesarBackW w' (1 : Byte).toNat 97#8 := by
      have := congrArg List.head? e2
      simpa [ascii] using this
    have hL : Letter 97#8 := by decide
    have := congrArg BitVec.toNat e3
    unfold caesarBackW at this
    rw [rot_toNat _ hL, rot_toNat _ hL, if_neg (by decide), if_neg (by decide)] at this
    have hp : place 97#8 = 0 := by decide
    have h1 : (1 : Byte).toNat = 1 := rfl
    rw [hp, h1] at this
    omega
  · intro e m b o shift s hs
    have key : ∀ c, Letter c → Caesar.decryptCharW w c shift = Caesar.decryptCharW w' c shift := by
      intro c hL
      rw [decryptCharW_eq h shift hL, decryptCharW_eq h' shift hL]
      unfold caesarBackW
      split
      · rfl
      · rw [← rot_mod, ← rot_mod (25 * shift.toNat + 2 ^ w')]
        congr 1
        omega
    have h1 := Caesar.loop_ok (fun c => Caesar.decryptCharW w c shift) (caesarBackW w shift.toNat) hs
      (fun c hc => decryptCharW_eq h shift hc) (fun c hc => rot_not_letter _ hc)
    have h2 := Caesar.loop_ok (fun c => Caesar.decryptCharW w' c shift) (caesarBackW w shift.toNat) hs
      (fun c hc => by show Caesar.decryptCharW w' c shift = _; rw [← key c hc]; exact decryptCharW_eq h shift hc)
      (fun c hc => rot_not_letter _ hc)
    unfold Caesar.decryptW
    exact h1.trans h2.symm

example : 16 % 12 = 64 % 12 ∧ 16 % 12 ≠ 32 % 12 := by decide

/-- `int` of 16 bits: "a" decrypted with shift 1 is "p"; of 32 bits: "v" (it should be "z"). -/
example : caesarBackW 16 1 97 = 112 ∧ caesarBackW 32 1 97 = 118 ∧ caesarBackW 64 1 97 = 112 := by decide +kernel

/-- C118: with 32 bits the functions are those of the other properties. -/
theorem C118_caesar_32 : Caesar.encryptW 32 = Caesar.encrypt ∧ Caesar.decryptW 32 = Caesar.decrypt := ⟨rfl, rfl⟩

/-- C118: reflection and all CRC base functions and table generators are the same for every width (a 16-bit CRC promoted to an `int` of
17 to 23 bits could overflow in the shift; there is no such target). -/
theorem C118_crc {w : Nat} (h : w = 16 ∨ 32 ≤ w) :
    Bits.reflectW w = Bits.reflect ∧ Crc.base8W w = Crc.base8 ∧ Crc.base16W w = Crc.base16 ∧ Crc.base32W w = Crc.base32 ∧
      Crc.tableCalculator8W w = Crc.tableCalculator8 ∧ Crc.tableCalculator16W w = Crc.tableCalculator16 := by
  refine ⟨?_, Crc.base8W_eq (by omega), Crc.base16W_eq (by omega), Crc.base32W_eq (by omega), ?_, ?_⟩
  · funext d n; exact Bits.reflectW_eq (by omega) d n
  · funext p t; exact Crc.tableCalculator8W_eq (by omega) p t
  · funext p t; exact Crc.tableCalculator16W_eq (by omega) p t

/-- C118: the 16-bit serialisers and the reading of numbers are the same for every width. -/
theorem C118_utils {w : Nat} (h : 16 ≤ w) :
    serialize16BEW w = serialize16BE ∧ serialize16LEW w = serialize16LE ∧ deserialize16BEW w = deserialize16BE ∧
      deserialize16LEW w = deserialize16LE ∧ stringToUint32W w = stringToUint32 := by
  refine ⟨?_, ?_, ?_, ?_, stringToUint32W_eq (by omega)⟩
  · funext b v; exact serialize16BEW_eq h b v
  · funext b v; exact serialize16LEW_eq h b v
  · funext b; exact deserialize16BEW_eq h b
  · funext b; exact deserialize16LEW_eq h b

/-- Non-vacuity: the check value of CRC-16/ARC-like parameters on a 16-bit target is computed, and a numeral is read. -/
example : ∃ m', stringToUint32W 16 true (ptr 0 0) 10 (mem1 (ascii "4294967295")) = .ok (true, 4294967295) m' := by
  rw [(C118_utils (w := 16) (by omega)).2.2.2.2]
  exact ⟨_, rfl⟩

end IMU.Props
