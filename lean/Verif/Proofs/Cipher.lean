import Verif.Model.Caesar
import Verif.Model.Vernam
import Verif.Spec.Cipher
import Verif.Proofs.Str

namespace IMU
open Spec Utils

theorem isAlpha_iff (c : Byte) : isAlpha c = true ↔ Letter c := by
  simp [isAlpha, isUpperChar, isLowerChar, Letter]

theorem letter_ne_zero {c : Byte} (h : Letter c) : c ≠ 0#8 := by
  intro e; subst e; revert h; decide

theorem rot_not_letter {c : Byte} (k : Nat) (h : ¬ Letter c) : rot k c = c := by
  unfold Letter at h
  unfold rot
  rw [if_neg (by omega), if_neg (by omega)]

theorem rot_toNat_upper {c : Byte} (k : Nat) (h : 65 ≤ c.toNat ∧ c.toNat ≤ 90) :
    (rot k c).toNat = 65 + (c.toNat - 65 + k) % 26 := by
  unfold rot
  rw [if_pos h, BitVec.toNat_ofNat]
  omega

theorem rot_toNat_lower {c : Byte} (k : Nat) (h : 97 ≤ c.toNat ∧ c.toNat ≤ 122) :
    (rot k c).toNat = 97 + (c.toNat - 97 + k) % 26 := by
  unfold rot
  rw [if_neg (by omega), if_pos h, BitVec.toNat_ofNat]
  omega

theorem rot_letter {c : Byte} (k : Nat) : Letter (rot k c) ↔ Letter c := by
  by_cases hu : 65 ≤ c.toNat ∧ c.toNat ≤ 90
  · have := rot_toNat_upper k hu
    unfold Letter; omega
  · by_cases hl : 97 ≤ c.toNat ∧ c.toNat ≤ 122
    · have := rot_toNat_lower k hl
      unfold Letter; omega
    · rw [rot_not_letter k (by unfold Letter; omega)]

theorem rot_ne_zero {c : Byte} (k : Nat) (h : c ≠ 0#8) : rot k c ≠ 0#8 := by
  by_cases hl : Letter c
  · exact letter_ne_zero ((rot_letter k).mpr hl)
  · rwa [rot_not_letter k hl]

theorem place_rot {c : Byte} (k : Nat) (h : Letter c) : place (rot k c) = (place c + k) % 26 := by
  unfold Letter at h
  unfold place
  by_cases hu : 65 ≤ c.toNat ∧ c.toNat ≤ 90
  · rw [rot_toNat_upper k hu, if_pos (by omega), if_pos (by omega)]
    omega
  · have hl : 97 ≤ c.toNat ∧ c.toNat ≤ 122 := by omega
    rw [rot_toNat_lower k hl, if_neg (by omega), if_neg (by omega)]
    omega

theorem rot_rot (j k : Nat) (c : Byte) : rot j (rot k c) = rot (k + j) c := by
  by_cases hu : 65 ≤ c.toNat ∧ c.toNat ≤ 90
  · have h1 := rot_toNat_upper k hu
    apply BitVec.eq_of_toNat_eq
    rw [rot_toNat_upper j (by omega), rot_toNat_upper (k + j) hu, h1]
    omega
  · by_cases hl : 97 ≤ c.toNat ∧ c.toNat ≤ 122
    · have h1 := rot_toNat_lower k hl
      apply BitVec.eq_of_toNat_eq
      rw [rot_toNat_lower j (by omega), rot_toNat_lower (k + j) hl, h1]
      omega
    · rw [rot_not_letter k (by unfold Letter; omega), rot_not_letter j (by unfold Letter; omega),
        rot_not_letter _ (by unfold Letter; omega)]

theorem rot_mod (k : Nat) (c : Byte) : rot (k % 26) c = rot k c := by
  unfold rot
  by_cases hu : 65 ≤ c.toNat ∧ c.toNat ≤ 90
  · rw [if_pos hu, if_pos hu]; congr 2; omega
  · rw [if_neg hu, if_neg hu]
    by_cases hl : 97 ≤ c.toNat ∧ c.toNat ≤ 122
    · rw [if_pos hl, if_pos hl]; congr 2; omega
    · rw [if_neg hl, if_neg hl]

theorem rot_zero (c : Byte) : rot 0 c = c := by
  by_cases hu : 65 ≤ c.toNat ∧ c.toNat ≤ 90
  · apply BitVec.eq_of_toNat_eq; rw [rot_toNat_upper 0 hu]; omega
  · by_cases hl : 97 ≤ c.toNat ∧ c.toNat ≤ 122
    · apply BitVec.eq_of_toNat_eq; rw [rot_toNat_lower 0 hl]; omega
    · rw [rot_not_letter 0 (by unfold Letter; omega)]

/-- A letter is fixed only by multiples of 26. -/
theorem rot_fix {k : Nat} {c : Byte} (h : Letter c) : rot k c = c ↔ k % 26 = 0 := by
  constructor
  · intro e
    have := place_rot k h
    rw [e] at this
    have : place c < 26 := by unfold Letter at h; unfold place; split <;> omega
    omega
  · intro e
    rw [← rot_mod, e, rot_zero]

namespace Caesar

theorem encryptChar_eq {c : Byte} (shift : Byte) (h : Letter c) : encryptChar c shift = rot shift.toNat c := by
  have hs := shift.isLt
  apply BitVec.eq_of_toNat_eq
  unfold encryptChar asciiVal
  rw [BitVec.toNat_setWidth, BitVec.toNat_add, BitVec.toNat_umod, BitVec.toNat_ofInt, BitVec.toNat_ofNat]
  by_cases hu : 65 ≤ c.toNat ∧ c.toNat ≤ 90
  · rw [rot_toNat_upper _ hu, if_pos (by simpa [isUpperChar] using hu)]
    have : (((c.toNat : Int) + shift.toNat - (65 : Nat)) % ((2 ^ 32 : Nat) : Int)).toNat = c.toNat - 65 + shift.toNat := by
      omega
    rw [this]
    simp
    omega
  · have hl : 97 ≤ c.toNat ∧ c.toNat ≤ 122 := by unfold Letter at h; omega
    rw [rot_toNat_lower _ hl, if_neg (by simp [isUpperChar]; omega)]
    have : (((c.toNat : Int) + shift.toNat - (97 : Nat)) % ((2 ^ 32 : Nat) : Int)).toNat = c.toNat - 97 + shift.toNat := by
      omega
    rw [this]
    simp
    omega

theorem mod_back1 (x t : Nat) (h : t ≤ x) (hx : x < 26) (a : Nat) (ha : a ≤ 97) :
    ((x - t) % 26 + a) % 256 = a + (x + 25 * t) % 26 := by
  have : x + 25 * t = (x - t) + 26 * t := by omega
  rw [this, Nat.add_mul_mod_self_left]
  omega

theorem mod_back2 (x t : Nat) (ht : t < 256) (h : ¬ t ≤ x) (hx : x < 26) (a : Nat) (ha : a ≤ 97) :
    ((2 ^ 32 + x - t) % 26 + a) % 256 = a + (x + 25 * (t + 4)) % 26 := by
  have : 2 ^ 32 + x - t + 26 * (t + 4) = (x + 25 * (t + 4)) + 26 * 165191050 := by omega
  have h2 := congrArg (· % 26) this
  simp only [Nat.add_mul_mod_self_left] at h2
  rw [h2]
  omega

/-- What decryption does to a letter: 25 k is -k modulo 26. -/
theorem decryptChar_eq {c : Byte} (shift : Byte) (h : Letter c) :
    decryptChar c shift = rot (25 * (if shift.toNat ≤ place c then shift.toNat else shift.toNat + 4)) c := by
  have hs := shift.isLt
  apply BitVec.eq_of_toNat_eq
  unfold decryptChar asciiVal place
  rw [BitVec.toNat_setWidth, BitVec.toNat_add, BitVec.toNat_umod, BitVec.toNat_ofInt, BitVec.toNat_ofNat]
  by_cases hu : 65 ≤ c.toNat ∧ c.toNat ≤ 90
  · rw [rot_toNat_upper _ hu, if_pos (by simpa [isUpperChar] using hu), if_pos hu.2]
    by_cases hle : shift.toNat ≤ c.toNat - 65
    · have : (((c.toNat : Int) - shift.toNat - (65 : Nat)) % ((2 ^ 32 : Nat) : Int)).toNat = c.toNat - 65 - shift.toNat := by
        omega
      rw [this, if_pos hle]
      have := mod_back1 (c.toNat - 65) shift.toNat hle (by omega) 65 (by omega)
      simp
      omega
    · have : (((c.toNat : Int) - shift.toNat - (65 : Nat)) % ((2 ^ 32 : Nat) : Int)).toNat =
          2 ^ 32 + (c.toNat - 65) - shift.toNat := by
        omega
      rw [this, if_neg hle]
      have := mod_back2 (c.toNat - 65) shift.toNat hs hle (by omega) 65 (by omega)
      simp
      omega
  · have hl : 97 ≤ c.toNat ∧ c.toNat ≤ 122 := by unfold Letter at h; omega
    rw [rot_toNat_lower _ hl, if_neg (by simp [isUpperChar]; omega),
      if_neg (show ¬ c.toNat ≤ 90 by omega)]
    by_cases hle : shift.toNat ≤ c.toNat - 97
    · have : (((c.toNat : Int) - shift.toNat - (97 : Nat)) % ((2 ^ 32 : Nat) : Int)).toNat = c.toNat - 97 - shift.toNat := by
        omega
      rw [this, if_pos hle]
      have := mod_back1 (c.toNat - 97) shift.toNat hle (by omega) 97 (by omega)
      simp
      omega
    · have : (((c.toNat : Int) - shift.toNat - (97 : Nat)) % ((2 ^ 32 : Nat) : Int)).toNat =
          2 ^ 32 + (c.toNat - 97) - shift.toNat := by
        omega
      rw [this, if_neg hle]
      have := mod_back2 (c.toNat - 97) shift.toNat hs hle (by omega) 97 (by omega)
      simp
      omega

/-- The common loop of both functions. -/
theorem loop_ok {b o : Nat} {m : Mem} {s : List Byte} (f g : Byte → Byte) (hs : CStr (m.bytes b) o s)
    (hfg : ∀ c, Letter c → f c = g c) (hid : ∀ c, ¬ Letter c → g c = c) :
    (do let length ← strlen (ptr b o)
        forN length 0 (fun i _ => do
          let c ← load ((ptr b o).addN i)
          if isAlpha c then store ((ptr b o).addN i) (f c) else pure ()) () : C Unit) m =
      .ok () (m.upd b (splice (m.bytes b) o (s.map g))) := by
  have hlt := hs.lt
  rw [C.bind_ok (strlen_ok hs)]
  have := forN_map (fun _ => g) (fun i _ => do
          let c ← load ((ptr b o).addN i)
          if isAlpha c then store ((ptr b o).addN i) (f c) else pure ()) hs (by
    intro k c P hc hP
    have hk : k < s.length := by
      have := (List.getElem?_eq_some_iff.mp hc).1; exact this
    have hl : load ((ptr b o).addN k) (m.upd b (splice (m.bytes b) o P)) =
        .ok c (m.upd b (splice (m.bytes b) o P)) := by
      rw [ptr_addN]
      apply load_ok
      rw [Mem.upd_bytes, if_pos rfl, getElem?_splice _ _ _ (by omega), if_neg (by omega), if_neg (by omega), hs.get hk, hc]
    rw [C.bind_ok hl]
    by_cases hL : Letter c
    · rw [if_pos ((isAlpha_iff c).mpr hL), ptr_addN,
        store_ok (by rw [Mem.upd_bytes, if_pos rfl, splice_length _ _ _ (by omega)]; omega), hfg c hL]
      rw [Mem.upd_bytes, if_pos rfl]
    · rw [if_neg (by rw [isAlpha_iff]; exact hL), hid c hL, C.pure_run]
      refine congrArg (Res.ok ()) (Mem.upd_of_eq ?_).symm
      rw [Mem.upd_bytes, if_pos rfl]
      apply List.ext_getElem?
      intro i
      rw [List.getElem?_set]
      split
      · rename_i hi
        subst hi
        rw [if_pos (by rw [splice_length _ _ _ (by omega)]; omega), getElem?_splice _ _ _ (by omega),
          if_neg (by omega), if_neg (by omega), hs.get hk, hc]
      · rfl)
  have hmi : s.mapIdx (fun _ => g) = s.map g := by
    apply List.ext_getElem?; intro i; simp
  rw [this, hmi]

end Caesar

namespace Vernam

theorem toInt_letter {c : Byte} (h : Letter c) : c.toInt = c.toNat := by
  unfold Letter at h
  rw [BitVec.toInt_eq_toNat_cond, if_pos (by omega)]

theorem charVal_letter (cs : Bool) {c : Byte} (h : Letter c) : charVal cs c = c.toNat := by
  unfold charVal
  cases cs
  · rfl
  · simp [toInt_letter h]

theorem asciiVal_sub {c : Byte} (h : Letter c) : (c.toNat : Int) - asciiVal c = place c := by
  unfold Letter at h
  unfold asciiVal place
  by_cases hu : 65 ≤ c.toNat ∧ c.toNat ≤ 90
  · rw [if_pos (by simpa [isUpperChar] using hu), if_pos hu.2]; omega
  · rw [if_neg (by simp [isUpperChar]; omega), if_neg (by omega)]; omega

theorem keyBase_sub {c : Byte} (h : Letter c) : (c.toNat : Int) - keyBase c = place c := by
  unfold Letter at h
  unfold keyBase place
  by_cases hu : 65 ≤ c.toNat ∧ c.toNat ≤ 90
  · rw [if_neg (by simp [isLowerChar]; omega), if_pos hu.2]; omega
  · rw [if_pos (by simp [isLowerChar]; omega), if_neg (by omega)]; omega

theorem place_lt {c : Byte} (h : Letter c) : place c < 26 := by
  unfold Letter at h; unfold place; split <;> omega

theorem rot_eq {c : Byte} (k : Nat) (h : Letter c) :
    rot k c = BitVec.ofInt 8 (asciiVal c + ((place c + k) % 26 : Nat)) := by
  apply BitVec.eq_of_toNat_eq
  unfold asciiVal place
  unfold Letter at h
  rw [BitVec.toNat_ofInt]
  by_cases hu : 65 ≤ c.toNat ∧ c.toNat ≤ 90
  · rw [rot_toNat_upper _ hu, if_pos (by simpa [isUpperChar] using hu), if_pos hu.2]; omega
  · rw [rot_toNat_lower k (show 97 ≤ c.toNat ∧ c.toNat ≤ 122 by omega), if_neg (by simp [isUpperChar]; omega),
      if_neg (show ¬ c.toNat ≤ 90 by omega)]
    omega

theorem encryptChar_eq {c k : Byte} (h : Letter c) (hk : Letter k) : encryptChar c k = rot (place k) c := by
  have h1 := asciiVal_sub h
  have h2 := keyBase_sub hk
  have e : c.toInt - asciiVal c + k.toInt - keyBase k = ((place c + place k : Nat) : Int) := by
    rw [toInt_letter h, toInt_letter hk]; omega
  unfold encryptChar
  rw [e, rot_eq _ h, Int.tmod_eq_emod_of_nonneg (by omega), Int.add_comm]
  rfl

theorem decryptChar_eq (cs : Bool) {c k : Byte} (h : Letter c) (hk : Letter k) :
    decryptChar cs c k = rot (26 - place k) c := by
  have h1 := asciiVal_sub h
  have h2 := keyBase_sub hk
  have h3 := place_lt h
  have h4 := place_lt hk
  have e : charVal cs c - asciiVal c - (charVal cs k - keyBase k) = (place c : Int) - place k := by
    rw [charVal_letter cs h, charVal_letter cs hk, h1, h2]
  unfold decryptChar
  rw [e, rot_eq _ h]
  simp only []
  congr 1
  split <;> omega

/-- Encryption never produces a NUL, whatever the key. -/
theorem encryptChar_ne_zero {c : Byte} (k : Byte) (h : Letter c) : encryptChar c k ≠ 0#8 := by
  unfold encryptChar
  simp only []
  generalize hx : c.toInt - asciiVal c + k.toInt - keyBase k = x
  have h1 : -26 < x.tmod 26 := Int.lt_tmod_of_pos x (by omega)
  have h2 : x.tmod 26 < 26 := Int.tmod_lt_of_pos x (by omega)
  intro e
  have := congrArg BitVec.toNat e
  rw [BitVec.toNat_ofInt] at this
  unfold asciiVal at this
  split at this <;> simp at this <;> omega

/-- The common loop; the key is not in the message. -/
theorem loop_ok {bm om bk ok : Nat} {m : Mem} {s key : List Byte} (f : Byte → Byte → Byte) (hs : CStr (m.bytes bm) om s)
    (hk : slice (m.bytes bk) ok s.length = key) (hkl : ok + s.length ≤ (m.bytes bk).length)
    (hd : bk ≠ bm ∨ ok + s.length ≤ om ∨ om + s.length ≤ ok) :
    forN s.length 0 (fun i _ => do
        let c ← load ((ptr bm om).addN i)
        if isAlpha c then
          let k ← load ((ptr bk ok).addN i)
          store ((ptr bm om).addN i) (f c k)
        else pure ()) () m =
      .ok () (m.upd bm (splice (m.bytes bm) om (s.mapIdx (fun i c => if Letter c then f c (key.getD i 0) else c)))) := by
  have hlt := hs.lt
  apply forN_map _ _ hs
  intro k c P hc hP
  have hkk : k < s.length := (List.getElem?_eq_some_iff.mp hc).1
  have hl : load ((ptr bm om).addN k) (m.upd bm (splice (m.bytes bm) om P)) =
      .ok c (m.upd bm (splice (m.bytes bm) om P)) := by
    rw [ptr_addN]
    apply load_ok
    rw [Mem.upd_bytes, if_pos rfl, getElem?_splice _ _ _ (by omega), if_neg (by omega), if_neg (by omega), hs.get hkk, hc]
  have hl2 : load ((ptr bk ok).addN k) (m.upd bm (splice (m.bytes bm) om P)) =
      .ok (key.getD k 0) (m.upd bm (splice (m.bytes bm) om P)) := by
    rw [ptr_addN]
    apply load_ok
    have hkey : (m.bytes bk)[ok + k]? = some (key.getD k 0) := by
      have : key[k]? = (m.bytes bk)[ok + k]? := by rw [← hk, getElem?_slice, if_pos hkk]
      rw [List.getD_eq_getElem?_getD, this]
      simp [show ok + k < (m.bytes bk).length by omega]
    rw [Mem.upd_bytes]
    split
    · rename_i hb
      subst hb
      rw [getElem?_splice _ _ _ (by omega)]
      by_cases h5 : ok + k < om
      · rw [if_pos h5, hkey]
      · rw [if_neg h5, if_neg (by omega), hkey]
    · exact hkey
  rw [C.bind_ok hl]
  by_cases hL : Letter c
  · rw [if_pos ((isAlpha_iff c).mpr hL), C.bind_ok hl2, ptr_addN,
      store_ok (by rw [Mem.upd_bytes, if_pos rfl, splice_length _ _ _ (by omega)]; omega), if_pos hL]
    rw [Mem.upd_bytes, if_pos rfl]
  · rw [if_neg (by rw [isAlpha_iff]; exact hL), if_neg hL, C.pure_run]
    refine congrArg (Res.ok ()) (Mem.upd_of_eq ?_).symm
    rw [Mem.upd_bytes, if_pos rfl]
    apply List.ext_getElem?
    intro i
    rw [List.getElem?_set]
    split
    · rename_i hi
      subst hi
      rw [if_pos (by rw [splice_length _ _ _ (by omega)]; omega), getElem?_splice _ _ _ (by omega),
        if_neg (by omega), if_neg (by omega), hs.get hkk, hc]
    · rfl

end Vernam
end IMU
