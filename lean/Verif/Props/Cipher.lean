import Verif.Proofs.Cipher
import Verif.Props.Utils

/-!
# Properties C53 - C57: Src/crypto/caesar_cipher.c and Src/crypto/vernam_cipher.c
-/

namespace IMU.Props
open Spec Utils

theorem no_nul_map {s : List Byte} (g : Byte → Byte) (h : 0#8 ∉ s) (hg : ∀ c, c ≠ 0#8 → g c ≠ 0#8) : 0#8 ∉ s.map g := by
  intro hm
  obtain ⟨c, hc, e⟩ := List.mem_map.mp hm
  exact hg c (fun e' => h (e' ▸ hc)) e

/-- C53: encryption moves every letter `shift` places, cyclically and in its case, and changes nothing else. -/
theorem C53_encrypt (m : Mem) (b o : Nat) (shift : Byte) (s : List Byte) (hs : CStr (m.bytes b) o s) :
    ∃ m', Caesar.encrypt (ptr b o) shift m = .ok () m' ∧ CStr (m'.bytes b) o (s.map (rot shift.toNat)) ∧
      OnlyChanged m m' b o s.length := by
  have h := cstr_map hs (s' := s.map (rot shift.toNat)) (by simp)
    (no_nul_map _ hs.1 (fun c hc => rot_ne_zero _ hc))
  exact ⟨_, Caesar.loop_ok (fun c => Caesar.encryptChar c shift) (rot shift.toNat) hs
    (fun c hc => Caesar.encryptChar_eq shift hc) (fun c hc => rot_not_letter _ hc), h.1, h.2⟩

/-- C53: without a terminating NUL both calls are undefined. -/
theorem C53_needs_nul (m : Mem) (b o : Nat) (shift : Byte) (h : 0#8 ∉ (m.bytes b).drop o) :
    Caesar.encrypt (ptr b o) shift m = .ub .oobRead ∧ Caesar.decrypt (ptr b o) shift m = .ub .oobRead :=
  ⟨C.bind_ub (strlen_ub h), C.bind_ub (strlen_ub h)⟩

/-- ASCII bytes. -/
def ascii (s : String) : List Byte := s.toList.map (fun c => BitVec.ofNat 8 c.toNat)

/-- Non-vacuity, and what `rot` means. -/
example : CStr (mem1 (ascii "Hello, xyz!" ++ [0, 1, 2]) |>.bytes 0) 0 (ascii "Hello, xyz!") ∧
    (ascii "Hello, xyz!").map (rot 3) = ascii "Khoor, abc!" :=
  ⟨⟨by decide +kernel, [1, 2], by decide +kernel⟩, by decide +kernel⟩

/-- What `CaesarCipher_decrypt` does to a character: back by `shift` places if that does not pass the start of the
alphabet, else back by `shift + 4` places.  (25 k is -k modulo 26.) -/
def caesarBack (shift : Nat) (c : Byte) : Byte := rot (25 * (if shift ≤ place c then shift else shift + 4)) c

/-- C54: what decryption computes. -/
theorem C54_decrypt_exact (m : Mem) (b o : Nat) (shift : Byte) (s : List Byte) (hs : CStr (m.bytes b) o s) :
    ∃ m', Caesar.decrypt (ptr b o) shift m = .ok () m' ∧ CStr (m'.bytes b) o (s.map (caesarBack shift.toNat)) ∧
      OnlyChanged m m' b o s.length := by
  have h := cstr_map hs (s' := s.map (caesarBack shift.toNat)) (by simp)
    (no_nul_map _ hs.1 (fun c hc => rot_ne_zero _ hc))
  exact ⟨_, Caesar.loop_ok (fun c => Caesar.decryptChar c shift) (caesarBack shift.toNat) hs
    (fun c hc => Caesar.decryptChar_eq shift hc) (fun c hc => rot_not_letter _ hc), h.1, h.2⟩

theorem caesar_back_rot (k : Nat) (c : Byte) :
    caesarBack k (rot k c) = c ↔ (Letter c → place c + k < 26) := by
  by_cases hL : Letter c
  · have hp := place_rot k hL
    have hlt := Vernam.place_lt hL
    unfold caesarBack
    rw [rot_rot, rot_fix hL, hp]
    constructor
    · intro h _
      by_cases hw : place c + k < 26
      · exact hw
      · exfalso
        rw [if_neg (by omega)] at h
        omega
    · intro h
      have := h hL
      rw [if_pos (by rw [Nat.mod_eq_of_lt this]; omega)]
      omega
  · unfold caesarBack
    rw [rot_not_letter k hL, rot_not_letter _ hL]
    simp [hL]

theorem map_eq_self {s : List Byte} {f : Byte → Byte} : s.map f = s ↔ ∀ c ∈ s, f c = c := by
  induction s with
  | nil => simp
  | cons a s ih => simp [ih]

/-- C54: decryption restores the message exactly if no letter went past the end of the alphabet. -/
theorem C54_round_trip_iff (m : Mem) (b o : Nat) (shift : Byte) (s : List Byte) (hs : CStr (m.bytes b) o s) :
    ∃ m1 m2, Caesar.encrypt (ptr b o) shift m = .ok () m1 ∧ Caesar.decrypt (ptr b o) shift m1 = .ok () m2 ∧
      (CStr (m2.bytes b) o s ↔ ∀ c ∈ s, Letter c → place c + shift.toNat < 26) := by
  obtain ⟨m1, a1, a2, -⟩ := C53_encrypt m b o shift s hs
  obtain ⟨m2, b1, b2, -⟩ := C54_decrypt_exact m1 b o shift _ a2
  refine ⟨m1, m2, a1, b1, ?_⟩
  rw [List.map_map] at b2
  have key : CStr (m2.bytes b) o s ↔ s.map (caesarBack shift.toNat ∘ rot shift.toNat) = s :=
    ⟨fun h => (CStr.unique b2 h), fun h => h ▸ b2⟩
  rw [key, map_eq_self]
  exact forall_congr' fun c => imp_congr_right fun _ => caesar_back_rot _ _

/-- C54: the round trip fails: "z" with shift 1 comes back as "v". -/
theorem C54_round_trip_fails : ∃ m1 m2, Caesar.encrypt (ptr 0 0) 1 (mem1 (ascii "z" ++ [0])) = .ok () m1 ∧
    Caesar.decrypt (ptr 0 0) 1 m1 = .ok () m2 ∧ m1.bytes 0 = ascii "a" ++ [0] ∧ m2.bytes 0 = ascii "v" ++ [0] :=
  ⟨_, _, rfl, rfl, by decide +kernel, by decide +kernel⟩

/-- C54: no shift of 26 or more can be undone by `CaesarCipher_decrypt` if the message has a letter. -/
theorem C54_large_shift (m : Mem) (b o : Nat) (shift : Byte) (s : List Byte) (hs : CStr (m.bytes b) o s)
    (h26 : 26 ≤ shift.toNat) (c : Byte) (hc : c ∈ s) (hL : Letter c) :
    ∃ m1 m2, Caesar.encrypt (ptr b o) shift m = .ok () m1 ∧ Caesar.decrypt (ptr b o) shift m1 = .ok () m2 ∧
      ¬ CStr (m2.bytes b) o s := by
  obtain ⟨m1, m2, a1, a2, a3⟩ := C54_round_trip_iff m b o shift s hs
  refine ⟨m1, m2, a1, a2, ?_⟩
  rw [a3]
  intro h
  have := h c hc hL
  omega

/-- C54: encryption with `26 - shift mod 26` undoes encryption with `shift`, always. -/
theorem C54_encrypt_inverse (m : Mem) (b o : Nat) (shift : Byte) (s : List Byte) (hs : CStr (m.bytes b) o s) :
    ∃ m1 m2, Caesar.encrypt (ptr b o) shift m = .ok () m1 ∧
      Caesar.encrypt (ptr b o) (BitVec.ofNat 8 (26 - shift.toNat % 26)) m1 = .ok () m2 ∧ CStr (m2.bytes b) o s := by
  obtain ⟨m1, a1, a2, -⟩ := C53_encrypt m b o shift s hs
  obtain ⟨m2, b1, b2, -⟩ := C53_encrypt m1 b o (BitVec.ofNat 8 (26 - shift.toNat % 26)) _ a2
  refine ⟨m1, m2, a1, b1, ?_⟩
  rw [List.map_map, map_eq_self.mpr] at b2
  · exact b2
  · intro c _
    by_cases hL : Letter c
    · simp only [Function.comp]
      rw [rot_rot, rot_fix hL, BitVec.toNat_ofNat]
      omega
    · simp only [Function.comp]
      rw [rot_not_letter _ hL, rot_not_letter _ hL]

/-! ### Vernam -/

/-- Message `s` and a key of the same length that is elsewhere. -/
structure VernamArgs (m : Mem) (bm om bk ok : Nat) (s key : List Byte) (len : U32) : Prop where
  msg : CStr (m.bytes bm) om s
  key : slice (m.bytes bk) ok s.length = key
  key_room : ok + s.length ≤ (m.bytes bk).length
  apart : bk ≠ bm ∨ ok + s.length ≤ om ∨ om + s.length < ok
  len : len.toNat = s.length
  small : s.length < 2 ^ 31

/-- The ideal cipher: letter `i` moves by the place of key letter `i` in the alphabet. -/
def vernam (s key : List Byte) : List Byte := s.mapIdx (fun i c => rot (place (key.getD i 0)) c)

theorem mapIdx_no_nul {s : List Byte} (g : Nat → Byte → Byte) (h : 0#8 ∉ s) (hg : ∀ i c, c ≠ 0#8 → g i c ≠ 0#8) :
    0#8 ∉ s.mapIdx g := by
  intro hm
  obtain ⟨i, hi, e⟩ := List.mem_iff_getElem.mp hm
  rw [List.getElem_mapIdx] at e
  exact hg _ _ (fun e' => h (e' ▸ List.getElem_mem _)) e

theorem vernam_encrypt_run {m : Mem} {bm om bk ok : Nat} {s key : List Byte} {len : U32}
    (h : VernamArgs m bm om bk ok s key len) :
    Vernam.encrypt (ptr bm om) (ptr bk ok) len m = .ok true (m.upd bm (splice (m.bytes bm) om
      (s.mapIdx (fun i c => if Letter c then Vernam.encryptChar c (key.getD i 0) else c)))) := by
  have hsm := h.small
  have hlen := h.len
  have hap := h.apart
  have hl := Vernam.loop_ok Vernam.encryptChar h.msg h.key h.key_room (by omega)
  unfold Vernam.encrypt
  rw [C.bind_ok (strlen_ok h.msg), if_pos (by apply BitVec.eq_of_toNat_eq; rw [BitVec.toNat_ofNat]; omega)]
  have : len.toInt.toNat = s.length := by
    rw [BitVec.toInt_eq_toNat_cond, if_pos (by omega)]; omega
  rw [this, C.bind_ok hl]
  rfl

theorem vernam_decrypt_run {m : Mem} {bm om bk ok : Nat} {s key : List Byte} {len : U32} (cs : Bool)
    (h : VernamArgs m bm om bk ok s key len) :
    Vernam.decrypt cs (ptr bm om) (ptr bk ok) len m = .ok true (m.upd bm (splice (m.bytes bm) om
      (s.mapIdx (fun i c => if Letter c then Vernam.decryptChar cs c (key.getD i 0) else c)))) := by
  have hsm := h.small
  have hlen := h.len
  have hap := h.apart
  have hl := Vernam.loop_ok (Vernam.decryptChar cs) h.msg h.key h.key_room (by omega)
  unfold Vernam.decrypt
  rw [C.bind_ok (strlen_ok h.msg), if_pos (by apply BitVec.eq_of_toNat_eq; rw [BitVec.toNat_ofNat]; omega)]
  have : len.toInt.toNat = s.length := by
    rw [BitVec.toInt_eq_toNat_cond, if_pos (by omega)]; omega
  rw [this, C.bind_ok hl]
  rfl

theorem mapIdx_congr' {α β} {l : List α} {f g : Nat → α → β} (h : ∀ i (hi : i < l.length), f i l[i] = g i l[i]) :
    l.mapIdx f = l.mapIdx g := by
  apply List.ext_getElem
  · simp
  · intro i h1 h2
    simp only [List.length_mapIdx] at h1
    rw [List.getElem_mapIdx, List.getElem_mapIdx]
    exact h i h1

theorem key_letter {m : Mem} {bm om bk ok : Nat} {s key : List Byte} {len : U32}
    (h : VernamArgs m bm om bk ok s key len) (hk : ∀ k ∈ key, Letter k) {i : Nat} (hi : i < s.length) :
    Letter (key.getD i 0) := by
  have hl : key.length = s.length := by rw [← h.key, slice_length _ _ _ h.key_room]
  have : key.getD i 0 = key[i] := by simp [hl, hi]
  rw [this]
  exact hk _ (List.getElem_mem _)

/-- C57: with an alphabetic key encryption is the letterwise sum. -/
theorem C57_vernam_sum {m : Mem} {bm om bk ok : Nat} {s key : List Byte} {len : U32}
    (h : VernamArgs m bm om bk ok s key len) (hk : ∀ k ∈ key, Letter k) :
    ∃ m', Vernam.encrypt (ptr bm om) (ptr bk ok) len m = .ok true m' ∧ CStr (m'.bytes bm) om (vernam s key) ∧
      OnlyChanged m m' bm om s.length := by
  have e : s.mapIdx (fun i c => if Letter c then Vernam.encryptChar c (key.getD i 0) else c) = vernam s key := by
    unfold vernam
    apply mapIdx_congr'
    intro i hi
    split
    · rename_i hL; exact Vernam.encryptChar_eq hL (key_letter h hk hi)
    · rename_i hL; rw [rot_not_letter _ hL]
  have hrun := vernam_encrypt_run h
  rw [e] at hrun
  have hn := cstr_map h.msg (s' := vernam s key) (by simp [vernam])
    (mapIdx_no_nul _ h.msg.1 (fun i c hc => rot_ne_zero _ hc))
  exact ⟨_, hrun, hn.1, hn.2⟩

/-- C57: and decryption the letterwise difference. -/
theorem C57_vernam_difference {m : Mem} {bm om bk ok : Nat} {s key : List Byte} {len : U32} (cs : Bool)
    (h : VernamArgs m bm om bk ok s key len) (hk : ∀ k ∈ key, Letter k) :
    ∃ m', Vernam.decrypt cs (ptr bm om) (ptr bk ok) len m = .ok true m' ∧
      CStr (m'.bytes bm) om (s.mapIdx (fun i c => rot (26 - place (key.getD i 0)) c)) ∧
      OnlyChanged m m' bm om s.length := by
  have e : s.mapIdx (fun i c => if Letter c then Vernam.decryptChar cs c (key.getD i 0) else c) =
      s.mapIdx (fun i c => rot (26 - place (key.getD i 0)) c) := by
    apply mapIdx_congr'
    intro i hi
    split
    · rename_i hL; exact Vernam.decryptChar_eq cs hL (key_letter h hk hi)
    · rename_i hL; rw [rot_not_letter _ hL]
  have hrun := vernam_decrypt_run cs h
  rw [e] at hrun
  have hn := cstr_map h.msg (s' := s.mapIdx (fun i c => rot (26 - place (key.getD i 0)) c)) (by simp)
    (mapIdx_no_nul _ h.msg.1 (fun i c hc => rot_ne_zero _ hc))
  exact ⟨_, hrun, hn.1, hn.2⟩

/-- C55: with an alphabetic key decryption restores the message, for either signedness of `char`. -/
theorem C55_vernam_round_trip {m : Mem} {bm om bk ok : Nat} {s key : List Byte} {len : U32} (cs : Bool)
    (h : VernamArgs m bm om bk ok s key len) (hk : ∀ k ∈ key, Letter k) :
    ∃ m1, Vernam.encrypt (ptr bm om) (ptr bk ok) len m = .ok true m1 ∧
      Vernam.decrypt cs (ptr bm om) (ptr bk ok) len m1 = .ok true m := by
  obtain ⟨m1, a1, a2, a3⟩ := C57_vernam_sum h hk
  have hlv : (vernam s key).length = s.length := by simp [vernam]
  have hap := h.apart
  have hkey : slice (m1.bytes bk) ok s.length = slice (m.bytes bk) ok s.length := by
    by_cases hb : bk = bm
    · subst hb
      apply List.ext_getElem?
      intro i
      rw [getElem?_slice, getElem?_slice]
      split
      · exact a3.2.2.2 _ (by omega)
      · rfl
    · rw [a3.2.1 bk hb]
  have hkl : (m1.bytes bk).length = (m.bytes bk).length := by
    by_cases hb : bk = bm
    · subst hb; exact a3.2.2.1
    · rw [a3.2.1 bk hb]
  have h1 : VernamArgs m1 bm om bk ok (vernam s key) key len :=
    ⟨a2, by rw [hlv, hkey, h.key], by rw [hlv, hkl]; exact h.key_room, by rw [hlv]; exact hap,
      by rw [hlv]; exact h.len, by rw [hlv]; exact h.small⟩
  obtain ⟨m2, b1, b2, b3⟩ := C57_vernam_difference cs h1 hk
  have e : (vernam s key).mapIdx (fun i c => rot (26 - place (key.getD i 0)) c) = s := by
    apply List.ext_getElem
    · simp [vernam]
    · intro i i1 i2
      rw [List.getElem_mapIdx]
      unfold vernam
      rw [List.getElem_mapIdx, rot_rot]
      have hp := Vernam.place_lt (key_letter h hk i2)
      by_cases hL : Letter s[i]
      · rw [rot_fix hL]; omega
      · rw [rot_not_letter _ hL]
  rw [e] at b2
  refine ⟨m1, a1, ?_⟩
  rw [b1]
  congr 1
  rw [hlv] at b3
  have hlt := h.msg.lt
  apply onlyChanged_eq (b := bm) (o := om) (n := s.length)
  · refine ⟨by rw [b3.1, a3.1], fun x hx => by rw [b3.2.1 x hx, a3.2.1 x hx], by rw [b3.2.2.1, a3.2.2.1], ?_⟩
    intro i hi
    rw [b3.2.2.2 i hi, a3.2.2.2 i hi]
  · omega
  · apply List.ext_getElem?
    intro i
    rw [getElem?_slice, getElem?_slice]
    split
    · rename_i hi; rw [b2.get hi, h.msg.get hi]
    · rfl

/-- C55: with other keys the round trip fails: message "A", key "1". -/
theorem C55_round_trip_fails (cs : Bool) :
    ∃ m1 m2, Vernam.encrypt (ptr 0 0) (ptr 1 0) 1 (mem2 (ascii "A" ++ [0]) (ascii "1" ++ [0])) = .ok true m1 ∧
      Vernam.decrypt cs (ptr 0 0) (ptr 1 0) 1 m1 = .ok true m2 ∧
      m1.bytes 0 = ascii "1" ++ [0] ∧ m2.bytes 0 = ascii "1" ++ [0] :=
  ⟨_, _, rfl, rfl, by decide +kernel, by cases cs <;> decide +kernel⟩

/-- Non-vacuity: a message with letters of both cases and other characters. -/
example : VernamArgs (mem2 (ascii "Hi, Zed" ++ [0]) (ascii "SecretK" ++ [0])) 0 0 1 0 (ascii "Hi, Zed") (ascii "SecretK") 7 ∧
    (∀ k ∈ ascii "SecretK", Letter k) ∧ vernam (ascii "Hi, Zed") (ascii "SecretK") = ascii "Zm, Dxn" :=
  ⟨⟨⟨by decide +kernel, [], by decide +kernel⟩, by decide +kernel, by decide +kernel, by decide, by decide +kernel,
    by decide +kernel⟩, by decide +kernel, by decide +kernel⟩

/-- C56: with a key length other than the message length both functions return false and change nothing. -/
theorem C56_wrong_length (m : Mem) (bm om : Nat) (key : Ptr) (len : U32) (cs : Bool) (s : List Byte)
    (hs : CStr (m.bytes bm) om s) (hsmall : s.length < 2 ^ 31) (hne : len.toInt ≠ s.length) :
    Vernam.encrypt (ptr bm om) key len m = .ok false m ∧ Vernam.decrypt cs (ptr bm om) key len m = .ok false m := by
  have hne' : BitVec.ofNat 32 s.length ≠ len := by
    intro e
    apply hne
    rw [← e, BitVec.toInt_eq_toNat_cond, BitVec.toNat_ofNat, if_pos (by omega)]
    omega
  constructor
  · unfold Vernam.encrypt
    rw [C.bind_ok (strlen_ok hs), if_neg hne']
    rfl
  · unfold Vernam.decrypt
    rw [C.bind_ok (strlen_ok hs), if_neg hne']
    rfl

/-- C56: with the right length both return true, whatever the key; only letters change and, for encryption, the
message keeps its length. -/
theorem C56_right_length {m : Mem} {bm om bk ok : Nat} {s key : List Byte} {len : U32} (cs : Bool)
    (h : VernamArgs m bm om bk ok s key len) :
    (∃ m' s', Vernam.encrypt (ptr bm om) (ptr bk ok) len m = .ok true m' ∧ OnlyChanged m m' bm om s.length ∧
      CStr (m'.bytes bm) om s' ∧ s'.length = s.length ∧
      ∀ (i : Nat) (c : Byte), s[i]? = some c → ¬ Letter c → s'[i]? = some c) ∧
    (∃ m', Vernam.decrypt cs (ptr bm om) (ptr bk ok) len m = .ok true m' ∧ OnlyChanged m m' bm om s.length ∧
      ∀ (i : Nat) (c : Byte), s[i]? = some c → ¬ Letter c → (m'.bytes bm)[om + i]? = some c) := by
  have hlt := h.msg.lt
  constructor
  · have hn := cstr_map h.msg (s' := s.mapIdx (fun i c => if Letter c then Vernam.encryptChar c (key.getD i 0) else c))
      (by simp) (mapIdx_no_nul _ h.msg.1 (fun i c hc => by
        split
        · rename_i hL; exact Vernam.encryptChar_ne_zero _ hL
        · exact hc))
    refine ⟨_, _, vernam_encrypt_run h, hn.2, hn.1, by simp, ?_⟩
    intro i c hc hL
    rw [List.getElem?_mapIdx, hc]
    simp [hL]
  · have hl : (s.mapIdx (fun i c => if Letter c then Vernam.decryptChar cs c (key.getD i 0) else c)).length = s.length := by
      simp
    have hoc := onlyChanged_splice m bm om
      (s.mapIdx (fun i c => if Letter c then Vernam.decryptChar cs c (key.getD i 0) else c)) (by omega)
    rw [hl] at hoc
    refine ⟨_, vernam_decrypt_run cs h, hoc, ?_⟩
    intro i c hc hL
    have hi : i < s.length := (List.getElem?_eq_some_iff.mp hc).1
    rw [Mem.upd_bytes, if_pos rfl, getElem?_splice _ _ _ (by omega), if_neg (by omega), if_pos (by omega),
      show om + i - om = i by omega, List.getElem?_mapIdx, hc]
    simp [hL]

/-- C56: decryption with a non-alphabetic key can shorten the message: with signed `char` the key byte 0x82 turns
"A" into NUL. -/
theorem C56_decrypt_may_truncate :
    ∃ m', Vernam.decrypt true (ptr 0 0) (ptr 1 0) 2 (mem2 (ascii "AB" ++ [0]) [0x82, 0x41, 0]) = .ok true m' ∧
      CStr (m'.bytes 0) 0 [] :=
  ⟨_, rfl, by decide, [66, 0], by decide +kernel⟩

/-- C56: the documented "message size higher than key length" is not enough: "AB" with key length 1 fails. -/
theorem C56_longer_message_fails : Vernam.encrypt (ptr 0 0) (ptr 1 0) 1 (mem2 (ascii "AB" ++ [0]) (ascii "K" ++ [0])) =
    .ok false (mem2 (ascii "AB" ++ [0]) (ascii "K" ++ [0])) := rfl

end IMU.Props
