import Verif.Proofs.ChaChaOverlap
import Verif.Proofs.VernamOverlap
import Verif.Props.ChaCha20
import Verif.Props.Cipher

/-!
# Property C117: arguments of the ciphers that overlap

`midByte m m' br ro K b i` is byte `i` of object `b` when the first `K` bytes of the result are written (Spec/Midway).
-/

namespace IMU.Props
open Spec Utils IMU.ChaCha

/-- The ranges of a ChaCha20 call are inside their objects; they may overlap in any way.  `ks` is the object of the local
array. -/
structure AnyArgs (m : Mem) (ks bp po bk ok bn on br ro len : Nat) : Prop where
  msg : po + len ≤ (m.bytes bp).length
  key : ok + 32 ≤ (m.bytes bk).length
  nonce : on + 12 ≤ (m.bytes bn).length
  res : ro + len ≤ (m.bytes br).length
  ks_p : bp ≠ ks
  ks_k : bk ≠ ks
  ks_n : bn ≠ ks
  ks_r : br ≠ ks

/-- C117: whatever overlaps, byte `i` of the result is the byte of the message found when `i` bytes are written, under the
key and the nonce found when the blocks before that of `i` are written. -/
theorem C117_chacha_exact {m : Mem} {ks bp po bk ok bn on br ro : Nat} (L inc : U32)
    (h : AnyArgs m ks bp po bk ok bn on br ro L.toNat) :
    ∃ m', crypt ks (ptr bp po) L (ptr bk ok) (ptr bn on) inc (ptr br ro) m = .ok () m' ∧
      OnlyChanged m m' br ro L.toNat ∧ ∀ i < L.toNat, (m'.bytes br).getD (ro + i) 0 =
        midByte m m' br ro i bp (po + i) ^^^ keyStream (midRange m m' br ro (64 * (i / 64)) bk ok 32) inc
          (midRange m m' br ro (64 * (i / 64)) bn on 12) i := by
  obtain ⟨M, h1, h2, h3⟩ := crypt_any inc h.msg h.key h.nonce h.res h.ks_p h.ks_k h.ks_n h.ks_r L rfl
  exact ⟨M, h1, h2, h3⟩

/-- C117: a byte of the result is that of RFC 8439 as soon as its message byte has not been written over and the blocks
before its own have not reached the key or the nonce. -/
theorem C117_chacha_right_bytes {m : Mem} {ks bp po bk ok bn on br ro : Nat} (L inc : U32)
    (h : AnyArgs m ks bp po bk ok bn on br ro L.toNat) :
    ∃ m', crypt ks (ptr bp po) L (ptr bk ok) (ptr bn on) inc (ptr br ro) m = .ok () m' ∧
      ∀ i < L.toNat, (bp ≠ br ∨ po + i < ro ∨ ro ≤ po) →
        (bk ≠ br ∨ ok + 32 ≤ ro ∨ ro + 64 * (i / 64) ≤ ok) → (bn ≠ br ∨ on + 12 ≤ ro ∨ ro + 64 * (i / 64) ≤ on) →
        (m'.bytes br).getD (ro + i) 0 = (m.bytes bp).getD (po + i) 0 ^^^
          keyStream (slice (m.bytes bk) ok 32) inc (slice (m.bytes bn) on 12) i := by
  obtain ⟨M, h1, -, h3⟩ := C117_chacha_exact L inc h
  refine ⟨M, h1, ?_⟩
  intro i hi a b c
  rw [h3 i hi, mid_old (by omega), midRange_old b h.key, midRange_old c h.nonce]

/-- C117: up to 64 bytes the key and the nonce may lie anywhere in the result, for instance a key encrypted under itself in
its place: the result is that of RFC 8439. -/
theorem C117_chacha_one_block {m : Mem} {ks bp po bk ok bn on br ro : Nat} (L inc : U32)
    (h : AnyArgs m ks bp po bk ok bn on br ro L.toNat) (hL : L.toNat ≤ 64)
    (hm : bp ≠ br ∨ ro ≤ po ∨ po + L.toNat ≤ ro) :
    ∃ m', crypt ks (ptr bp po) L (ptr bk ok) (ptr bn on) inc (ptr br ro) m = .ok () m' ∧
      slice (m'.bytes br) ro L.toNat =
        chacha20 (slice (m.bytes bk) ok 32) inc (slice (m.bytes bn) on 12) (slice (m.bytes bp) po L.toNat) := by
  obtain ⟨M, h1, h2, h3⟩ := C117_chacha_exact L inc h
  have hp := h.msg
  have hr := h.res
  refine ⟨M, h1, slice_eq_of (by rw [IMU.Json.oc_length h2]; exact hr) (by simp [chacha20, slice_length _ _ _ hp]) ?_⟩
  intro i hi
  rw [h3 i hi, show 64 * (i / 64) = 0 by omega, midRange_zero h.key, midRange_zero h.nonce, mid_old (by omega)]
  unfold chacha20
  rw [List.getD_eq_getElem?_getD, List.getD_eq_getElem?_getD, List.getElem?_mapIdx, getElem?_slice, if_pos hi,
    List.getElem?_eq_getElem (show po + i < (m.bytes bp).length by omega)]
  rfl

/-- C117: a result that begins `d` bytes behind the beginning of the message (`0 < d`), key and nonce elsewhere: byte `i`
is made from byte `i - d` of the *result* from `d` on, so the message from byte `d` on has no influence. -/
theorem C117_chacha_behind {m : Mem} {ks bp po bk ok bn on d : Nat} (L inc : U32) (hd : 0 < d)
    (h : AnyArgs m ks bp po bk ok bn on bp (po + d) L.toNat)
    (hk : bk ≠ bp ∨ ok + 32 ≤ po + d ∨ po + d + L.toNat ≤ ok) (hn : bn ≠ bp ∨ on + 12 ≤ po + d ∨ po + d + L.toNat ≤ on) :
    ∃ m', crypt ks (ptr bp po) L (ptr bk ok) (ptr bn on) inc (ptr bp (po + d)) m = .ok () m' ∧
      ∀ i < L.toNat, (m'.bytes bp).getD (po + d + i) 0 =
        (if i < d then (m.bytes bp).getD (po + i) 0 else (m'.bytes bp).getD (po + d + (i - d)) 0) ^^^
          keyStream (slice (m.bytes bk) ok 32) inc (slice (m.bytes bn) on 12) i := by
  obtain ⟨M, h1, -, h3⟩ := C117_chacha_exact L inc h
  refine ⟨M, h1, ?_⟩
  intro i hi
  rw [h3 i hi, midRange_old (by omega) h.key, midRange_old (by omega) h.nonce]
  congr 1
  split
  · exact mid_old (by omega)
  · rw [show po + i = po + d + (i - d) by omega]
    exact mid_new (by omega) (by omega)

/-- C117: two calls of that kind that agree on the first `d` bytes of the message, on the key and on the nonce give the
same result: the rest of the message is lost. -/
theorem C117_chacha_behind_loses {m n : Mem} {ks bp po bk ok bn on d : Nat} (L inc : U32) (hd : 0 < d)
    (h : AnyArgs m ks bp po bk ok bn on bp (po + d) L.toNat) (g : AnyArgs n ks bp po bk ok bn on bp (po + d) L.toNat)
    (hk : bk ≠ bp ∨ ok + 32 ≤ po + d ∨ po + d + L.toNat ≤ ok) (hn : bn ≠ bp ∨ on + 12 ≤ po + d ∨ po + d + L.toNat ≤ on)
    (em : ∀ i < d, (m.bytes bp).getD (po + i) 0 = (n.bytes bp).getD (po + i) 0)
    (ek : slice (m.bytes bk) ok 32 = slice (n.bytes bk) ok 32) (en : slice (m.bytes bn) on 12 = slice (n.bytes bn) on 12) :
    ∃ m' n', crypt ks (ptr bp po) L (ptr bk ok) (ptr bn on) inc (ptr bp (po + d)) m = .ok () m' ∧
      crypt ks (ptr bp po) L (ptr bk ok) (ptr bn on) inc (ptr bp (po + d)) n = .ok () n' ∧
      ∀ i < L.toNat, (m'.bytes bp).getD (po + d + i) 0 = (n'.bytes bp).getD (po + d + i) 0 := by
  obtain ⟨m', a1, a2⟩ := C117_chacha_behind L inc hd h hk hn
  obtain ⟨n', b1, b2⟩ := C117_chacha_behind L inc hd g hk hn
  refine ⟨m', n', a1, b1, ?_⟩
  intro i
  induction i using Nat.strongRecOn with
  | _ i ih =>
    intro hi
    rw [a2 i hi, b2 i hi, ek, en]
    split
    · rename_i hid; rw [em i hid]
    · rename_i hid; rw [ih (i - d) (by omega) (by omega)]

/-- C117: a key that lies in the result and ends before byte `64 * q` of it: from there on the result is encrypted under
*result bytes*, the 32 bytes that replaced the key; whoever has the result can read that part of the message. -/
theorem C117_chacha_key_in_result {m : Mem} {ks bp po bn on br ro r q : Nat} (L inc : U32)
    (h : AnyArgs m ks bp po br (ro + r) bn on br ro L.toNat) (hq : r + 32 ≤ 64 * q) (hqL : 64 * q ≤ L.toNat)
    (hm : bp ≠ br ∨ ro ≤ po ∨ po + L.toNat ≤ ro) (hn : bn ≠ br ∨ on + 12 ≤ ro ∨ ro + L.toNat ≤ on) :
    ∃ m', crypt ks (ptr bp po) L (ptr br (ro + r)) (ptr bn on) inc (ptr br ro) m = .ok () m' ∧
      slice (m'.bytes br) (ro + 64 * q) (L.toNat - 64 * q) =
        chacha20 (slice (m'.bytes br) (ro + r) 32) (inc + BitVec.ofNat 32 q) (slice (m.bytes bn) on 12)
          (slice (m.bytes bp) (po + 64 * q) (L.toNat - 64 * q)) ∧
      chacha20 (slice (m'.bytes br) (ro + r) 32) (inc + BitVec.ofNat 32 q) (slice (m.bytes bn) on 12)
          (slice (m'.bytes br) (ro + 64 * q) (L.toNat - 64 * q)) =
        slice (m.bytes bp) (po + 64 * q) (L.toNat - 64 * q) := by
  obtain ⟨M, h1, h2, h3⟩ := C117_chacha_exact L inc h
  have hp := h.msg
  have hr := h.res
  have hl := IMU.Json.oc_length h2 br
  have key : slice (M.bytes br) (ro + 64 * q) (L.toNat - 64 * q) =
        chacha20 (slice (M.bytes br) (ro + r) 32) (inc + BitVec.ofNat 32 q) (slice (m.bytes bn) on 12)
          (slice (m.bytes bp) (po + 64 * q) (L.toNat - 64 * q)) := by
    refine slice_eq_of (by omega) (by simp [chacha20, slice_length (m.bytes bp) (po + 64 * q) (L.toNat - 64 * q) (by omega)]) ?_
    intro i hi
    have := h3 (64 * q + i) (by omega)
    rw [show ro + 64 * q + i = ro + (64 * q + i) by omega, this,
      midRange_new (by omega) (by omega) (by omega), midRange_old (by omega) h.nonce, mid_old (by omega)]
    unfold chacha20
    rw [List.getD_eq_getElem?_getD, List.getD_eq_getElem?_getD, List.getElem?_mapIdx, getElem?_slice, if_pos hi,
      List.getElem?_eq_getElem (show po + (64 * q + i) < (m.bytes bp).length by omega),
      List.getElem?_eq_getElem (show po + 64 * q + i < (m.bytes bp).length by omega)]
    simp only [Option.map_some, Option.getD_some]
    unfold keyStream
    rw [show (64 * q + i) / 64 = q + i / 64 by omega, show (64 * q + i) % 64 = i % 64 by omega, BitVec.ofNat_add,
      ← BitVec.add_assoc]
    simp only [show po + (64 * q + i) = po + 64 * q + i by omega]
  exact ⟨M, h1, key, by rw [key, chacha20_involutive]⟩

/-- Non-vacuity: message, key, nonce and result all in one object of 300 bytes. -/
def memO : Mem := mem2 ((List.range 300).map (BitVec.ofNat 8)) []

example : AnyArgs memO 2 0 0 0 10 0 50 0 0 (200#32).toNat ∧ AnyArgs memO 2 0 0 0 0 0 20 0 0 (32#32).toNat ∧
    AnyArgs memO 2 0 0 0 256 0 288 0 (0 + 7) (200#32).toNat ∧
    AnyArgs memO 2 0 0 0 (0 + 16) 0 288 0 0 (200#32).toNat ∧ 16 + 32 ≤ 64 * 1 := by
  refine ⟨?_, ?_, ?_, ?_, ?_⟩ <;> first | (constructor <;> decide +kernel) | decide

/-! ### Vernam -/

/-- A message and room for a key of its length; the key may be anywhere, also in the message. -/
structure VernamAny (m : Mem) (bm om bk ok : Nat) (s : List Byte) (len : U32) : Prop where
  msg : CStr (m.bytes bm) om s
  key : ok + s.length ≤ (m.bytes bk).length
  len : len.toNat = s.length
  small : s.length < 2 ^ 31

/-- C117: letter `i` moves by the key letter found when the first `i` characters are encrypted. -/
theorem C117_vernam_encrypt {m : Mem} {bm om bk ok : Nat} {s : List Byte} {len : U32} (h : VernamAny m bm om bk ok s len) :
    ∃ m', Vernam.encrypt (ptr bm om) (ptr bk ok) len m = .ok true m' ∧ OnlyChanged m m' bm om s.length ∧
      ∀ i < s.length, Letter (midByte m m' bm om i bk (ok + i)) → (m'.bytes bm).getD (om + i) 0 =
        rot (place (midByte m m' bm om i bk (ok + i))) (s.getD i 0) := by
  obtain ⟨M, h1, h2, h3⟩ := Vernam.encrypt_any h.msg h.key h.len h.small
  refine ⟨M, h1, h2, ?_⟩
  intro i hi hk
  rw [h3 i hi]
  split
  · rename_i hL; exact Vernam.encryptChar_eq hL hk
  · rename_i hL; rw [rot_not_letter _ hL]

/-- C117: the same for decryption, in the other direction. -/
theorem C117_vernam_decrypt {m : Mem} {bm om bk ok : Nat} {s : List Byte} {len : U32} (cs : Bool)
    (h : VernamAny m bm om bk ok s len) :
    ∃ m', Vernam.decrypt cs (ptr bm om) (ptr bk ok) len m = .ok true m' ∧ OnlyChanged m m' bm om s.length ∧
      ∀ i < s.length, Letter (midByte m m' bm om i bk (ok + i)) → (m'.bytes bm).getD (om + i) 0 =
        rot (26 - place (midByte m m' bm om i bk (ok + i))) (s.getD i 0) := by
  obtain ⟨M, h1, h2, h3⟩ := Vernam.decrypt_any h.msg h.key h.len h.small cs
  refine ⟨M, h1, h2, ?_⟩
  intro i hi hk
  rw [h3 i hi]
  split
  · rename_i hL; exact Vernam.decryptChar_eq cs hL hk
  · rename_i hL; rw [rot_not_letter _ hL]

theorem getD_map_lt {s : List Byte} (f : Byte → Byte) {i : Nat} (hi : i < s.length) : (s.map f).getD i 0 = f (s.getD i 0) := by
  simp [hi]

/-- C117: a message that is its own key (all letters): encryption doubles every letter. -/
theorem C117_vernam_self_encrypt {m : Mem} {bm om : Nat} {s : List Byte} {len : U32} (h : VernamAny m bm om bm om s len)
    (hl : ∀ c ∈ s, Letter c) :
    ∃ m', Vernam.encrypt (ptr bm om) (ptr bm om) len m = .ok true m' ∧ OnlyChanged m m' bm om s.length ∧
      slice (m'.bytes bm) om s.length = s.map (fun c => rot (place c) c) := by
  obtain ⟨M, h1, h2, h3⟩ := C117_vernam_encrypt h
  have hlt := h.msg.lt
  refine ⟨M, h1, h2, slice_eq_of (by rw [IMU.Json.oc_length h2]; omega) (by simp) ?_⟩
  intro i hi
  have e : midByte m M bm om i bm (om + i) = s.getD i 0 := by
    rw [mid_old (by omega), List.getD_eq_getElem?_getD, List.getD_eq_getElem?_getD, h.msg.get hi]
  have := h3 i hi
  rw [e] at this
  rw [this (hl _ (by simp [hi])), getD_map_lt _ hi]

/-- C117: decryption of a message with itself as the key turns every letter into the first of its case, whatever it was:
the message is lost. -/
theorem C117_vernam_self_decrypt {m : Mem} {bm om : Nat} {s : List Byte} {len : U32} (cs : Bool)
    (h : VernamAny m bm om bm om s len) (hl : ∀ c ∈ s, Letter c) :
    ∃ m', Vernam.decrypt cs (ptr bm om) (ptr bm om) len m = .ok true m' ∧ OnlyChanged m m' bm om s.length ∧
      slice (m'.bytes bm) om s.length = s.map (fun c => if c.toNat ≤ 90 then 65#8 else 97#8) := by
  obtain ⟨M, h1, h2, h3⟩ := C117_vernam_decrypt cs h
  have hlt := h.msg.lt
  refine ⟨M, h1, h2, slice_eq_of (by rw [IMU.Json.oc_length h2]; omega) (by simp) ?_⟩
  intro i hi
  have e : midByte m M bm om i bm (om + i) = s.getD i 0 := by
    rw [mid_old (by omega), List.getD_eq_getElem?_getD, List.getD_eq_getElem?_getD, h.msg.get hi]
  have := h3 i hi
  rw [e] at this
  have hL := hl _ (show s.getD i 0 ∈ s by simp [hi])
  rw [this hL, getD_map_lt _ hi]
  generalize s.getD i 0 = c at hL
  apply BitVec.eq_of_toNat_eq
  unfold Letter at hL
  by_cases hu : c.toNat ≤ 90
  · rw [rot_toNat_upper _ (by omega), if_pos hu]
    unfold place
    rw [if_pos hu, show c.toNat - 65 + (26 - (c.toNat - 65)) = 26 by omega]
    rfl
  · rw [rot_toNat_lower _ (by omega), if_neg hu]
    unfold place
    rw [if_neg hu, show c.toNat - 97 + (26 - (c.toNat - 97)) = 26 by omega]
    rfl

/-- C117: so encrypting and decrypting with the message itself as the key restores it only if it consists of the letters
`A` and `a`. -/
theorem C117_vernam_self_round_trip {m : Mem} {bm om : Nat} {s : List Byte} {len : U32} (cs : Bool)
    (h : VernamAny m bm om bm om s len) (hl : ∀ c ∈ s, Letter c) :
    ∃ m1 m2, Vernam.encrypt (ptr bm om) (ptr bm om) len m = .ok true m1 ∧
      Vernam.decrypt cs (ptr bm om) (ptr bm om) len m1 = .ok true m2 ∧
      (slice (m2.bytes bm) om s.length = s ↔ ∀ c ∈ s, place c = 0) := by
  obtain ⟨m1, a1, a2, a3⟩ := C117_vernam_self_encrypt h hl
  have hlt := h.msg.lt
  have hll : (s.map (fun c => rot (place c) c)).length = s.length := by simp
  have hcs := Vernam.cstr_after h.msg a2 a3 (by
    intro hm
    obtain ⟨c, hc, e⟩ := List.mem_map.mp hm
    exact letter_ne_zero ((rot_letter _).mpr (hl c hc)) e)
  have h' : VernamAny m1 bm om bm om (s.map (fun c => rot (place c) c)) len :=
    ⟨hcs, by rw [IMU.Json.oc_length a2, hll]; exact h.key, by rw [hll]; exact h.len,
      by rw [hll]; exact h.small⟩
  obtain ⟨m2, b1, b2, b3⟩ := C117_vernam_self_decrypt cs h' (by
    intro c hc
    obtain ⟨x, hx, e⟩ := List.mem_map.mp hc
    rw [← e, rot_letter]; exact hl x hx)
  refine ⟨m1, m2, a1, b1, ?_⟩
  rw [hll, List.map_map] at b3
  rw [b3]
  have key : ∀ c, Letter c → ((if (rot (place c) c).toNat ≤ 90 then 65#8 else 97#8) = c ↔ place c = 0) := by
    intro c hc
    unfold Letter at hc
    by_cases hu : c.toNat ≤ 90
    · have e := rot_toNat_upper (place c) (show 65 ≤ c.toNat ∧ c.toNat ≤ 90 by omega)
      rw [if_pos (by omega)]
      unfold place
      rw [if_pos hu]
      constructor
      · intro e; rw [← e]; rfl
      · intro e; apply BitVec.eq_of_toNat_eq; show 65 = c.toNat; omega
    · have e := rot_toNat_lower (place c) (show 97 ≤ c.toNat ∧ c.toNat ≤ 122 by omega)
      rw [if_neg (by omega)]
      unfold place
      rw [if_neg hu]
      constructor
      · intro e; rw [← e]; rfl
      · intro e; apply BitVec.eq_of_toNat_eq; show 97 = c.toNat; omega
  constructor
  · intro e c hc
    have := List.map_inj_left.mp (e.trans (List.map_id s).symm) c hc
    exact (key c (hl c hc)).mp this
  · intro e
    conv => rhs; rw [← List.map_id s]
    apply List.map_congr_left
    intro c hc
    exact (key c (hl c hc)).mpr (e c hc)

example : VernamAny (mem2 (ascii "Hello" ++ [0]) []) 0 0 0 0 (ascii "Hello") 5 ∧ (∀ c ∈ ascii "Hello", Letter c) ∧
    (ascii "Hello").map (fun c => rot (place c) c) = ascii "Oiwwc" :=
  ⟨⟨cstr_of_slice (by decide) (by decide +kernel), by decide, by decide, by decide⟩, by decide, by decide +kernel⟩

/-! A key that begins `d` bytes in front of the message and reaches into it. -/

/-- Key letters in front of the message, message letters. -/
structure FrontArgs (m : Mem) (b ok d : Nat) (s : List Byte) (len : U32) : Prop where
  any : VernamAny m b (ok + d) b ok s len
  pos : 0 < d
  key : ∀ i < d, Letter ((m.bytes b).getD (ok + i) 0)
  msg : ∀ c ∈ s, Letter c

theorem front_mid {m M : Mem} {b ok d n i : Nat} (h : OnlyChanged m M b (ok + d) n) (hd : 0 < d) :
    midByte m M b (ok + d) i b (ok + i) = (M.bytes b).getD (ok + i) 0 := by
  by_cases hi : i < d
  · rw [mid_old (by omega)]
    exact (getD_congr (h.2.2.2 _ (by omega))).symm
  · exact mid_new (by omega) (by omega)

/-- C117: encryption uses as the key what is found in its place *after* the call: the first `d` key letters and then the
cipher text itself. -/
theorem C117_vernam_front_encrypt {m : Mem} {b ok d : Nat} {s : List Byte} {len : U32} (h : FrontArgs m b ok d s len) :
    ∃ m', Vernam.encrypt (ptr b (ok + d)) (ptr b ok) len m = .ok true m' ∧ OnlyChanged m m' b (ok + d) s.length ∧
      slice (m'.bytes b) (ok + d) s.length = vernam s (slice (m'.bytes b) ok s.length) ∧
      ∀ i < s.length, Letter ((m'.bytes b).getD (ok + d + i) 0) := by
  obtain ⟨M, h1, h2, h3⟩ := C117_vernam_encrypt h.any
  have hlt := h.any.msg.lt
  have hlM := IMU.Json.oc_length h2 b
  have hlet : ∀ i < s.length, Letter ((M.bytes b).getD (ok + d + i) 0) ∧ Letter ((M.bytes b).getD (ok + i) 0) := by
    intro i
    induction i using Nat.strongRecOn with
    | _ i ih =>
      intro hi
      have hk : Letter ((M.bytes b).getD (ok + i) 0) := by
        by_cases hid : i < d
        · rw [getD_congr (h2.2.2.2 _ (by omega))]; exact h.key i hid
        · have := (ih (i - d) (by have := h.pos; omega) (by omega)).1
          rwa [show ok + d + (i - d) = ok + i by omega] at this
      refine ⟨?_, hk⟩
      have := h3 i hi
      rw [front_mid h2 h.pos] at this
      rw [this hk, rot_letter]
      exact h.msg _ (by simp [hi])
  refine ⟨M, h1, h2, ?_, fun i hi => (hlet i hi).1⟩
  refine slice_eq_of (by omega) (by simp [vernam]) ?_
  intro i hi
  have := h3 i hi
  rw [front_mid h2 h.pos] at this
  rw [this (hlet i hi).2]
  unfold vernam
  have e : (slice (M.bytes b) ok s.length).getD i 0 = (M.bytes b).getD (ok + i) 0 := by
    rw [List.getD_eq_getElem?_getD, List.getD_eq_getElem?_getD, getElem?_slice, if_pos hi]
  rw [List.getD_eq_getElem?_getD (l := List.mapIdx _ _), List.getElem?_mapIdx, List.getD_eq_getElem?_getD (l := s),
    List.getElem?_eq_getElem hi]
  simp only [Option.map_some, Option.getD_some, e]

/-- C117: decryption with the key in the same place uses the letters it has just decrypted, not the cipher text. -/
theorem C117_vernam_front_decrypt {m : Mem} {b ok d : Nat} {s : List Byte} {len : U32} (cs : Bool)
    (h : FrontArgs m b ok d s len) :
    ∃ m', Vernam.decrypt cs (ptr b (ok + d)) (ptr b ok) len m = .ok true m' ∧ OnlyChanged m m' b (ok + d) s.length ∧
      ∀ i < s.length, (m'.bytes b).getD (ok + d + i) 0 =
        rot (26 - place ((m'.bytes b).getD (ok + i) 0)) (s.getD i 0) := by
  obtain ⟨M, h1, h2, h3⟩ := C117_vernam_decrypt cs h.any
  have hlt := h.any.msg.lt
  have hlet : ∀ i < s.length, Letter ((M.bytes b).getD (ok + d + i) 0) ∧ Letter ((M.bytes b).getD (ok + i) 0) := by
    intro i
    induction i using Nat.strongRecOn with
    | _ i ih =>
      intro hi
      have hk : Letter ((M.bytes b).getD (ok + i) 0) := by
        by_cases hid : i < d
        · rw [getD_congr (h2.2.2.2 _ (by omega))]; exact h.key i hid
        · have := (ih (i - d) (by have := h.pos; omega) (by omega)).1
          rwa [show ok + d + (i - d) = ok + i by omega] at this
      refine ⟨?_, hk⟩
      have := h3 i hi
      rw [front_mid h2 h.pos] at this
      rw [this hk, rot_letter]
      exact h.msg _ (by simp [hi])
  refine ⟨M, h1, h2, ?_⟩
  intro i hi
  have := h3 i hi
  rw [front_mid h2 h.pos] at this
  exact this (hlet i hi).2

/-- C117: so encrypting and decrypting in that position restores the message exactly if the encryption had left all but
its last `d` characters as they were. -/
theorem C117_vernam_front_round_trip {m : Mem} {b ok d : Nat} {s : List Byte} {len : U32} (cs : Bool)
    (h : FrontArgs m b ok d s len) :
    ∃ m1 m2, Vernam.encrypt (ptr b (ok + d)) (ptr b ok) len m = .ok true m1 ∧
      Vernam.decrypt cs (ptr b (ok + d)) (ptr b ok) len m1 = .ok true m2 ∧
      (slice (m2.bytes b) (ok + d) s.length = s ↔
        ∀ i, i + d < s.length → (m1.bytes b).getD (ok + d + i) 0 = s.getD i 0) := by
  obtain ⟨m1, a1, a2, a3, a4⟩ := C117_vernam_front_encrypt h
  have hlt := h.any.msg.lt
  have hd := h.pos
  have hl1 := IMU.Json.oc_length a2 b
  have oeq : ∀ i < s.length, (m1.bytes b).getD (ok + d + i) 0 = rot (place ((m1.bytes b).getD (ok + i) 0)) (s.getD i 0) := by
    intro i hi
    have := congrArg (fun l => l.getD i 0) a3
    simp only [vernam] at this
    rw [List.getD_eq_getElem?_getD, getElem?_slice, if_pos hi, List.getD_eq_getElem?_getD, List.getElem?_mapIdx,
      List.getElem?_eq_getElem hi, Option.map_some, Option.getD_some,
      List.getD_eq_getElem?_getD (l := slice _ _ _), getElem?_slice, if_pos hi] at this
    rw [List.getD_eq_getElem?_getD, this, List.getD_eq_getElem?_getD (l := s), List.getElem?_eq_getElem hi,
      List.getD_eq_getElem?_getD (l := m1.bytes b)]
    rfl
  generalize hout : slice (m1.bytes b) (ok + d) s.length = out at *
  have hol : out.length = s.length := by rw [← hout, slice_length _ _ _ (by omega)]
  have hoi : ∀ i < s.length, out.getD i 0 = (m1.bytes b).getD (ok + d + i) 0 := by
    intro i hi
    rw [← hout, List.getD_eq_getElem?_getD, getElem?_slice, if_pos hi, List.getD_eq_getElem?_getD]
  have holet : ∀ c ∈ out, Letter c := by
    intro c hc
    obtain ⟨i, hi, e⟩ := List.mem_iff_getElem.mp hc
    have := a4 i (by omega)
    rw [← hoi i (by omega), List.getD_eq_getElem?_getD, List.getElem?_eq_getElem hi, e] at this
    exact this
  have hcs := Vernam.cstr_after h.any.msg a2 hout (fun hm => letter_ne_zero (holet _ hm) rfl)
  have h' : FrontArgs m1 b ok d out len :=
    ⟨⟨hcs, by rw [hl1, hol]; exact h.any.key, by rw [hol]; exact h.any.len, by rw [hol]; exact h.any.small⟩, hd,
      fun i hi => by rw [getD_congr (a2.2.2.2 _ (by omega))]; exact h.key i hi, holet⟩
  obtain ⟨m2, b1, b2, b3⟩ := C117_vernam_front_decrypt cs h'
  rw [hol] at b2 b3
  have hl2 := IMU.Json.oc_length b2 b
  refine ⟨m1, m2, a1, b1, ?_⟩
  have sl : ∀ i < s.length, Letter (s.getD i 0) := fun i hi => h.msg _ (by simp [hi])
  constructor
  · intro e i hi
    have r : ∀ j < s.length, (m2.bytes b).getD (ok + d + j) 0 = s.getD j 0 := by
      intro j hj
      rw [List.getD_eq_getElem?_getD (l := s), ← e, getElem?_slice, if_pos hj, List.getD_eq_getElem?_getD]
    have e1 := b3 (d + i) (by omega)
    rw [r (d + i) (by omega), show ok + (d + i) = ok + d + i by omega, r i (by omega), hoi _ (by omega),
      oeq (d + i) (by omega), show ok + (d + i) = ok + d + i by omega, rot_rot] at e1
    have e2 := (rot_fix (sl _ (by omega))).mp e1.symm
    have p1 := Vernam.place_lt (sl i (by omega))
    have p2 := Vernam.place_lt (a4 i (by omega))
    have e3 : place ((m1.bytes b).getD (ok + d + i) 0) = place (s.getD i 0) := by omega
    rw [oeq i (by omega), place_rot _ (sl i (by omega))] at e3
    rw [oeq i (by omega)]
    exact (rot_fix (sl i (by omega))).mpr (by omega)
  · intro e
    refine slice_eq_of (by omega) rfl ?_
    intro i
    induction i using Nat.strongRecOn with
    | _ i ih =>
      intro hi
      have hk : (m2.bytes b).getD (ok + i) 0 = (m1.bytes b).getD (ok + i) 0 := by
        by_cases hid : i < d
        · exact getD_congr (b2.2.2.2 _ (by omega))
        · have i1 := ih (i - d) (by omega) (by omega)
          have i2 := e (i - d) (by omega)
          rw [show ok + d + (i - d) = ok + i by omega] at i1 i2
          rw [i1, i2]
      have hkl : Letter ((m1.bytes b).getD (ok + i) 0) := by
        by_cases hid : i < d
        · rw [getD_congr (a2.2.2.2 _ (by omega))]; exact h.key i hid
        · have := a4 (i - d) (by omega)
          rwa [show ok + d + (i - d) = ok + i by omega] at this
      have := Vernam.place_lt hkl
      rw [b3 i hi, hk, hoi i hi, oeq i hi, rot_rot]
      exact (rot_fix (sl i hi)).mpr (by omega)

/-- Key letter `B` in front of the message `BBBB`: cipher text `CDEF`, "decrypted" to `BCCD`. -/
example : FrontArgs (mem2 (ascii "BBBBB" ++ [0]) []) 0 0 1 (ascii "BBBB") 4 ∧
    (match Vernam.encrypt (ptr 0 1) (ptr 0 0) 4 (mem2 (ascii "BBBBB" ++ [0]) []) with
     | .ok _ m1 => slice (m1.bytes 0) 1 4 == ascii "CDEF" &&
        (match Vernam.decrypt true (ptr 0 1) (ptr 0 0) 4 m1 with
         | .ok _ m2 => slice (m2.bytes 0) 1 4 == ascii "BCCD"
         | _ => false)
     | _ => false) = true :=
  ⟨⟨⟨cstr_of_slice (by decide) (by decide +kernel), by decide, by decide, by decide⟩, by decide, by decide, by decide⟩, by decide +kernel⟩

end IMU.Props
