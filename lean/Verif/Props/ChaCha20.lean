import Verif.Proofs.ChaCha20
import Verif.Props.Utils

/-!
# Properties C47 - C52: Src/crypto/chacha20.c

`ks` is the object of the local array `key_stream`; `ChaCha.Args` says where the arguments are.
-/

namespace IMU.Props
open Spec Utils IMU.ChaCha

/-- C47: the result is the RFC 8439 encryption of the message; nothing else changes. -/
theorem C47_rfc8439 {m : Mem} {ks bp po bk ok bn on br ro : Nat} (L inc : U32)
    (h : Args m ks bp po bk ok bn on br ro L.toNat) :
    ∃ m', crypt ks (ptr bp po) L (ptr bk ok) (ptr bn on) inc (ptr br ro) m = .ok () m' ∧
      slice (m'.bytes br) ro L.toNat =
        chacha20 (slice (m.bytes bk) ok 32) inc (slice (m.bytes bn) on 12) (slice (m.bytes bp) po L.toNat) ∧
      OnlyChanged m m' br ro L.toNat := by
  have hr := h.res
  have hol := out_length m bp po bk ok bn on inc L.toNat
  refine ⟨_, crypt_ok h inc L rfl, ?_, ?_⟩
  · have := slice_splice_same (m.bytes br) ro (out m bp po bk ok bn on inc L.toNat) (by omega)
    rw [hol] at this
    unfold memAt
    rw [Mem.upd_bytes, if_pos rfl, this, out_eq_spec _ _ _ _ _ _ _ _ _ h.msg]
  · have := onlyChanged_splice m br ro (out m bp po bk ok bn on inc L.toNat) (by omega)
    rw [hol] at this
    exact this

/-- C47, byte by byte. -/
theorem C47_bytes {m : Mem} {ks bp po bk ok bn on br ro : Nat} (L inc : U32)
    (h : Args m ks bp po bk ok bn on br ro L.toNat) :
    ∃ m', crypt ks (ptr bp po) L (ptr bk ok) (ptr bn on) inc (ptr br ro) m = .ok () m' ∧
      ∀ i, i < L.toNat → (m'.bytes br).getD (ro + i) 0 = (m.bytes bp).getD (po + i) 0 ^^^
        (rfcBlock (slice (m.bytes bk) ok 32) (inc + BitVec.ofNat 32 (i / 64)) (slice (m.bytes bn) on 12)).getD
          (i % 64) 0 := by
  obtain ⟨m', h1, h2, h3⟩ := C47_rfc8439 L inc h
  refine ⟨m', h1, ?_⟩
  intro i hi
  have hm := h.msg
  have := congrArg (fun l => l[i]?) h2
  simp only [chacha20, getElem?_slice, if_pos hi, List.getElem?_mapIdx] at this
  rw [List.getD_eq_getElem?_getD, this, List.getElem?_eq_getElem (by omega)]
  simp [keyStream, show po + i < (m.bytes bp).length by omega]

/-- The block function of RFC 8439 on the test vector of its section 2.3.2. -/
example : (rfcBlock ((List.range 32).map (BitVec.ofNat 8)) 1 [0, 0, 0, 9, 0, 0, 0, 0x4a, 0, 0, 0, 0]).map BitVec.toNat =
    [0x10, 0xf1, 0xe7, 0xe4, 0xd1, 0x3b, 0x59, 0x15, 0x50, 0x0f, 0xdd, 0x1f, 0xa3, 0x20, 0x71, 0xc4,
     0xc7, 0xd1, 0xf4, 0xc7, 0x33, 0xc0, 0x68, 0x03, 0x04, 0x22, 0xaa, 0x9a, 0xc3, 0xd4, 0x6c, 0x4e,
     0xd2, 0x82, 0x64, 0x46, 0x07, 0x9f, 0xaa, 0x09, 0x14, 0xc2, 0xd7, 0x05, 0xd9, 0x8b, 0x02, 0xa2,
     0xb5, 0x12, 0x9c, 0xd1, 0xde, 0x16, 0x4e, 0xb9, 0xcb, 0xd0, 0x83, 0xe8, 0xa2, 0x50, 0x3c, 0x4e] := by
  decide +kernel

/-- Example memory: message and result in object 0, key and nonce in object 1. -/
def memC : Mem := mem2 (List.replicate 200 65) (List.range 44 |>.map (BitVec.ofNat 8))

/-- Non-vacuity: in place, separate, and shifted towards the start. -/
example : Args memC 2 0 0 1 0 1 32 0 0 100 ∧ Args memC 2 0 0 1 0 1 32 0 100 100 ∧ Args memC 2 0 3 1 0 1 32 0 0 100 := by
  refine ⟨?_, ?_, ?_⟩ <;> constructor <;> decide +kernel

theorem chacha20_involutive (key : List Byte) (c : U32) (nonce : List Byte) (msg : List Byte) :
    chacha20 key c nonce (chacha20 key c nonce msg) = msg := by
  unfold chacha20
  rw [List.mapIdx_mapIdx]
  apply List.ext_getElem?
  intro k
  rw [List.getElem?_mapIdx]
  cases msg[k]? with
  | none => rfl
  | some v => simp [BitVec.xor_assoc]

theorem chacha20_append (key : List Byte) (c : U32) (nonce : List Byte) (a b : List Byte) (k : Nat)
    (ha : a.length = 64 * k) :
    chacha20 key c nonce (a ++ b) = chacha20 key c nonce a ++ chacha20 key (c + BitVec.ofNat 32 k) nonce b := by
  unfold chacha20
  rw [List.mapIdx_append]
  refine congrArg (List.mapIdx (fun i b => b ^^^ keyStream key c nonce i) a ++ ·) ?_
  apply List.ext_getElem?
  intro i
  rw [List.getElem?_mapIdx, List.getElem?_mapIdx]
  have e : keyStream key c nonce (i + a.length) = keyStream key (c + BitVec.ofNat 32 k) nonce i := by
    unfold keyStream
    rw [ha, show (i + 64 * k) / 64 = i / 64 + k by omega, show (i + 64 * k) % 64 = i % 64 by omega,
      BitVec.add_assoc, ← BitVec.ofNat_add, Nat.add_comm k]
  rw [e]

/-- C48: encrypting to `br` and decrypting from there to `bq` restores the message, whatever the places. -/
theorem C48_involution {m : Mem} {ks bp po bk ok bn on br ro bq qo : Nat} (L inc : U32)
    (h : Args m ks bp po bk ok bn on br ro L.toNat) (h' : Args m ks br ro bk ok bn on bq qo L.toNat) :
    ∃ m1 m2, crypt ks (ptr bp po) L (ptr bk ok) (ptr bn on) inc (ptr br ro) m = .ok () m1 ∧
      crypt ks (ptr br ro) L (ptr bk ok) (ptr bn on) inc (ptr bq qo) m1 = .ok () m2 ∧
      slice (m2.bytes bq) qo L.toNat = slice (m.bytes bp) po L.toNat := by
  obtain ⟨m1, a1, a2, a3⟩ := C47_rfc8439 L inc h
  have hlen : ∀ b, (m1.bytes b).length = (m.bytes b).length := by
    intro b
    by_cases hb : b = br
    · subst hb; exact a3.2.2.1
    · rw [a3.2.1 b hb]
  have hsl : ∀ b o n, (b ≠ br ∨ o + n ≤ ro ∨ ro + L.toNat ≤ o) → slice (m1.bytes b) o n = slice (m.bytes b) o n := by
    intro b o n hd
    by_cases hb : b = br
    · subst hb
      apply List.ext_getElem?
      intro k
      rw [getElem?_slice, getElem?_slice]
      split
      · exact a3.2.2.2 _ (by omega)
      · rfl
    · rw [a3.2.1 b hb]
  have h2 : Args m1 ks br ro bk ok bn on bq qo L.toNat :=
    ⟨by rw [hlen]; exact h'.msg, by rw [hlen]; exact h'.key, by rw [hlen]; exact h'.nonce, by rw [hlen]; exact h'.res,
      h'.msg_dis, h'.key_dis, h'.nonce_dis, h'.ks_p, h'.ks_k, h'.ks_n, h'.ks_r⟩
  obtain ⟨m2, b1, b2, -⟩ := C47_rfc8439 L inc h2
  refine ⟨m1, m2, a1, b1, ?_⟩
  rw [b2, a2, hsl _ _ _ h.key_dis, hsl _ _ _ h.nonce_dis, chacha20_involutive]

example : Args memC 2 0 0 1 0 1 32 0 100 100 ∧ Args memC 2 0 100 1 0 1 32 0 0 100 := by
  refine ⟨?_, ?_⟩ <;> constructor <;> decide +kernel

/-- C49: in place gives the bytes that a call with a separate result gives. -/
theorem C49_in_place {m : Mem} {ks bp po bk ok bn on br ro : Nat} (L inc : U32)
    (h : Args m ks bp po bk ok bn on br ro L.toNat) (h' : Args m ks bp po bk ok bn on bp po L.toNat) :
    ∃ m1 m2, crypt ks (ptr bp po) L (ptr bk ok) (ptr bn on) inc (ptr br ro) m = .ok () m1 ∧
      crypt ks (ptr bp po) L (ptr bk ok) (ptr bn on) inc (ptr bp po) m = .ok () m2 ∧
      slice (m2.bytes bp) po L.toNat = slice (m1.bytes br) ro L.toNat ∧ OnlyChanged m m2 bp po L.toNat := by
  obtain ⟨m1, a1, a2, -⟩ := C47_rfc8439 L inc h
  obtain ⟨m2, b1, b2, b3⟩ := C47_rfc8439 L inc h'
  exact ⟨m1, m2, a1, b1, by rw [a2, b2], b3⟩

theorem slice_append_slice {α} (l : List α) (o n k : Nat) :
    slice l o (n + k) = slice l o n ++ slice l (o + n) k := by
  unfold slice
  rw [List.take_add, List.drop_drop]

/-- C50: cutting a message after `k` blocks. -/
theorem C50_seekable {m : Mem} {ks bp po bk ok bn on br ro : Nat} (L L1 L2 inc : U32) (k : Nat)
    (h : Args m ks bp po bk ok bn on br ro L.toNat) (h1 : L1.toNat = 64 * k) (h2 : L.toNat = L1.toNat + L2.toNat) :
    (do crypt ks (ptr bp po) L1 (ptr bk ok) (ptr bn on) inc (ptr br ro)
        crypt ks (ptr bp (po + 64 * k)) L2 (ptr bk ok) (ptr bn on) (inc + BitVec.ofNat 32 k) (ptr br (ro + 64 * k))
        : C Unit) m =
      crypt ks (ptr bp po) L (ptr bk ok) (ptr bn on) inc (ptr br ro) m := by
  have e1 := h.msg; have e2 := h.res; have e3 := h.msg_dis; have e4 := h.key_dis; have e5 := h.nonce_dis
  obtain ⟨m', a1, a2, a3⟩ := C47_rfc8439 L inc h
  have hA : Args m ks bp po bk ok bn on br ro L1.toNat :=
    ⟨by omega, h.key, h.nonce, by omega, by omega, by omega, by omega, h.ks_p, h.ks_k, h.ks_n, h.ks_r⟩
  obtain ⟨m1, b1, b2, b3⟩ := C47_rfc8439 L1 inc hA
  have hlen : ∀ b, (m1.bytes b).length = (m.bytes b).length := by
    intro b
    by_cases hb : b = br
    · subst hb; exact b3.2.2.1
    · rw [b3.2.1 b hb]
  have hsl : ∀ b o n, (b ≠ br ∨ o + n ≤ ro ∨ ro + L1.toNat ≤ o) → slice (m1.bytes b) o n = slice (m.bytes b) o n := by
    intro b o n hd
    by_cases hb : b = br
    · subst hb
      apply List.ext_getElem?
      intro k
      rw [getElem?_slice, getElem?_slice]
      split
      · exact b3.2.2.2 _ (by omega)
      · rfl
    · rw [b3.2.1 b hb]
  have hB : Args m1 ks bp (po + 64 * k) bk ok bn on br (ro + 64 * k) L2.toNat :=
    ⟨by rw [hlen]; omega, by rw [hlen]; exact h.key, by rw [hlen]; exact h.nonce, by rw [hlen]; omega,
      by omega, by omega, by omega, h.ks_p, h.ks_k, h.ks_n, h.ks_r⟩
  obtain ⟨m2, c1, c2, c3⟩ := C47_rfc8439 L2 (inc + BitVec.ofNat 32 k) hB
  rw [C.bind_ok b1, c1, a1]
  congr 1
  rw [hsl bk ok 32 (by omega), hsl bn on 12 (by omega), hsl bp (po + 64 * k) L2.toNat (by omega)] at c2
  have hl1 : (slice (m.bytes bp) po (64 * k)).length = 64 * k := slice_length _ _ _ (by omega)
  apply Mem.ext'
  · intro b
    by_cases hb : b = br
    · subst hb
      apply List.ext_getElem?
      intro i
      by_cases hi : i < ro ∨ ro + L.toNat ≤ i
      · rw [c3.2.2.2 i (by omega), b3.2.2.2 i (by omega), a3.2.2.2 i hi]
      · have g : (slice (m'.bytes b) ro L.toNat)[i - ro]? = (m'.bytes b)[i]? := by
          rw [getElem?_slice, if_pos (by omega), show ro + (i - ro) = i by omega]
        rw [← g, a2, h2, h1, slice_append_slice, chacha20_append _ _ _ _ _ k hl1]
        have hcl : (chacha20 (slice (m.bytes bk) ok 32) inc (slice (m.bytes bn) on 12)
            (slice (m.bytes bp) po (64 * k))).length = 64 * k := by
          unfold chacha20; rw [List.length_mapIdx, hl1]
        by_cases hi2 : i < ro + 64 * k
        · rw [List.getElem?_append_left (by omega), ← h1, ← b2, getElem?_slice, if_pos (by omega),
            show ro + (i - ro) = i by omega, c3.2.2.2 i (by omega)]
        · rw [List.getElem?_append_right (by omega), hcl, ← c2, getElem?_slice, if_pos (by omega)]
          congr 1
          omega
    · rw [c3.2.1 b hb, b3.2.1 b hb, a3.2.1 b hb]
  · intro b
    rw [c3.1, b3.1, a3.1]

example : (130#32).toNat = (128#32).toNat + (2#32).toNat ∧ (128#32).toNat = 64 * 2 ∧
    Args memC 2 0 0 1 0 1 32 0 0 (130#32).toNat := by
  refine ⟨by decide, by decide, ?_⟩
  constructor <;> decide +kernel

/-- C51: within one call different blocks use different counters, and no counter is skipped: block `j` uses
`inc + j` modulo 2^32. -/
theorem C51_distinct (inc : U32) (j j' : Nat) (hj : 64 * j < 2 ^ 32) (hj' : 64 * j' < 2 ^ 32)
    (h : inc + BitVec.ofNat 32 j = inc + BitVec.ofNat 32 j') : j = j' := by
  have h2 : BitVec.ofNat 32 j = BitVec.ofNat 32 j' := (BitVec.add_right_inj _).mp h
  have h3 := congrArg BitVec.toNat h2
  simp only [BitVec.toNat_ofNat] at h3
  omega

/-- C51: the counter wraps: behind the block with counter 2^32 - 1 the key stream continues as if the rest was
encrypted with counter 0. -/
theorem C51_wraps {m : Mem} {ks bp po bk ok bn on br ro : Nat} (L L1 L2 inc : U32) (k : Nat)
    (h : Args m ks bp po bk ok bn on br ro L.toNat) (hk : inc.toNat + k = 2 ^ 32) (h1 : L1.toNat = 64 * k)
    (h2 : L.toNat = L1.toNat + L2.toNat) :
    crypt ks (ptr bp po) L (ptr bk ok) (ptr bn on) inc (ptr br ro) m =
    (do crypt ks (ptr bp po) L1 (ptr bk ok) (ptr bn on) inc (ptr br ro)
        crypt ks (ptr bp (po + 64 * k)) L2 (ptr bk ok) (ptr bn on) 0#32 (ptr br (ro + 64 * k)) : C Unit) m := by
  have e : inc + BitVec.ofNat 32 k = 0#32 := by
    apply BitVec.eq_of_toNat_eq
    rw [BitVec.toNat_add, BitVec.toNat_ofNat]
    simp
    omega
  rw [← C50_seekable L L1 L2 inc k h h1 h2, e]

/-- C51: key stream reuse: byte `i + 2^38` of an (ideal) longer stream would repeat byte `i`. -/
theorem C51_reuse (key nonce : List Byte) (inc : U32) (i : Nat) :
    keyStream key inc nonce (i + 64 * 2 ^ 32) = keyStream key inc nonce i := by
  have e : BitVec.ofNat 32 (i / 64 + 2 ^ 32) = BitVec.ofNat 32 (i / 64) := by
    apply BitVec.eq_of_toNat_eq
    simp only [BitVec.toNat_ofNat]
    omega
  unfold keyStream
  rw [show (i + 64 * 2 ^ 32) / 64 = i / 64 + 2 ^ 32 by omega, show (i + 64 * 2 ^ 32) % 64 = i % 64 by omega, e]

example : (0xFFFFFFFF#32).toNat + 1 = 2 ^ 32 ∧ (64#32).toNat = 64 * 1 := by decide

/-- C52: a call with a non-empty message is undefined unless all bytes of the message, 32 key bytes, 12 nonce
bytes and all result bytes exist ... -/
theorem C52_needs {m m' : Mem} {ks bp po bk ok bn on br ro : Nat} (L inc : U32)
    (hk : bk ≠ ks) (hn : bn ≠ ks) (hp : bp ≠ ks) (hr : br ≠ ks) (hL : 0 < L.toNat)
    (h : crypt ks (ptr bp po) L (ptr bk ok) (ptr bn on) inc (ptr br ro) m = .ok () m') :
    ok + 32 ≤ (m.bytes bk).length ∧ on + 12 ≤ (m.bytes bn).length ∧
      po + L.toNat ≤ (m.bytes bp).length ∧ ro + L.toNat ≤ (m.bytes br).length :=
  crypt_inv hk hn hp hr hL h

/-- C52: ... and on any two memories that agree on these inputs it writes the same bytes, and only the
result bytes. -/
theorem C52_reads_only {m n : Mem} {ks bp po bk ok bn on br ro : Nat} (L inc : U32)
    (h : Args m ks bp po bk ok bn on br ro L.toNat) (h' : Args n ks bp po bk ok bn on br ro L.toNat)
    (e1 : slice (m.bytes bp) po L.toNat = slice (n.bytes bp) po L.toNat)
    (e2 : slice (m.bytes bk) ok 32 = slice (n.bytes bk) ok 32)
    (e3 : slice (m.bytes bn) on 12 = slice (n.bytes bn) on 12) :
    ∃ m' n', crypt ks (ptr bp po) L (ptr bk ok) (ptr bn on) inc (ptr br ro) m = .ok () m' ∧
      crypt ks (ptr bp po) L (ptr bk ok) (ptr bn on) inc (ptr br ro) n = .ok () n' ∧
      slice (m'.bytes br) ro L.toNat = slice (n'.bytes br) ro L.toNat ∧
      OnlyChanged m m' br ro L.toNat ∧ OnlyChanged n n' br ro L.toNat := by
  obtain ⟨m', a1, a2, a3⟩ := C47_rfc8439 L inc h
  obtain ⟨n', b1, b2, b3⟩ := C47_rfc8439 L inc h'
  exact ⟨m', n', a1, b1, by rw [a2, b2, e1, e2, e3], a3, b3⟩

/-- C52: an empty message needs and changes nothing. -/
theorem C52_empty (m : Mem) (ks : Nat) (p k n r : Ptr) (inc : U32) : crypt ks p 0#32 k n inc r m = .ok () m := rfl

end IMU.Props
