import Verif.Proofs.Base64Pieces
import Verif.Props.Base64
import Verif.Props.CipherMore

/-!
# Property C124: Base64 in pieces, and wrong characters in a Base64 text
-/

namespace IMU.Props
open Spec

/-- Data of `n1` and `n2` bytes, one behind the other, apart from the space for the two texts. -/
structure TwoPieces (m : Mem) (bi oi bp op : Nat) (n1 n2 : SizeT) : Prop where
  readable : oi + n1.toNat + n2.toNat ≤ (m.bytes bi).length
  apart : bi ≠ bp ∨ oi + n1.toNat + n2.toNat ≤ op ∨
    op + (b64 m bi oi n1.toNat).length + (b64 m bi (oi + n1.toNat) n2.toNat).length ≤ oi
  fits : (b64 m bi oi n1.toNat).length + (b64 m bi (oi + n1.toNat) n2.toNat).length < 2 ^ 64
  room : op + (b64 m bi oi n1.toNat).length + (b64 m bi (oi + n1.toNat) n2.toNat).length + 1 ≤ (m.bytes bp).length

/-- C124: two calls, the second with the rest of the data and the end of the first text, leave both texts one behind
the other.  This is the text of the whole data exactly if the data is cut at a multiple of three bytes (or nothing is
left for the second call). -/
theorem C124_encode_pieces {m : Mem} {bi oi bp op : Nat} {n1 n2 mx1 mx2 : SizeT} (h : TwoPieces m bi oi bp op n1 n2)
    (hm1 : (b64 m bi oi n1.toNat).length ≤ mx1.toNat)
    (hm2 : (b64 m bi (oi + n1.toNat) n2.toNat).length ≤ mx2.toNat) :
    ∃ m1 m2, IMU.Base64.encode (ptr bi oi) n1 (ptr bp op) mx1 m = .ok 0 m1 ∧
      IMU.Base64.encode (ptr bi (oi + n1.toNat)) n2 (ptr bp (op + (b64 m bi oi n1.toNat).length)) mx2 m1 = .ok 0 m2 ∧
      CStr (m2.bytes bp) op (b64 m bi oi n1.toNat ++ b64 m bi (oi + n1.toNat) n2.toNat) ∧
      OnlyChanged m m2 bp op ((b64 m bi oi n1.toNat).length + (b64 m bi (oi + n1.toNat) n2.toNat).length + 1) ∧
      (CStr (m2.bytes bp) op (b64 m bi oi (n1.toNat + n2.toNat)) ↔ n1.toNat % 3 = 0 ∨ n2.toNat = 0) := by
  obtain ⟨hr, ha, hf, hroom⟩ := h
  have L1 := b64_length (m := m) (bi := bi) (oi := oi) (n := n1.toNat) (by omega)
  have L2 := b64_length (m := m) (bi := bi) (oi := oi + n1.toNat) (n := n2.toNat) (by omega)
  obtain ⟨m1, a1, a2, a3⟩ := C58_encode (m := m) (bi := bi) (oi := oi) (bp := bp) (op := op) (n := n1) (mx := mx1)
    ⟨by omega, by omega, by omega⟩ hm1 (by omega)
  have hsl : slice (m1.bytes bi) (oi + n1.toNat) n2.toNat = slice (m.bytes bi) (oi + n1.toNat) n2.toNat := by
    by_cases h0 : n2.toNat = 0
    · rw [h0]; simp [slice]
    · exact Base64.oc_slice a3 (by omega)
  have hb : b64 m1 bi (oi + n1.toNat) n2.toNat = b64 m bi (oi + n1.toNat) n2.toNat := by
    unfold b64; rw [hsl]
  have hlen : ∀ x, (m1.bytes x).length = (m.bytes x).length := by
    intro x
    by_cases hx : x = bp
    · subst hx; exact a3.2.2.1
    · rw [a3.2.1 x hx]
  obtain ⟨m2, c1, c2, c3⟩ := C58_encode (m := m1) (bi := bi) (oi := oi + n1.toNat) (bp := bp)
    (op := op + (b64 m bi oi n1.toNat).length) (n := n2) (mx := mx2)
    ⟨by rw [hlen]; omega, by rw [hb]; omega, by rw [hb]; omega⟩ (by rw [hb]; exact hm2) (by rw [hb, hlen]; omega)
  rw [hb] at c2 c3
  have t1 : slice (m2.bytes bp) op (b64 m bi oi n1.toNat).length = b64 m bi oi n1.toNat := by
    rw [Base64.oc_slice c3 (by omega)]
    have := a2.slice_eq
    have e := congrArg (List.take (b64 m bi oi n1.toNat).length) this
    simpa [slice, List.take_take] using e
  have hC : CStr (m2.bytes bp) op (b64 m bi oi n1.toNat ++ b64 m bi (oi + n1.toNat) n2.toNat) := by
    apply cstr_of_slice
    · rw [List.mem_append, not_or]; exact ⟨a2.1, c2.1⟩
    · rw [List.length_append, Nat.add_assoc, slice_append_slice, t1, c2.slice_eq, List.append_assoc]
  refine ⟨m1, m2, a1, c1, hC, Base64.oc_union a3 c3 (by omega) (by omega), ?_⟩
  have key := Base64.encode_append_iff (slice (m.bytes bi) oi n1.toNat) (slice (m.bytes bi) (oi + n1.toNat) n2.toNat)
  rw [← slice_append_slice, slice_length _ _ _ (by omega)] at key
  have hnil : slice (m.bytes bi) (oi + n1.toNat) n2.toNat = [] ↔ n2.toNat = 0 := by
    rw [← List.length_eq_zero_iff, slice_length _ _ _ (by omega)]
  rw [hnil] at key
  rw [← key]
  constructor
  · intro hw
    exact CStr.unique hC hw
  · intro e
    change CStr _ _ (Spec.Base64.encode _)
    rw [← e]; exact hC

/-- A text in two pieces, the first of complete groups without padding. -/
structure TextPieces (m : Mem) (bi oi bo oo : Nat) (n1 n2 : SizeT) (s t : List Byte) : Prop where
  readable : oi + (s ++ t).length ≤ (m.bytes bi).length
  text : slice (m.bytes bi) oi (s ++ t).length = s ++ t
  apart : bi ≠ bo ∨ oi + (s ++ t).length ≤ oo ∨ oo ≤ oi
  len1 : n1.toNat = s.length
  len2 : n2.toNat = t.length
  small1 : n1.toNat + 3 < 2 ^ 64
  small2 : n2.toNat + 3 < 2 ^ 64
  groups : s.length % 4 = 0
  nonempty : s ≠ []
  full : s.getLast? ≠ some Spec.Base64.pad
  rest : t.length % 4 ≠ 1

/-- C124: decoding in two calls, the second for the rest of the text and behind the bytes of the first, gives the bytes
of the whole text - unless the rest is refused, which it is exactly if it is empty or one padded group or less. -/
theorem C124_decode_pieces {m : Mem} {bi oi bo oo : Nat} {n1 n2 mx1 mx2 : SizeT} {s t : List Byte}
    (h : TextPieces m bi oi bo oo n1 n2 s t)
    (hm1 : (Spec.Base64.decode s).length ≤ mx1.toNat) (hm2 : (Spec.Base64.decode t).length ≤ mx2.toNat)
    (hroom : oo + (Spec.Base64.decode (s ++ t)).length ≤ (m.bytes bo).length) :
    ∃ v m1 m2, IMU.Base64.decode (ptr bi oi) n1 (ptr bo oo) mx1 m = .ok 0 m1 ∧
      IMU.Base64.decode (ptr bi (oi + n1.toNat)) n2 (ptr bo (oo + 3 * (n1.toNat / 4))) mx2 m1 = .ok v m2 ∧
      (v = 0 ↔ LongEnough t) ∧
      (v = 0 → slice (m2.bytes bo) oo (Spec.Base64.decode (s ++ t)).length = Spec.Base64.decode (s ++ t)) ∧
      OnlyChanged m m2 bo oo (Spec.Base64.decode (s ++ t)).length := by
  obtain ⟨w1, w2, w3, l1, l2, s1, s2, hg, hs, hf, ht⟩ := h
  have hap := Base64.decode_append t s hg hf
  have hlong : LongEnough s := by
    have : s.length ≠ 0 := fun e => hs (List.length_eq_zero_iff.1 e)
    by_cases h4 : s.length = 4
    · exact .inr ⟨h4, hf⟩
    · exact .inl (by omega)
  have hds : (Spec.Base64.decode s).length = 3 * (s.length / 4) := Base64.decode_groups_length s hg hf
  rw [List.length_append] at w1 w3
  rw [List.length_append, slice_append_slice] at w2
  have hsl : (slice (m.bytes bi) oi s.length).length = s.length := slice_length _ _ _ (by omega)
  obtain ⟨e1, e2⟩ := List.append_inj w2 hsl
  rw [hap, List.length_append] at hroom
  obtain ⟨v1, m1, a1, a2, -, a4, a5⟩ := C62_decode (m := m) (bi := bi) (oi := oi) (bo := bo) (oo := oo) (n := n1)
    (mx := mx1) (s := s) ⟨by omega, e1, by omega, s1⟩ (by omega) l1 (by omega)
  have hv1 : v1 = 0 := a2.2 ⟨hlong, hm1⟩
  subst hv1
  rw [Nat.min_eq_left hm1] at a5
  have hlen : ∀ x, (m1.bytes x).length = (m.bytes x).length := by
    intro x
    by_cases hx : x = bo
    · subst hx; exact a5.2.2.1
    · rw [a5.2.1 x hx]
  obtain ⟨v, m2, b1, b2, b3, b4, b5⟩ := C62_decode (m := m1) (bi := bi) (oi := oi + s.length) (bo := bo)
    (oo := oo + 3 * (s.length / 4)) (n := n2) (mx := mx2) (s := t)
    ⟨by rw [hlen]; omega, by rw [Base64.oc_slice a5 (by omega)]; exact e2, by omega, s2⟩ ht l2
    (by rw [hlen]; omega)
  rw [Nat.min_eq_left hm2] at b5
  refine ⟨v, m1, m2, a1, by rw [l1]; exact b1, ?_, ?_, ?_⟩
  · rw [b2]; exact and_iff_left hm2
  · intro hv
    rw [hap, List.length_append, slice_append_slice, Base64.oc_slice b5 (by omega), a4 rfl, hds, b4 hv]
  · rw [hap, List.length_append]
    exact Base64.oc_union a5 b5 (by omega) (by omega)

/-- C124: two texts of the same length with `=` at the same places: byte `k` of the results is the same if the two
characters that carry its bits are the same. -/
theorem C124_local {m m' : Mem} {bi oi bo oo bi' oi' bo' oo' : Nat} {n mx n' mx' : SizeT} {s t : List Byte}
    (h : DecArgs m bi oi bo oo n s) (h' : DecArgs m' bi' oi' bo' oo' n' t)
    (h1 : s.length % 4 ≠ 1) (hn : n.toNat = s.length) (hn' : n'.toNat = t.length)
    (hlen : s.length = t.length) (hpad : ∀ j : Nat, s[j]? = some Spec.Base64.pad ↔ t[j]? = some Spec.Base64.pad)
    (hl : LongEnough s)
    (hmx : (Spec.Base64.decode s).length ≤ mx.toNat) (hmx' : (Spec.Base64.decode s).length ≤ mx'.toNat)
    (hroom : oo + (Spec.Base64.decode s).length ≤ (m.bytes bo).length)
    (hroom' : oo' + (Spec.Base64.decode s).length ≤ (m'.bytes bo').length) :
    ∃ r r' : Mem, IMU.Base64.decode (ptr bi oi) n (ptr bo oo) mx m = .ok 0 r ∧
      IMU.Base64.decode (ptr bi' oi') n' (ptr bo' oo') mx' m' = .ok 0 r' ∧
      OnlyChanged m r bo oo (Spec.Base64.decode s).length ∧ OnlyChanged m' r' bo' oo' (Spec.Base64.decode s).length ∧
      ∀ k, k < (Spec.Base64.decode s).length → s[4 * k / 3]? = t[4 * k / 3]? → s[4 * k / 3 + 1]? = t[4 * k / 3 + 1]? →
        (r.bytes bo)[oo + k]? = (r'.bytes bo')[oo' + k]? := by
  have hd := Base64.decode_length_congr s t hlen hpad
  have hl' : LongEnough t := by
    rcases hl with e | ⟨e, e'⟩
    · exact .inl (by omega)
    · refine .inr ⟨by omega, ?_⟩
      rw [List.getLast?_eq_getElem?] at e' ⊢
      rw [← hlen]
      exact fun x => e' ((hpad _).2 x)
  obtain ⟨v, r, a1, a2, -, a4, a5⟩ := C62_decode (mx := mx) h h1 hn (by omega)
  obtain ⟨v', r', b1, b2, -, b4, b5⟩ := C62_decode (mx := mx') h' (by omega) hn' (by omega)
  have hv : v = 0 := a2.2 ⟨hl, hmx⟩
  have hv' : v' = 0 := b2.2 ⟨hl', by omega⟩
  subst hv; subst hv'
  rw [Nat.min_eq_left hmx] at a5
  rw [← hd, Nat.min_eq_left hmx'] at b5
  refine ⟨r, r', a1, b1, a5, b5, ?_⟩
  intro k hk e1 e2
  have key := Base64.decode_local s t hlen hpad k e1 e2
  rw [← a4 rfl, ← b4 rfl, getElem?_slice, getElem?_slice, if_pos hk, if_pos (by omega)] at key
  exact key

/-- C124: a single wrong character - neither it nor the right one is `=` - damages at most the bytes that have bits
of it: bytes `6j/8` and `(6j+5)/8`. -/
theorem C124_damage {m m' : Mem} {bi oi bo oo : Nat} {n mx : SizeT} {s : List Byte} {j : Nat} {c : Byte}
    (h : DecArgs m bi oi bo oo n s) (h' : DecArgs m' bi oi bo oo n (s.set j c))
    (h1 : s.length % 4 ≠ 1) (hn : n.toNat = s.length)
    (hs : s[j]? ≠ some Spec.Base64.pad) (hc : c ≠ Spec.Base64.pad) (hl : LongEnough s)
    (hmx : (Spec.Base64.decode s).length ≤ mx.toNat)
    (hroom : oo + (Spec.Base64.decode s).length ≤ (m.bytes bo).length)
    (hroom' : oo + (Spec.Base64.decode s).length ≤ (m'.bytes bo).length) :
    ∃ r r' : Mem, IMU.Base64.decode (ptr bi oi) n (ptr bo oo) mx m = .ok 0 r ∧
      IMU.Base64.decode (ptr bi oi) n (ptr bo oo) mx m' = .ok 0 r' ∧
      OnlyChanged m r bo oo (Spec.Base64.decode s).length ∧ OnlyChanged m' r' bo oo (Spec.Base64.decode s).length ∧
      ∀ k, k < (Spec.Base64.decode s).length → k ≠ 6 * j / 8 → k ≠ (6 * j + 5) / 8 →
        (r.bytes bo)[oo + k]? = (r'.bytes bo)[oo + k]? := by
  obtain ⟨r, r', a1, a2, a3, a4, a5⟩ := C124_local (mx := mx) (mx' := mx) h h' h1 hn (by simpa using hn) (by simp) (by
    intro i
    rw [List.getElem?_set]
    by_cases hi : j = i
    · subst hi
      rw [if_pos rfl]
      split
      · simp [hs, hc]
      · simp [hs]
    · rw [if_neg hi]) hl hmx hmx hroom hroom'
  refine ⟨r, r', a1, a2, a3, a4, ?_⟩
  intro k hk n1 n2
  apply a5 k hk
  · rw [List.getElem?_set_ne (by omega)]
  · rw [List.getElem?_set_ne (by omega)]

/-- C124: the same for the text: a changed byte of the data changes at most the characters that have bits of it. -/
theorem C124_encode_local {m m' : Mem} {bi oi bp op bi' oi' bp' op' : Nat} {n mx mx' : SizeT}
    (h : EncArgs m bi oi bp op n) (h' : EncArgs m' bi' oi' bp' op' n)
    (hmx : (b64 m bi oi n.toNat).length ≤ mx.toNat) (hmx' : (b64 m bi oi n.toNat).length ≤ mx'.toNat)
    (hroom : op + (b64 m bi oi n.toNat).length + 1 ≤ (m.bytes bp).length)
    (hroom' : op' + (b64 m bi oi n.toNat).length + 1 ≤ (m'.bytes bp').length) :
    ∃ r r' : Mem, IMU.Base64.encode (ptr bi oi) n (ptr bp op) mx m = .ok 0 r ∧
      IMU.Base64.encode (ptr bi' oi') n (ptr bp' op') mx' m' = .ok 0 r' ∧
      ∀ j, j < 4 * ((n.toNat + 2) / 3) →
        (6 * j / 8 < n.toNat → (m.bytes bi)[oi + 6 * j / 8]? = (m'.bytes bi')[oi' + 6 * j / 8]?) →
        ((6 * j + 5) / 8 < n.toNat → (m.bytes bi)[oi + (6 * j + 5) / 8]? = (m'.bytes bi')[oi' + (6 * j + 5) / 8]?) →
        (r.bytes bp)[op + j]? = (r'.bytes bp')[op' + j]? := by
  have L := b64_length h.readable
  have L' := b64_length h'.readable
  obtain ⟨r, a1, a2, a3⟩ := C58_encode (mx := mx) h hmx hroom
  obtain ⟨r', b1, b2, b3⟩ := C58_encode (mx := mx') h' (by omega) (by omega)
  refine ⟨r, r', a1, b1, ?_⟩
  intro j hj e1 e2
  have key := Base64.encode_local (slice (m.bytes bi) oi n.toNat) (slice (m'.bytes bi') oi' n.toNat)
    (by rw [slice_length _ _ _ h.readable, slice_length _ _ _ h'.readable]) j
    (by
      rw [getElem?_slice, getElem?_slice]
      by_cases hk : 6 * j / 8 < n.toNat
      · rw [if_pos hk, if_pos hk]; exact e1 hk
      · rw [if_neg hk, if_neg hk])
    (by
      rw [getElem?_slice, getElem?_slice]
      by_cases hk : (6 * j + 5) / 8 < n.toNat
      · rw [if_pos hk, if_pos hk]; exact e2 hk
      · rw [if_neg hk, if_neg hk])
  have t1 := congrArg (·[j]?) a2.slice_eq
  have t2 := congrArg (·[j]?) b2.slice_eq
  simp only [getElem?_slice] at t1 t2
  rw [if_pos (by omega), List.getElem?_append_left (by omega)] at t1 t2
  rw [t1, t2]; exact key

/-- C124: a ciphertext that travels as Base64 text: one wrong character damages at most the two bytes of the decrypted
message that have its bits. -/
theorem C124_decrypt {m m' : Mem} {bi oi bo oo ks bk ok bn on br ro : Nat} {n mx : SizeT} {s : List Byte} {j : Nat} {c : Byte}
    (L inc : U32) (h : DecArgs m bi oi bo oo n s) (h' : DecArgs m' bi oi bo oo n (s.set j c))
    (h1 : s.length % 4 ≠ 1) (hn : n.toNat = s.length)
    (hs : s[j]? ≠ some Spec.Base64.pad) (hc : c ≠ Spec.Base64.pad) (hl : LongEnough s)
    (hmx : (Spec.Base64.decode s).length ≤ mx.toNat)
    (hroom : oo + (Spec.Base64.decode s).length ≤ (m.bytes bo).length)
    (hroom' : oo + (Spec.Base64.decode s).length ≤ (m'.bytes bo).length)
    (hL : L.toNat = (Spec.Base64.decode s).length) (hk : bk ≠ bo) (hnn : bn ≠ bo)
    (hC : ChaCha.Args m ks bo oo bk ok bn on br ro L.toNat) (hC' : ChaCha.Args m' ks bo oo bk ok bn on br ro L.toNat)
    (ek : slice (m'.bytes bk) ok 32 = slice (m.bytes bk) ok 32)
    (en : slice (m'.bytes bn) on 12 = slice (m.bytes bn) on 12) :
    ∃ r r' q q' : Mem, IMU.Base64.decode (ptr bi oi) n (ptr bo oo) mx m = .ok 0 r ∧
      IMU.Base64.decode (ptr bi oi) n (ptr bo oo) mx m' = .ok 0 r' ∧
      ChaCha.crypt ks (ptr bo oo) L (ptr bk ok) (ptr bn on) inc (ptr br ro) r = .ok () q ∧
      ChaCha.crypt ks (ptr bo oo) L (ptr bk ok) (ptr bn on) inc (ptr br ro) r' = .ok () q' ∧
      ∀ k, k < L.toNat → k ≠ 6 * j / 8 → k ≠ (6 * j + 5) / 8 →
        (q.bytes br).getD (ro + k) 0 = (q'.bytes br).getD (ro + k) 0 := by
  obtain ⟨r, r', a1, a2, a3, a4, a5⟩ := C124_damage h h' h1 hn hs hc hl hmx hroom hroom'
  have len : ∀ {x y : Mem}, OnlyChanged x y bo oo (Spec.Base64.decode s).length →
      ∀ b, (y.bytes b).length = (x.bytes b).length := by
    intro x y e b
    by_cases hb : b = bo
    · subst hb; exact e.2.2.1
    · rw [e.2.1 b hb]
  have args : ∀ {x y : Mem}, OnlyChanged x y bo oo (Spec.Base64.decode s).length →
      ChaCha.Args x ks bo oo bk ok bn on br ro L.toNat → ChaCha.Args y ks bo oo bk ok bn on br ro L.toNat := by
    intro x y e f
    exact ⟨by rw [len e]; exact f.msg, by rw [len e]; exact f.key, by rw [len e]; exact f.nonce,
      by rw [len e]; exact f.res, f.msg_dis, f.key_dis, f.nonce_dis, f.ks_p, f.ks_k, f.ks_n, f.ks_r⟩
  obtain ⟨q, b1, b2⟩ := C47_bytes L inc (args a3 hC)
  obtain ⟨q', c1, c2⟩ := C47_bytes L inc (args a4 hC')
  refine ⟨r, r', q, q', a1, a2, b1, c1, ?_⟩
  intro k hkL n1 n2
  have := a5 k (by omega) n1 n2
  rw [b2 k hkL, c2 k hkL, List.getD_eq_getElem?_getD (l := r.bytes bo), List.getD_eq_getElem?_getD (l := r'.bytes bo), this,
    a3.2.1 bk hk, a4.2.1 bk hk, a3.2.1 bn hnn, a4.2.1 bn hnn, ek, en]

/-- Non-vacuity of `C124_encode_pieces`: six bytes in two pieces, and a cut after four. -/
example : TwoPieces (mem2 (ascii "foobar") (List.replicate 20 0)) 0 0 1 0 3 3 ∧
    TwoPieces (mem2 (ascii "foobar") (List.replicate 20 0)) 0 0 1 0 4 2 := by
  refine ⟨⟨?_, ?_, ?_, ?_⟩, ⟨?_, ?_, ?_, ?_⟩⟩ <;> decide +kernel

example : Spec.Base64.encode (ascii "foo") ++ Spec.Base64.encode (ascii "bar") = Spec.Base64.encode (ascii "foobar") ∧
    Spec.Base64.encode (ascii "foob") ++ Spec.Base64.encode (ascii "ar") = ascii "Zm9vYg==YXI=" := by decide +kernel

/-- Non-vacuity of `C124_decode_pieces`; the rest is accepted in the first case and refused in the second, where the text
in one piece is not. -/
example : TextPieces (mem1 (ascii "Zm9vYmFyIQ==")) 0 0 0 0 4 8 (ascii "Zm9v") (ascii "YmFyIQ==") ∧
    LongEnough (ascii "YmFyIQ==") ∧
    TextPieces (mem1 (ascii "Zm9vYmFyIQ==")) 0 0 0 0 8 4 (ascii "Zm9vYmFy") (ascii "IQ==") ∧
    ¬ LongEnough (ascii "IQ==") ∧ LongEnough (ascii "Zm9vYmFyIQ==") := by
  refine ⟨⟨?_, ?_, ?_, ?_, ?_, ?_, ?_, ?_, ?_, ?_, ?_⟩, ?_, ⟨?_, ?_, ?_, ?_, ?_, ?_, ?_, ?_, ?_, ?_, ?_⟩, ?_, ?_⟩ <;>
    decide +kernel

/-- Non-vacuity of `C124_damage`: a wrong character at place 5 of "foobar!" damages the bytes 3 and 4 at most. -/
example : DecArgs (mem1 (ascii "Zm9vYmFyIQ==")) 0 0 0 0 12 (ascii "Zm9vYmFyIQ==") ∧
    DecArgs (mem1 (ascii "Zm9vYXFyIQ==")) 0 0 0 0 12 ((ascii "Zm9vYmFyIQ==").set 5 88#8) ∧
    (ascii "Zm9vYmFyIQ==")[5]? ≠ some Spec.Base64.pad ∧ (88#8 : Byte) ≠ Spec.Base64.pad ∧ 6 * 5 / 8 = 3 ∧ (6 * 5 + 5) / 8 = 4 ∧
    Spec.Base64.decode (ascii "Zm9vYXFyIQ==") = ascii "fooaqr!" := by
  refine ⟨⟨?_, ?_, ?_, ?_⟩, ⟨?_, ?_, ?_, ?_⟩, ?_, ?_, ?_, ?_, ?_⟩ <;> decide +kernel

end IMU.Props
