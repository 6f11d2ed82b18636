import Verif.Spec.Pipeline
import Verif.Props.ChaCha20
import Verif.Props.Json

/-!
# Property C85: ChaCha20, Base64 and JSON together
-/

namespace IMU.Props
open Spec Spec.Json Spec.Pipeline

/-- Closes an inequality of two objects that is at hand. -/
macro "ne" : tactic => `(tactic| first | assumption | (apply Ne.symm; assumption))

/-- The sender's buffers: different objects, large enough. -/
structure Sender (m : Mem) (ks bp po bk ok bn on bc co bt ot bj oj bq oq len : Nat) (mx size : SizeT) (name : List Byte) : Prop where
  apart : [ks, bp, bk, bn, bc, bt, bj, bq].Nodup
  msg : po + len ≤ (m.bytes bp).length
  key : ok + 32 ≤ (m.bytes bk).length
  nonce : on + 12 ≤ (m.bytes bn).length
  cipher : co + len ≤ (m.bytes bc).length
  text : ot + 4 * ((len + 2) / 3) + 1 ≤ (m.bytes bt).length
  limit : 4 * ((len + 2) / 3) ≤ mx.toNat
  json : oj + size.toNat ≤ (m.bytes bj).length
  fits : name.length + 4 * ((len + 2) / 3) + 8 ≤ size.toNat
  small : size.toNat < 2 ^ 63
  name : CStr (m.bytes bq) oq name

/-- The receiver's buffers: different objects, large enough; `t` is the text received. -/
structure Receiver (n : Mem) (ks bj oj bq oq bv ov bc co bk ok bn on bo oo len : Nat) (size mv : SizeT) (name t : List Byte) : Prop where
  apart : [ks, bj, bq, bv, bc, bk, bn, bo].Nodup
  json : oj + size.toNat ≤ (n.bytes bj).length
  received : CStr (n.bytes bj) oj t
  fits : t.length < size.toNat
  small : size.toNat < 2 ^ 32 - 1
  name : CStr (n.bytes bq) oq name
  value : ov + mv.toNat ≤ (n.bytes bv).length
  limit : 4 * ((len + 2) / 3) < mv.toNat
  cipher : co + len ≤ (n.bytes bc).length
  key : ok + 32 ≤ (n.bytes bk).length
  nonce : on + 12 ≤ (n.bytes bn).length
  out : oo + len ≤ (n.bytes bo).length

theorem slice_eq_of_bytes {m m' : Mem} {b : Nat} (h : m'.bytes b = m.bytes b) (o n : Nat) :
    slice (m'.bytes b) o n = slice (m.bytes b) o n := by rw [h]

theorem encode_clean (d : List Byte) : 34#8 ∉ Spec.Base64.encode d ∧ 0#8 ∉ Spec.Base64.encode d := by
  have hc : ∀ v, v < 64 → Spec.Base64.char v ≠ 34#8 ∧ Spec.Base64.char v ≠ 0#8 := by decide +kernel
  have h1 : ∀ v i, 34#8 ≠ Spec.Base64.char (Spec.Base64.sextet v i) ∧ 0#8 ≠ Spec.Base64.char (Spec.Base64.sextet v i) := fun v i =>
    ⟨Ne.symm (hc _ (Base64.sextet_lt v i)).1, Ne.symm (hc _ (Base64.sextet_lt v i)).2⟩
  induction d using Spec.Base64.encode.induct with
  | case1 => simp [Spec.Base64.encode]
  | case2 a => simp [Spec.Base64.encode, Spec.Base64.pad, h1]
  | case3 a b => simp [Spec.Base64.encode, Spec.Base64.pad, h1]
  | case4 a b c t ih => simp [Spec.Base64.encode, h1, ih]

theorem encode_longEnough (d : List Byte) : LongEnough (Spec.Base64.encode d) ↔ 3 ≤ d.length := by
  constructor
  · match d with
    | [] => simp [Spec.Base64.encode, LongEnough]
    | [a] => simp [Spec.Base64.encode, LongEnough]
    | [a, b] => simp [Spec.Base64.encode, LongEnough]
    | a :: b :: c :: t => simp
  intro h
  by_cases h5 : 5 ≤ (Spec.Base64.encode d).length
  · exact .inl h5
  · have hl := Base64.encode_length d
    have hn : d.length = 3 := by omega
    refine .inr ⟨by omega, ?_⟩
    match d, hn with
    | [a, b, c], _ =>
      simp only [Spec.Base64.encode, List.append_nil, List.getLast?_cons_cons, List.getLast?_singleton, ne_eq, Option.some.injEq]
      exact Base64.char_ne_pad (Base64.sextet_lt _ _)

/-- The text that is sent. -/
theorem send_ok {m : Mem} {ks bp po bk ok bn on bc co bt ot bj oj bq oq : Nat} {L inc : U32} {mx size : SizeT} {name : List Byte}
    (h : Sender m ks bp po bk ok bn on bc co bt ot bj oj bq oq L.toNat mx size name) :
    ∃ m', send ks (ptr bp po) L (ptr bk ok) (ptr bn on) inc (ptr bc co) (ptr bt ot) mx (ptr bj oj) size (ptr bq oq) m = .ok true m' ∧
      CStr (m'.bytes bj) oj (document [(name, Spec.Base64.encode (chacha20 (slice (m.bytes bk) ok 32) inc
        (slice (m.bytes bn) on 12) (slice (m.bytes bp) po L.toNat)))]) := by
  have hL := L.isLt
  have hd := h.apart
  simp only [List.nodup_cons, List.mem_cons, List.not_mem_nil, or_false, not_or, not_false_eq_true, and_true, List.nodup_nil] at hd
  obtain ⟨⟨_, _, _, _, _, _, _⟩, ⟨_, _, _, _, _, _⟩, ⟨_, _, _, _, _⟩, ⟨_, _, _, _⟩, ⟨_, _, _⟩, ⟨_, _⟩, _⟩ := hd
  obtain ⟨m1, a1, a2, a3⟩ := C47_rfc8439 (m := m) (ks := ks) (bp := bp) (po := po) (bk := bk) (ok := ok) (bn := bn) (on := on)
    (br := bc) (ro := co) L inc ⟨h.msg, h.key, h.nonce, h.cipher, Or.inl (by ne), Or.inl (by ne), Or.inl (by ne),
      by ne, by ne, by ne, by ne⟩
  generalize hD : chacha20 (slice (m.bytes bk) ok 32) inc (slice (m.bytes bn) on 12) (slice (m.bytes bp) po L.toNat) = D at *
  have hw : (L.setWidth 64).toNat = L.toNat := by rw [BitVec.toNat_setWidth]; omega
  have hlen1 : ∀ b, (m1.bytes b).length = (m.bytes b).length := IMU.Json.oc_length a3
  have hr : co + (L.setWidth 64).toNat ≤ (m1.bytes bc).length := by rw [hw, hlen1]; exact h.cipher
  have hb : b64 m1 bc co (L.setWidth 64).toNat = Spec.Base64.encode D := by unfold b64; rw [hw, a2]
  have hbl := b64_length hr
  rw [hb, hw] at hbl
  obtain ⟨m2, b1, b2, b3⟩ := C58_encode (m := m1) (bi := bc) (oi := co) (bp := bt) (op := ot) (n := L.setWidth 64) (mx := mx)
    ⟨hr, Or.inl (by ne), by rw [hb, hbl]; omega⟩ (by rw [hb, hbl]; exact h.limit) (by rw [hb, hbl, hlen1]; exact h.text)
  rw [hb] at b2 b3
  have hlen2 : ∀ b, (m2.bytes b).length = (m.bytes b).length := fun b => by rw [IMU.Json.oc_length b3, hlen1]
  have hname : CStr (m2.bytes bq) oq name := by
    rw [b3.2.1 bq (by ne), a3.2.1 bq (by ne)]; exact h.name
  have hdl : (document [(name, Spec.Base64.encode D)]).length = name.length + 4 * ((L.toNat + 2) / 3) + 7 := by
    simp [document, members, member, str, hbl]; omega
  have hf := h.fits
  have hs := h.small
  obtain ⟨m3, c1, c2, c3⟩ := C64_build bj oj size [(name, Spec.Base64.encode D)] [(ptr bq oq, ptr bt ot)] m2
    (by rw [hlen2]; exact h.json)
    ⟨⟨bq, oq, bt, ot, rfl, hname, b2, Or.inl (by ne), Or.inl (by ne)⟩, trivial⟩
    (by rw [hdl]; omega)
    (by
      intro x hx
      simp at hx; subst hx
      simp only [hbl]
      omega)
  refine ⟨m3, ?_, c2⟩
  unfold send
  rw [C.bind_ok a1, C.bind_ok b1, C.bind_ok c1]
  rfl

/-- What is received. -/
theorem receive_ok {n : Mem} {ks bj oj bq oq bv ov bc co bk ok bn on bo oo : Nat} {L inc : U32} {size mv : SizeT} {name D : List Byte}
    (hk : ∀ c ∈ structural, c ∉ name) (hne : name ≠ []) (hD : D.length = L.toNat)
    (h : Receiver n ks bj oj bq oq bv ov bc co bk ok bn on bo oo L.toNat size mv name (document [(name, Spec.Base64.encode D)])) :
    ∃ n', receive ks (ptr bj oj) size (ptr bq oq) (ptr bv ov) mv (ptr bc co) L (ptr bk ok) (ptr bn on) inc (ptr bo oo) n =
        .ok (decide (3 ≤ L.toNat)) n' ∧
      (3 ≤ L.toNat → slice (n'.bytes bo) oo L.toNat = chacha20 (slice (n.bytes bk) ok 32) inc (slice (n.bytes bn) on 12) D) := by
  have hL := L.isLt
  have hd := h.apart
  simp only [List.nodup_cons, List.mem_cons, List.not_mem_nil, or_false, not_or, not_false_eq_true, and_true, List.nodup_nil] at hd
  obtain ⟨⟨_, _, _, _, _, _, _⟩, ⟨_, _, _, _, _, _⟩, ⟨_, _, _, _, _⟩, ⟨_, _, _, _⟩, ⟨_, _, _⟩, ⟨_, _⟩, _⟩ := hd
  obtain ⟨hq, h0⟩ := encode_clean D
  have hel : (Spec.Base64.encode D).length = 4 * ((L.toNat + 2) / 3) := by rw [Base64.encode_length, hD]
  have hnl : name.length < 2 ^ 64 := by
    have h1 := h.fits
    have h2 := h.small
    simp [document, members, member, str] at h1
    omega
  obtain ⟨r, n1, a1, a2, a3⟩ := C68_findByKey bj oj bq oq bv ov size mv name n h.json h.name h.small hnl h.value (Or.inl (by ne))
  obtain ⟨r', n1', a1', a4⟩ := C71_footprint bj oj bq oq bv ov size mv name n h.json h.name h.small hnl h.value (Or.inl (by ne))
  rw [a1] at a1'
  injection a1' with _ e
  subst e
  have hT : ∃ tail, slice (n.bytes bj) oj size.toNat = document ([] ++ (name, Spec.Base64.encode D) :: []) ++ tail := by
    obtain ⟨t, ht⟩ := h.received.2
    have := h.fits
    refine ⟨(0#8 :: t).take (size.toNat - (document [(name, Spec.Base64.encode D)]).length), ?_⟩
    unfold slice
    rw [ht, List.take_append, List.take_of_length_le (by omega)]
    rfl
  obtain ⟨tail, hT⟩ := hT
  have hlk : lookup name (slice (n.bytes bj) oj size.toNat) = some (Spec.Base64.encode D) := by
    rw [hT]
    exact C69_lookup [] name _ [] tail hq (fun p s h => C69_proviso name hk hne [] (by simp) _ [] p s h)
  have hr : r = true := a2.mpr ⟨_, hlk, by rw [hel]; exact h.limit⟩
  subst hr
  have hv := cstr_of_slice h0 (a3 _ rfl hlk)
  have hlen1 : ∀ b, (n1.bytes b).length = (n.bytes b).length := IMU.Json.oc_length a4
  have hto : (BitVec.ofNat 64 (Spec.Base64.encode D).length).toNat = (Spec.Base64.encode D).length := by
    rw [BitVec.toNat_ofNat]; omega
  have hw : (L.setWidth 64).toNat = L.toNat := by rw [BitVec.toNat_setWidth]; omega
  have hlim := h.limit
  have hval := h.value
  have hci := h.cipher
  have htx : slice (n1.bytes bv) ov (Spec.Base64.encode D).length = Spec.Base64.encode D := by
    apply List.ext_getElem?
    intro i
    rw [getElem?_slice]
    split
    · rename_i hi; exact hv.get hi
    · rename_i hi; rw [List.getElem?_eq_none (by omega)]
  obtain ⟨v, n2, b1, b2, -, b4, b5⟩ := C62_decode (m := n1) (bi := bv) (oi := ov) (bo := bc) (oo := co)
    (n := BitVec.ofNat 64 (Spec.Base64.encode D).length) (mx := L.setWidth 64) (s := Spec.Base64.encode D)
    ⟨by rw [hlen1]; omega, htx, Or.inl (by ne), by rw [hto]; omega⟩ (by omega) hto
    (by rw [hlen1, Base64.decode_encode, hD, hw]; omega)
  have hv0 : v = 0 ↔ 3 ≤ L.toNat := by
    rw [b2, encode_longEnough, Base64.decode_encode, hD, hw]
    simp
  have hlen2 : ∀ b, (n2.bytes b).length = (n.bytes b).length := fun b => by rw [IMU.Json.oc_length b5, hlen1]
  obtain ⟨n3, c1, c2, -⟩ := C47_rfc8439 (m := n2) (ks := ks) (bp := bc) (po := co) (bk := bk) (ok := ok) (bn := bn) (on := on)
    (br := bo) (ro := oo) L inc ⟨by rw [hlen2]; exact h.cipher, by rw [hlen2]; exact h.key, by rw [hlen2]; exact h.nonce,
      by rw [hlen2]; exact h.out, Or.inl (by ne), Or.inl (by ne), Or.inl (by ne), by ne, by ne, by ne, by ne⟩
  refine ⟨n3, ?_, ?_⟩
  · unfold receive
    rw [C.bind_ok a1, C.bind_ok (strlen_ok hv), C.bind_ok b1, C.bind_ok c1]
    have : (v == 0) = decide (3 ≤ L.toNat) := by
      rw [Bool.eq_iff_iff]; simpa using hv0
    rw [this]
    rfl
  · intro h3
    have hc := b4 (hv0.mpr h3)
    rw [Base64.decode_encode, hD] at hc
    rw [c2, hc, b5.2.1 bk (by ne), a4.2.1 bk (by ne), b5.2.1 bn (by ne), a4.2.1 bn (by ne)]

/-- C85: a message that is encrypted, Base64-encoded and sent as a field of a JSON document arrives if it has at least
three bytes: in every memory that holds the text, the same key and the same nonce, finding, decoding and decrypting the
field restores the message.  Of a shorter message the receiver is told that decoding failed.  The name of the field is any
non-empty text without the characters `{ } " : ,`. -/
theorem C85_end_to_end {m : Mem} {ks bp po bk ok bn on bc co bt ot bj oj bq oq : Nat} {L inc : U32} {mx size : SizeT} {name : List Byte}
    (h : Sender m ks bp po bk ok bn on bc co bt ot bj oj bq oq L.toNat mx size name)
    (hk : ∀ c ∈ structural, c ∉ name) (hne : name ≠ []) :
    ∃ m' t, send ks (ptr bp po) L (ptr bk ok) (ptr bn on) inc (ptr bc co) (ptr bt ot) mx (ptr bj oj) size (ptr bq oq) m = .ok true m' ∧
      CStr (m'.bytes bj) oj t ∧ t.length = name.length + 4 * ((L.toNat + 2) / 3) + 7 ∧
      ∀ {n : Mem} {ks' bj' oj' bq' oq' bv ov bc' co' bk' ok' bn' on' bo oo : Nat} {size' mv : SizeT},
        Receiver n ks' bj' oj' bq' oq' bv ov bc' co' bk' ok' bn' on' bo oo L.toNat size' mv name t →
        slice (n.bytes bk') ok' 32 = slice (m.bytes bk) ok 32 → slice (n.bytes bn') on' 12 = slice (m.bytes bn) on 12 →
        ∃ n', receive ks' (ptr bj' oj') size' (ptr bq' oq') (ptr bv ov) mv (ptr bc' co') L (ptr bk' ok') (ptr bn' on') inc
            (ptr bo oo) n = .ok (decide (3 ≤ L.toNat)) n' ∧
          (3 ≤ L.toNat → slice (n'.bytes bo) oo L.toNat = slice (m.bytes bp) po L.toNat) := by
  obtain ⟨m', h1, h2⟩ := send_ok (inc := inc) h
  have hD : ∀ k n, (chacha20 k inc n (slice (m.bytes bp) po L.toNat)).length = L.toNat := by
    intro k n; unfold chacha20; rw [List.length_mapIdx, slice_length _ _ _ h.msg]
  refine ⟨m', _, h1, h2, ?_, ?_⟩
  · simp [document, members, member, str, Base64.encode_length, hD]
    omega
  intro n ks' bj' oj' bq' oq' bv ov bc' co' bk' ok' bn' on' bo oo size' mv hr ek en
  obtain ⟨n', r1, r2⟩ := receive_ok (inc := inc) hk hne (hD _ _) hr
  refine ⟨n', r1, fun h3 => ?_⟩
  rw [r2 h3, ek, en]
  exact chacha20_involutive _ _ _ _

/-- A sender with a message of five bytes, text of eight characters, document of 17 characters. -/
example : Sender (memL [[], ascii "hello", List.replicate 32 1, List.replicate 12 2, List.replicate 5 0, List.replicate 9 0,
      List.replicate 18 0, ascii "xy" ++ [0]]) 0 1 0 2 0 3 0 4 0 5 0 6 0 7 0 5 9 18 (ascii "xy") :=
  ⟨by decide, by decide +kernel, by decide +kernel, by decide +kernel, by decide +kernel, by decide +kernel, by decide +kernel,
    by decide +kernel, by decide +kernel, by decide +kernel, ⟨by decide +kernel, ⟨[], by decide +kernel⟩⟩⟩

/-- And a receiver, for a text of 17 characters. -/
example : Receiver (memL [[], document [(ascii "xy", ascii "AAAAAAA=")] ++ [0], ascii "xy" ++ [0], List.replicate 9 0,
      List.replicate 5 0, List.replicate 32 1, List.replicate 12 2, List.replicate 5 0])
      0 1 0 2 0 3 0 4 0 5 0 6 0 7 0 5 18 9 (ascii "xy") (document [(ascii "xy", ascii "AAAAAAA=")]) :=
  ⟨by decide, by decide +kernel, ⟨by decide +kernel, ⟨[], by decide +kernel⟩⟩, by decide +kernel, by decide +kernel,
    ⟨by decide +kernel, ⟨[], by decide +kernel⟩⟩, by decide +kernel, by decide +kernel, by decide +kernel, by decide +kernel,
    by decide +kernel, by decide +kernel⟩

end IMU.Props
