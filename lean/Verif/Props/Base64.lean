import Verif.Proofs.Base64Decode
import Verif.Props.Cipher

/-!
# Properties C58 - C63: Src/base64.c
-/

namespace IMU.Props
open Spec

/-- The RFC 4648 text of the `n` bytes at offset `o` of object `b`. -/
abbrev b64 (m : Mem) (b o n : Nat) : List Byte := Spec.Base64.encode (slice (m.bytes b) o n)

/-- Data that can be read and does not overlap the space for the text. -/
structure EncArgs (m : Mem) (bi oi bp op : Nat) (n : SizeT) : Prop where
  readable : oi + n.toNat ≤ (m.bytes bi).length
  apart : bi ≠ bp ∨ oi + n.toNat ≤ op ∨ op + (b64 m bi oi n.toNat).length ≤ oi
  fits : (b64 m bi oi n.toNat).length < 2 ^ 64

theorem reads_slice {m : Mem} {b o n : Nat} (h : o + n ≤ (m.bytes b).length) :
    Base64.Reads m b o (slice (m.bytes b) o n) := by
  intro i hi
  rw [slice_length _ _ _ h] at hi
  rw [getElem?_slice, if_pos hi]

theorem encode_run' {m : Mem} {bi oi bp op : Nat} {n mx : SizeT} (h : EncArgs m bi oi bp op n) :
    IMU.Base64.encode (ptr bi oi) n (ptr bp op) mx m =
    (Base64.puts (ptr bp op) ((b64 m bi oi n.toNat).take (4 * (mx.toNat / 4)) ++ [0#8]) >>= fun _ =>
      pure (if (b64 m bi oi n.toNat).length ≤ mx.toNat then 0 else 1)) m := by
  have hl := slice_length (m.bytes bi) oi n.toNat h.readable
  exact Base64.encode_run (reads_slice h.readable) hl.symm h.fits (by rw [hl]; exact h.apart)

/-- The length of the text is `4 * ceil(n / 3)`. -/
theorem b64_length {m : Mem} {bi oi : Nat} {n : Nat} (h : oi + n ≤ (m.bytes bi).length) :
    (b64 m bi oi n).length = 4 * ((n + 2) / 3) := by
  rw [Base64.encode_length, slice_length _ _ _ h]

/-- C58: on success the result is the RFC 4648 text and a NUL, and nothing else has changed. -/
theorem C58_encode {m : Mem} {bi oi bp op : Nat} {n mx : SizeT} (h : EncArgs m bi oi bp op n)
    (hmx : (b64 m bi oi n.toNat).length ≤ mx.toNat)
    (hroom : op + (b64 m bi oi n.toNat).length + 1 ≤ (m.bytes bp).length) :
    ∃ m', IMU.Base64.encode (ptr bi oi) n (ptr bp op) mx m = .ok 0 m' ∧
      CStr (m'.bytes bp) op (b64 m bi oi n.toNat) ∧
      OnlyChanged m m' bp op ((b64 m bi oi n.toNat).length + 1) := by
  have hb := b64_length h.readable
  have hrun := encode_run' (mx := mx) h
  rw [List.take_of_length_le (by omega), C.bind_ok (Base64.puts_ok (by simp; omega)), if_pos hmx] at hrun
  refine ⟨_, hrun, ?_, ?_⟩
  · apply cstr_of_slice
    · have : ∀ d, 0#8 ∉ Spec.Base64.encode d := by
        intro d
        induction d using Spec.Base64.encode.induct with
        | case1 => simp [Spec.Base64.encode]
        | case2 a => simp [Spec.Base64.encode, Spec.Base64.pad, Ne.symm (Base64.char_ne_zero (Base64.sextet_lt _ _))]
        | case3 a b => simp [Spec.Base64.encode, Spec.Base64.pad, Ne.symm (Base64.char_ne_zero (Base64.sextet_lt _ _))]
        | case4 a b c t ih =>
          simp only [Spec.Base64.encode, List.cons_append, List.nil_append, List.mem_cons, not_or]
          exact ⟨Ne.symm (Base64.char_ne_zero (Base64.sextet_lt _ _)), Ne.symm (Base64.char_ne_zero (Base64.sextet_lt _ _)),
            Ne.symm (Base64.char_ne_zero (Base64.sextet_lt _ _)), Ne.symm (Base64.char_ne_zero (Base64.sextet_lt _ _)), ih⟩
      exact this _
    · rw [Mem.upd_bytes, if_pos rfl]
      have := slice_splice_same (m.bytes bp) op (b64 m bi oi n.toNat ++ [0#8]) (by simp; omega)
      simpa using this
  · have := onlyChanged_splice m bp op (b64 m bi oi n.toNat ++ [0#8]) (by simp; omega)
    simpa using this

/-- Non-vacuity: "foobar" and the test vectors of RFC 4648, section 10. -/
example : EncArgs (mem2 (ascii "foobar") (List.replicate 9 0)) 0 0 1 0 6 ∧
    b64 (mem2 (ascii "foobar") (List.replicate 9 0)) 0 0 6 = ascii "Zm9vYmFy" ∧
    Spec.Base64.encode (ascii "fooba") = ascii "Zm9vYmE=" ∧ Spec.Base64.encode (ascii "foob") = ascii "Zm9vYg==" ∧
    Spec.Base64.encode (ascii "") = ascii "" :=
  ⟨⟨by decide +kernel, .inl (by decide), by decide +kernel⟩, by decide +kernel, by decide +kernel, by decide +kernel, rfl⟩

/-- C58: different data of the same memory region have different texts. -/
theorem C58_injective (d d' : List Byte) (h : Spec.Base64.encode d = Spec.Base64.encode d') : d = d' := by
  rw [← Base64.decode_encode d, h, Base64.decode_encode]

/-- C60: the call succeeds exactly if the text fits `max_result_length`; otherwise the result is the part of the
text that consists of whole groups and fits, and a NUL. -/
theorem C60_encode_status {m : Mem} {bi oi bp op : Nat} {n mx : SizeT} (h : EncArgs m bi oi bp op n)
    (hroom : op + ((b64 m bi oi n.toNat).take (4 * (mx.toNat / 4))).length + 1 ≤ (m.bytes bp).length) :
    ∃ m', IMU.Base64.encode (ptr bi oi) n (ptr bp op) mx m =
        .ok (if 4 * ((n.toNat + 2) / 3) ≤ mx.toNat then 0 else 1) m' ∧
      slice (m'.bytes bp) op (((b64 m bi oi n.toNat).take (4 * (mx.toNat / 4))).length + 1) =
        (b64 m bi oi n.toNat).take (4 * (mx.toNat / 4)) ++ [0#8] ∧
      OnlyChanged m m' bp op (((b64 m bi oi n.toNat).take (4 * (mx.toNat / 4))).length + 1) := by
  have hrun := encode_run' (mx := mx) h
  generalize (b64 m bi oi n.toNat).take (4 * (mx.toNat / 4)) = T at *
  rw [C.bind_ok (Base64.puts_ok (by simp; omega)), b64_length h.readable] at hrun
  refine ⟨_, hrun, ?_, ?_⟩
  · rw [Mem.upd_bytes, if_pos rfl]
    have := slice_splice_same (m.bytes bp) op (T ++ [0#8]) (by simp; omega)
    simpa using this
  · have := onlyChanged_splice m bp op (T ++ [0#8]) (by simp; omega)
    simpa using this

/-- C60: a length whose text does not fit `size_t` is refused without any access to memory. -/
theorem C60_encode_overflow (m : Mem) (data result : Ptr) (n mx : SizeT) (h : 2 ^ 64 ≤ 4 * ((n.toNat + 2) / 3)) :
    IMU.Base64.encode data n result mx m = .ok 1 m := by
  unfold IMU.Base64.encode
  rw [if_pos ((Base64.len_check n).mpr h)]
  rfl

example : 2 ^ 64 ≤ 4 * (((0xFFFFFFFFFFFFFFFF#64).toNat + 2) / 3) := by decide

/-- C61: the call is undefined exactly if the part of the text that is written and its NUL do not fit the object. -/
theorem C61_encode_bounds {m : Mem} {bi oi bp op : Nat} {n mx : SizeT} (h : EncArgs m bi oi bp op n) :
    (op + min (b64 m bi oi n.toNat).length (4 * (mx.toNat / 4)) + 1 ≤ (m.bytes bp).length →
      ∃ v m', IMU.Base64.encode (ptr bi oi) n (ptr bp op) mx m = .ok v m') ∧
    ((m.bytes bp).length < op + min (b64 m bi oi n.toNat).length (4 * (mx.toNat / 4)) + 1 →
      IMU.Base64.encode (ptr bi oi) n (ptr bp op) mx m = .ub .oobWrite) := by
  have hrun := encode_run' (mx := mx) h
  constructor
  · intro hroom
    rw [C.bind_ok (Base64.puts_ok (by simp; omega))] at hrun
    exact ⟨_, _, hrun⟩
  · intro hroom
    rw [C.bind_ub (Base64.puts_oob (by simp) (by simp; omega))] at hrun
    exact hrun

/-- C61: with a result buffer of exactly `max_result_length` bytes the NUL is written behind it exactly if that
length is a multiple of four that the text reaches. -/
theorem C61_off_by_one {m : Mem} {bi oi bp op : Nat} {n mx : SizeT} (h : EncArgs m bi oi bp op n)
    (hbuf : (m.bytes bp).length = op + mx.toNat) :
    IMU.Base64.encode (ptr bi oi) n (ptr bp op) mx m = .ub .oobWrite ↔
      mx.toNat % 4 = 0 ∧ mx.toNat ≤ 4 * ((n.toNat + 2) / 3) := by
  obtain ⟨h1, h2⟩ := C61_encode_bounds (mx := mx) h
  rw [b64_length h.readable] at h1 h2
  constructor
  · intro hub
    by_cases hc : op + min (4 * ((n.toNat + 2) / 3)) (4 * (mx.toNat / 4)) + 1 ≤ (m.bytes bp).length
    · obtain ⟨v, m', e⟩ := h1 hc
      rw [e] at hub; cases hub
    · omega
  · intro hc
    exact h2 (by omega)

/-- C61: the text "SGVoZQ==" of "Hehe" cut at four characters, as in Tests/test_base64.c. -/
example : IMU.Base64.encode (ptr 0 0) 4 (ptr 1 0) 4 (mem2 (ascii "Hehe") (List.replicate 4 0)) = .ub .oobWrite := rfl

/-- Input that can be read, not overlapped by output that lies behind its first byte.  (`oo ≤ oi` includes decoding
in place.) -/
structure DecArgs (m : Mem) (bi oi bo oo : Nat) (n : SizeT) (s : List Byte) : Prop where
  readable : oi + s.length ≤ (m.bytes bi).length
  text : slice (m.bytes bi) oi s.length = s
  apart : bi ≠ bo ∨ oi + s.length ≤ oo ∨ oo ≤ oi
  small : n.toNat + 3 < 2 ^ 64

/-- Texts that `Base64_decode` considers: one complete group at least. -/
def LongEnough (s : List Byte) : Prop := 5 ≤ s.length ∨ s.length = 4 ∧ s.getLast? ≠ some Spec.Base64.pad

instance (s : List Byte) : Decidable (LongEnough s) := by unfold LongEnough; infer_instance

theorem decode_run {m : Mem} {bi oi bo oo : Nat} {n mx : SizeT} {s : List Byte} (h : DecArgs m bi oi bo oo n s)
    (h1 : s.length % 4 ≠ 1) (hn : n.toNat = s.length ∨ n.toNat % 4 = 1 ∧ n.toNat + 1 = s.length) :
    ∃ W, IMU.Base64.decode (ptr bi oi) n (ptr bo oo) mx m = (Base64.puts (ptr bo oo) W >>= fun _ =>
        pure (if LongEnough s ∧ (Spec.Base64.decode s).length ≤ mx.toNat then 0 else 1)) m ∧
      W.length ≤ mx.toNat ∧ W <+: Spec.Base64.decode s ∧
      (LongEnough s ∧ (Spec.Base64.decode s).length ≤ mx.toNat → W = Spec.Base64.decode s) := by
  have hr : Base64.Reads m bi oi s := by
    have := reads_slice h.readable
    rwa [h.text] at this
  rcases Base64.split_text s h1 with ⟨q, hq, hlast⟩ | ⟨q, p, a, b, g, rfl, hp, hg⟩
  · have hfl := Base64.full_length q s hq
    have hsp := Base64.spec_nopad q s hq hlast
    have hrun := Base64.decode_nopad (mx := mx) hq hlast (by omega) h.small hr h.apart
    rw [hsp, hfl]
    by_cases hc : q = 0 ∨ mx.toNat < 3 * q
    · rw [if_pos hc] at hrun
      have hnl : ¬ (LongEnough s ∧ 3 * q ≤ mx.toNat) := by unfold LongEnough; omega
      refine ⟨[], ?_, by simp, by simp, fun hh => absurd hh hnl⟩
      rw [hrun, if_neg hnl]
      rfl
    · rw [if_neg hc] at hrun
      have hnl : LongEnough s ∧ 3 * q ≤ mx.toNat := by
        refine ⟨?_, by omega⟩
        by_cases h5 : 5 ≤ s.length
        · exact .inl h5
        · exact .inr ⟨by omega, hlast⟩
      refine ⟨_, ?_, by omega, List.prefix_refl _, fun _ => rfl⟩
      rw [hrun, if_pos hnl]
  · have hgl : g.length ≤ 2 := by rcases hg with rfl | ⟨c, rfl⟩ | ⟨c, rfl⟩ <;> simp
    have hll : 1 ≤ (Spec.Base64.last a b (g.headD Spec.Base64.pad)).length := by
      unfold Spec.Base64.last; split <;> simp
    have hfl := Base64.full_length q p hp
    have hsp := Base64.spec_pad q p a b g hp hg
    have hlen : (p ++ a :: b :: g).length = 4 * q + 2 + g.length := by simp; omega
    have hrun := Base64.decode_pad (n := n) (mx := mx) hp hg (by
      rw [hlen] at hn
      rcases hn with hn | ⟨hn, hn'⟩
      · exact .inl hn
      · refine .inr ⟨?_, by omega⟩
        exact List.length_eq_zero_iff.mp (by omega)) h.small hr h.apart
    have hle : LongEnough (p ++ a :: b :: g) ↔ q ≠ 0 := by
      unfold LongEnough
      constructor
      · rintro (h5 | ⟨h5, h6⟩)
        · omega
        · intro hq
          have hg2 : g.length = 2 := by omega
          rcases hg with rfl | ⟨c, rfl⟩ | ⟨c, rfl⟩
          · simp at hg2
          · simp at hg2
          · simp at h6
      · intro hq
        exact .inl (by omega)
    rw [hsp]
    by_cases hc : q = 0 ∨ mx.toNat < 3 * q + 1
    · rw [if_pos hc] at hrun
      have hnl : ¬ (LongEnough (p ++ a :: b :: g) ∧
          (Base64.full p ++ Spec.Base64.last a b (g.headD Spec.Base64.pad)).length ≤ mx.toNat) := by
        rw [hle, List.length_append, hfl]; omega
      refine ⟨[], ?_, by simp, by simp, fun hh => absurd hh hnl⟩
      rw [hrun, if_neg hnl]
      rfl
    · rw [if_neg hc] at hrun
      refine ⟨_, ?_, ?_, List.take_prefix mx.toNat _, ?_⟩
      · rw [hrun]
        have : (LongEnough (p ++ a :: b :: g) ∧
          (Base64.full p ++ Spec.Base64.last a b (g.headD Spec.Base64.pad)).length ≤ mx.toNat) ↔
          (Base64.full p ++ Spec.Base64.last a b (g.headD Spec.Base64.pad)).length ≤ mx.toNat := by
          rw [hle]; constructor
          · exact fun h => h.2
          · exact fun h => ⟨by omega, h⟩
        simp only [this]
      · simp
      · intro hh
        rw [List.take_of_length_le hh.2]

/-- C62: acceptance.  The text is decoded if it is long enough and the output fits, else the status is 1; characters
outside the alphabet are never rejected. -/
theorem C62_decode {m : Mem} {bi oi bo oo : Nat} {n mx : SizeT} {s : List Byte} (h : DecArgs m bi oi bo oo n s)
    (h1 : s.length % 4 ≠ 1) (hn : n.toNat = s.length)
    (hroom : oo + min (Spec.Base64.decode s).length mx.toNat ≤ (m.bytes bo).length) :
    ∃ v m', IMU.Base64.decode (ptr bi oi) n (ptr bo oo) mx m = .ok v m' ∧
      (v = 0 ↔ LongEnough s ∧ (Spec.Base64.decode s).length ≤ mx.toNat) ∧ (v = 0 ∨ v = 1) ∧
      (v = 0 → slice (m'.bytes bo) oo (Spec.Base64.decode s).length = Spec.Base64.decode s) ∧
      OnlyChanged m m' bo oo (min (Spec.Base64.decode s).length mx.toNat) := by
  obtain ⟨W, a1, a2, a3, a4⟩ := decode_run (mx := mx) h h1 (.inl hn)
  have hW := a3.length_le
  have hroomW : oo + W.length ≤ (m.bytes bo).length := by omega
  rw [C.bind_ok (Base64.puts_ok hroomW)] at a1
  refine ⟨_, _, a1, ?_, ?_, ?_, ?_⟩
  · by_cases hc : LongEnough s ∧ (Spec.Base64.decode s).length ≤ mx.toNat <;> simp [hc]
  · by_cases hc : LongEnough s ∧ (Spec.Base64.decode s).length ≤ mx.toNat
    · rw [if_pos hc]; exact .inl rfl
    · rw [if_neg hc]; exact .inr rfl
  · intro hv
    have hc : LongEnough s ∧ (Spec.Base64.decode s).length ≤ mx.toNat := by
      by_contra hc; rw [if_neg hc] at hv; cases hv
    rw [← a4 hc, Mem.upd_bytes, if_pos rfl]
    exact slice_splice_same _ _ _ hroomW
  · have h0 := onlyChanged_splice m bo oo W hroomW
    exact ⟨h0.1, h0.2.1, h0.2.2.1, fun i hi => h0.2.2.2 i (by omega)⟩

/-- C62: fewer than four characters are refused without any access to memory. -/
theorem C62_short (m : Mem) (inp out : Ptr) (n mx : SizeT) (h : n.toNat < 4) :
    IMU.Base64.decode inp n out mx m = .ok 1 m := by
  have : n = 0#64 ∨ n = 1#64 ∨ n = 2#64 ∨ n = 3#64 := by
    have e : n = BitVec.ofNat 64 n.toNat := by simp
    generalize n.toNat = k at *
    subst e
    have : k = 0 ∨ k = 1 ∨ k = 2 ∨ k = 3 := by omega
    rcases this with rfl | rfl | rfl | rfl <;> simp
  unfold IMU.Base64.decode IMU.Base64.padBool
  rcases this with rfl | rfl | rfl | rfl
  · rw [if_neg (by decide), C.bind_ok (C.pure_run _ _)]
    simp
  all_goals
    rw [if_pos (by decide), if_pos (by decide), C.bind_ok (C.pure_run _ _)]
    simp

/-- Non-vacuity: unpadded text with a character from outside the alphabet, decoded in place. -/
example : DecArgs (mem1 (ascii "Zm9vYm*")) 0 0 0 0 7 (ascii "Zm9vYm*") ∧ LongEnough (ascii "Zm9vYm*") ∧
    Spec.Base64.decode (ascii "Zm9vYm*") = ascii "foob" ++ [96] := ⟨⟨by decide, by decide, .inr (.inr (by decide)), by decide⟩,
      by decide +kernel, by decide +kernel⟩

/-- C63: apart from lengths 1 modulo 4 the call reads only the input (the bytes behind it need not exist) and writes at
most `max_out_len` bytes. -/
theorem C63_footprint {m : Mem} {bi oi bo oo : Nat} {n mx : SizeT} {s : List Byte} (h : DecArgs m bi oi bo oo n s)
    (h1 : s.length % 4 ≠ 1) (hn : n.toNat = s.length) (hroom : oo + mx.toNat ≤ (m.bytes bo).length) :
    ∃ v m', IMU.Base64.decode (ptr bi oi) n (ptr bo oo) mx m = .ok v m' ∧ OnlyChanged m m' bo oo mx.toNat := by
  obtain ⟨v, m', a1, -, -, -, a5⟩ := C62_decode (mx := mx) h h1 hn (by omega)
  exact ⟨v, m', a1, a5.1, a5.2.1, a5.2.2.1, fun i hi => a5.2.2.2 i (by omega)⟩

/-- C63: a length of 1 modulo 4 makes the call use the byte behind the input: it decodes one character more than
it was given. -/
theorem C63_reads_behind {m : Mem} {bi oi bo oo : Nat} {n mx : SizeT} {s : List Byte} {x : Byte}
    (h : DecArgs m bi oi bo oo n (s ++ [x])) (h1 : s.length % 4 = 1) (h5 : 5 ≤ s.length) (hn : n.toNat = s.length)
    (hmx : (Spec.Base64.decode (s ++ [x])).length ≤ mx.toNat)
    (hroom : oo + (Spec.Base64.decode (s ++ [x])).length ≤ (m.bytes bo).length) :
    ∃ m', IMU.Base64.decode (ptr bi oi) n (ptr bo oo) mx m = .ok 0 m' ∧
      slice (m'.bytes bo) oo (Spec.Base64.decode (s ++ [x])).length = Spec.Base64.decode (s ++ [x]) := by
  have hl : (s ++ [x]).length = s.length + 1 := by simp
  obtain ⟨W, a1, a2, a3, a4⟩ := decode_run (mx := mx) h (by omega) (.inr ⟨by omega, by omega⟩)
  have hc : LongEnough (s ++ [x]) ∧ (Spec.Base64.decode (s ++ [x])).length ≤ mx.toNat := ⟨.inl (by omega), hmx⟩
  rw [a4 hc, if_pos hc, C.bind_ok (Base64.puts_ok hroom)] at a1
  refine ⟨_, a1, ?_⟩
  rw [Mem.upd_bytes, if_pos rfl]
  exact slice_splice_same _ _ _ hroom

/-- C63: and the byte matters: "Zm9vY" followed by 'm' or by 'A'. -/
example : Spec.Base64.decode (ascii "Zm9vY" ++ ascii "m") = ascii "foob" ∧
    Spec.Base64.decode (ascii "Zm9vY" ++ ascii "A") = ascii "foo`" := ⟨by decide +kernel, by decide +kernel⟩

/-- C63: if the input ends with its object, such a call is undefined. -/
theorem C63_reads_out_of_bounds {m : Mem} {bi oi bo oo q : Nat} {n mx : SizeT}
    (hn : n.toNat = 4 * q + 1) (hq : 1 ≤ q) (h3 : n.toNat + 3 < 2 ^ 64) (hend : (m.bytes bi).length = oi + n.toNat)
    (hap : bi ≠ bo) (hmx : 3 * q + 1 ≤ mx.toNat) (hroom : oo + 3 * q ≤ (m.bytes bo).length) :
    IMU.Base64.decode (ptr bi oi) n (ptr bo oo) mx m = .ub .oobRead := by
  have hmod : (n % 4#64).toNat = n.toNat % 4 := by rw [BitVec.toNat_umod]; rfl
  have hpb : IMU.Base64.padBool (ptr bi oi) n m = .ok true m := by
    unfold IMU.Base64.padBool
    rw [if_pos (by rw [BitVec.lt_def]; simp; omega),
      if_pos (fun e => by rw [e] at hmod; simp at hmod; omega)]
    rfl
  have e1 : (((n + 3#64) / 4#64) - 1#64).toNat = q := by
    have : ((n + 3#64) / 4#64).toNat = q + 1 := by
      rw [BitVec.toNat_udiv, BitVec.toNat_add]; simp only [BitVec.toNat_ofNat]
      rw [show (n.toNat + 3 % 2 ^ 64) % 2 ^ 64 = n.toNat + 3 by omega, show 4 % 2 ^ 64 = 4 from rfl]; omega
    rw [BitVec.toNat_sub_of_le (by rw [BitVec.le_def, this]; simp), this]; simp
  have e2 : ((((n + 3#64) / 4#64) - 1#64) * 4#64).toNat = 4 * q := by
    rw [BitVec.toNat_mul, e1]; simp only [BitVec.toNat_ofNat]; omega
  have e3 : (((((n + 3#64) / 4#64) - 1#64) * 4#64) / 4#64 * 3#64 + 1#64).toNat = 3 * q + 1 := by
    rw [BitVec.toNat_add, BitVec.toNat_mul, BitVec.toNat_udiv, e2]; simp only [BitVec.toNat_ofNat]
    rw [show 4 * q / (4 % 2 ^ 64) = q by rw [show 4 % 2 ^ 64 = 4 from rfl]; omega]; omega
  rw [Base64.decode_of_pad hpb rfl rfl]
  simp only [if_true]
  generalize hlen : (((n + 3#64) / 4#64) - 1#64) * 4#64 = len at *
  generalize hout : len / 4#64 * 3#64 + 1#64 = out_len at *
  rw [if_neg (by
    rintro (h | h)
    · rw [BitVec.lt_def, e3] at h; omega
    · rw [h] at e2; simp at e2; omega), e2, show (4 * q + 3) / 4 = q by omega]
  have hp : (slice (m.bytes bi) oi (4 * q)).length = 4 * q := slice_length _ _ _ (by omega)
  have hloop := Base64.dec_loop (bi := bi) (oi := oi) (bo := bo) (oo := oo) q 0 (slice (m.bytes bi) oi (4 * q)) [] m hp
    (by simpa using reads_slice (m := m) (b := bi) (o := oi) (n := 4 * q) (by omega)) (.inl hap)
  have hfl := Base64.full_length q _ hp
  simp only [Nat.mul_zero, Nat.add_zero] at hloop
  rw [C.bind_ok (Base64.puts_ok (by omega))] at hloop
  rw [C.bind_ok hloop]
  unfold IMU.Base64.decLast
  have hb : ∀ l, ((m.upd bo l).bytes bi).length = oi + n.toNat := by
    intro l; rw [Mem.upd_bytes, if_neg hap, hend]
  have e4 : (len + 1#64).toNat = 4 * q + 1 := by
    rw [BitVec.toNat_add, e2]; simp only [BitVec.toNat_ofNat]; omega
  have hld := load_lt (m := m.upd bo (splice (m.bytes bo) oo (Base64.full (slice (m.bytes bi) oi (4 * q)))))
    (b := bi) (o := oi + len.toNat) (by rw [hb]; omega)
  rw [ptr_addN, C.bind_ok (Base64.index_ok hld), ptr_addN, C.bind_ub (Base64.index_ub (by rw [hb, e4]; omega))]

example : IMU.Base64.decode (ptr 0 0) 5 (ptr 1 0) 8 (mem2 (ascii "Zm9vY") (List.replicate 8 0)) = .ub .oobRead := rfl

/-- C59: decoding the text of at least three bytes restores them. -/
theorem C59_round_trip {m : Mem} {bi oi bp op bo oo : Nat} {n mx mo : SizeT} (h : EncArgs m bi oi bp op n)
    (hmx : (b64 m bi oi n.toNat).length ≤ mx.toNat)
    (hroom : op + (b64 m bi oi n.toNat).length + 1 ≤ (m.bytes bp).length)
    (hn3 : 3 ≤ n.toNat) (hmo : n.toNat ≤ mo.toNat) (hout : oo + n.toNat ≤ (m.bytes bo).length)
    (hap : bp ≠ bo ∨ op + (b64 m bi oi n.toNat).length ≤ oo ∨ oo ≤ op) :
    ∃ m1 m2, IMU.Base64.encode (ptr bi oi) n (ptr bp op) mx m = .ok 0 m1 ∧
      IMU.Base64.decode (ptr bp op) (BitVec.ofNat 64 (b64 m bi oi n.toNat).length) (ptr bo oo) mo m1 = .ok 0 m2 ∧
      slice (m2.bytes bo) oo n.toNat = slice (m.bytes bi) oi n.toNat := by
  obtain ⟨m1, a1, a2, a3⟩ := C58_encode h hmx hroom
  have hl := b64_length h.readable
  have hfit := h.fits
  have hdl : (Spec.Base64.decode (b64 m bi oi n.toNat)).length = n.toNat := by
    rw [Base64.decode_encode, slice_length _ _ _ h.readable]
  have hblen : ∀ b, (m1.bytes b).length = (m.bytes b).length := by
    intro b
    by_cases hb : b = bp
    · subst hb; exact a3.2.2.1
    · rw [a3.2.1 b hb]
  have hsl : slice (m1.bytes bp) op (b64 m bi oi n.toNat).length = b64 m bi oi n.toNat := by
    apply List.ext_getElem?
    intro i
    rw [getElem?_slice]
    split
    · rename_i hi; exact a2.get hi
    · rename_i hi; rw [List.getElem?_eq_none (by omega)]
  have hto : (BitVec.ofNat 64 (b64 m bi oi n.toNat).length).toNat = (b64 m bi oi n.toNat).length := by
    rw [BitVec.toNat_ofNat]; omega
  obtain ⟨v, m2, b1, b2, -, b4, -⟩ := C62_decode (m := m1) (bi := bp) (oi := op) (bo := bo) (oo := oo)
    (n := BitVec.ofNat 64 (b64 m bi oi n.toNat).length) (mx := mo) (s := b64 m bi oi n.toNat)
    ⟨by rw [hblen]; omega, hsl, hap, by rw [hto]; omega⟩ (by omega) hto (by rw [hblen, hdl]; omega)
  have hle : LongEnough (b64 m bi oi n.toNat) := by
    by_cases h5 : 5 ≤ (b64 m bi oi n.toNat).length
    · exact .inl h5
    · have hn : n.toNat = 3 := by omega
      refine .inr ⟨by omega, ?_⟩
      have h3 : (slice (m.bytes bi) oi n.toNat).length = 3 := by rw [slice_length _ _ _ h.readable, hn]
      unfold b64
      match slice (m.bytes bi) oi n.toNat, h3 with
      | [a, b, c], _ =>
        simp only [Spec.Base64.encode, List.append_nil, List.getLast?_cons_cons, List.getLast?_singleton, ne_eq,
          Option.some.injEq]
        exact Base64.char_ne_pad (Base64.sextet_lt _ _)
  have hv := b2.mpr ⟨hle, by omega⟩
  subst hv
  refine ⟨m1, m2, a1, b1, ?_⟩
  have := b4 rfl
  rw [hdl, Base64.decode_encode] at this
  exact this

/-- Non-vacuity. -/
example : ∃ m1 m2, IMU.Base64.encode (ptr 0 0) 4 (ptr 1 0) 8 (mem2 (ascii "Hehe") (List.replicate 9 0)) = .ok 0 m1 ∧
    IMU.Base64.decode (ptr 1 0) 8 (ptr 1 0) 4 m1 = .ok 0 m2 ∧ slice (m2.bytes 1) 0 4 = ascii "Hehe" :=
  ⟨_, _, rfl, rfl, by decide +kernel⟩

/-- C59: the text of zero, one or two bytes is refused by `Base64_decode`, whatever the limit. -/
theorem C59_short_fails {m : Mem} {bi oi bp op : Nat} {n mx mo : SizeT} {out : Ptr} (h : EncArgs m bi oi bp op n)
    (hmx : (b64 m bi oi n.toNat).length ≤ mx.toNat)
    (hroom : op + (b64 m bi oi n.toNat).length + 1 ≤ (m.bytes bp).length) (hn : n.toNat < 3) :
    ∃ m1, IMU.Base64.encode (ptr bi oi) n (ptr bp op) mx m = .ok 0 m1 ∧
      IMU.Base64.decode (ptr bp op) (BitVec.ofNat 64 (b64 m bi oi n.toNat).length) out mo m1 = .ok 1 m1 := by
  obtain ⟨m1, a1, a2, -⟩ := C58_encode h hmx hroom
  refine ⟨m1, a1, ?_⟩
  have hl := b64_length h.readable
  by_cases h0 : n.toNat = 0
  · apply C62_short
    rw [hl, h0]
    decide
  · have h4 : (b64 m bi oi n.toNat).length = 4 := by omega
    have hlast : (b64 m bi oi n.toNat)[3]? = some 61#8 := by
      have h3 : (slice (m.bytes bi) oi n.toNat).length = 1 ∨ (slice (m.bytes bi) oi n.toNat).length = 2 := by
        rw [slice_length _ _ _ h.readable]; omega
      unfold b64
      rcases h3 with h3 | h3
      · match slice (m.bytes bi) oi n.toNat, h3 with
        | [a], _ => rfl
      · match slice (m.bytes bi) oi n.toNat, h3 with
        | [a, b], _ => rfl
    rw [h4]
    have hld : load (ptr bp (op + 3)) m1 = .ok 61#8 m1 := load_ok (by rw [a2.get (by omega), hlast])
    have hpb : IMU.Base64.padBool (ptr bp op) (BitVec.ofNat 64 4) m1 = .ok true m1 := by
      unfold IMU.Base64.padBool
      rw [if_pos (by decide), if_neg (by decide), show ((BitVec.ofNat 64 4) - 1#64).toNat = 3 by decide, ptr_addN,
        C.bind_ok hld]
      rfl
    rw [Base64.decode_of_pad hpb rfl rfl, if_pos (.inr (by decide))]
    rfl

/-- Non-vacuity. -/
example : ∃ m1, IMU.Base64.encode (ptr 0 0) 2 (ptr 1 0) 4 (mem2 (ascii "He") (List.replicate 5 0)) = .ok 0 m1 ∧
    m1.bytes 1 = ascii "SGU=" ++ [0] ∧ IMU.Base64.decode (ptr 1 0) 4 (ptr 1 0) 4 m1 = .ok 1 m1 :=
  ⟨_, rfl, by decide +kernel, rfl⟩

end IMU.Props
