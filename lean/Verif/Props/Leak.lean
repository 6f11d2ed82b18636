import Verif.Proofs.LeakVernam
import Verif.Props.Cipher
import Verif.Props.ChaCha20

/-!
# Properties C96 - C98: what an observer of memory accesses and branches learns

The observer of `Verif/C/Leak.lean` sees addresses, table indices and decisions, but no values.
-/

namespace IMU.Props
open Spec Spec.Leak

/-- C96: the observed version of `Chacha20_crypt` is `Chacha20_crypt`. -/
theorem C96_same_code (ks : Nat) (p : Ptr) (len : U32) (key nonce : Ptr) (inc : U32) (r : Ptr) :
    T.erase (ChaCha.cryptT ks p len key nonce inc r) = ChaCha.crypt ks p len key nonce inc r :=
  ChaCha.erase_crypt ks p len key nonce inc r

/-- C96: whatever the key, the nonce, the counter and the text are, an observer sees the same: two calls with the same
pointers and the same length that end cannot be told apart. -/
theorem C96_constant_time {ks : Nat} {p : Ptr} {len : U32} {key nonce r : Ptr} {inc inc2 : U32} {m m' m2 m2' : Mem}
    {a b : Unit} {t u : List Leak} (h : ChaCha.cryptT ks p len key nonce inc r m = .ok (a, t) m')
    (h2 : ChaCha.cryptT ks p len key nonce inc2 r m2 = .ok (b, u) m2') : t = u := by
  obtain ⟨tr, hs⟩ := ChaCha.shows_crypt ks p len key nonce r
  rw [hs inc m a t m' h, hs inc2 m2 b u m2' h2]

/-- C96: every call that ends without an observer also ends with one. -/
theorem C96_total {ks : Nat} {p : Ptr} {len : U32} {key nonce r : Ptr} {inc : U32} {m m' : Mem}
    (h : ChaCha.crypt ks p len key nonce inc r m = .ok () m') :
    ∃ t, ChaCha.cryptT ks p len key nonce inc r m = .ok ((), t) m' := by
  rw [← C96_same_code] at h
  unfold T.erase at h
  split at h
  · rename_i t m1 heq
    cases h
    exact ⟨t, heq⟩
  · cases h

/-- Lemma support: a key, a nonce, a text and room for the result. -/
def leakMem (k n d : Byte) : Mem where
  bytes
    | 0 => List.replicate 32 k
    | 1 => List.replicate 12 n
    | 2 => List.replicate 65 d
    | 3 => List.replicate 65 0
    | _ => []
  words _ := []

/-- Non-vacuity: two calls with different keys, nonces, counters and texts that end. -/
example : ∃ t u m' m2', ChaCha.cryptT 9 (ptr 2 0) 65 (ptr 0 0) (ptr 1 0) 1 (ptr 3 0) (leakMem 1 2 3) = .ok ((), t) m' ∧
    ChaCha.cryptT 9 (ptr 2 0) 65 (ptr 0 0) (ptr 1 0) 7 (ptr 3 0) (leakMem 4 5 6) = .ok ((), u) m2' := by
  have h : ∀ k n d, ChaCha.Args (leakMem k n d) 9 2 0 0 0 1 0 3 0 (65#32).toNat := fun k n d =>
    ⟨by simp [leakMem], by simp [leakMem], by simp [leakMem], by simp [leakMem], .inl (by decide), .inl (by decide),
      .inl (by decide), by decide, by decide, by decide, by decide⟩
  obtain ⟨m', h1, -⟩ := C47_rfc8439 65#32 1 (h 1 2 3)
  obtain ⟨m2', h2, -⟩ := C47_rfc8439 65#32 7 (h 4 5 6)
  obtain ⟨t, ht⟩ := C96_total h1
  obtain ⟨u, hu⟩ := C96_total h2
  exact ⟨t, u, m', m2', ht, hu⟩

/-- C97: the observed versions of `Base64_encode` and of the CRC functions are these functions. -/
theorem C97_same_code :
    (∀ d n r mx, T.erase (Base64.encodeT d n r mx) = Base64.encode d n r mx) ∧
    (∀ tab p n i x ro ri fx, T.erase (Crc.base8T tab p n i x ro ri fx) = Crc.base8 tab p n i x ro ri fx) ∧
    (∀ tab p n i x ro ri fx, T.erase (Crc.base16T tab p n i x ro ri fx) = Crc.base16 tab p n i x ro ri fx) ∧
    (∀ tab p n i x ro ri fx, T.erase (Crc.base32T tab p n i x ro ri fx) = Crc.base32 tab p n i x ro ri fx) :=
  ⟨Base64.erase_encode, Crc.erase_base8, Crc.erase_base16, Crc.erase_base32⟩

/-- C97: the table indices that `Base64_encode` looks up are the 6-bit digits of the data, all of them. -/
theorem C97_base64_digits {n mx : SizeT} {bi oi bp op : Nat} {m : Mem} (hr : oi + n.toNat ≤ (m.bytes bi).length)
    (hd : bi ≠ bp) {t : List Leak} {m' : Mem} (h : Base64.encodeT (ptr bi oi) n (ptr bp op) mx m = .ok (0, t) m') :
    lookups t = digits (slice (m.bytes bi) oi n.toNat) := by
  refine Base64.encode_lookups (d := slice (m.bytes bi) oi n.toNat) ?_ (slice_length _ _ _ hr).symm hd h
  intro i hi
  rw [slice_length _ _ _ hr] at hi
  rw [getElem?_slice, if_pos hi]

/-- C97: so the lookups alone determine the data. -/
theorem C97_base64 {n mx n2 mx2 : SizeT} {bi oi bp op bi2 oi2 bp2 op2 : Nat} {m m2 : Mem}
    (hr : oi + n.toNat ≤ (m.bytes bi).length) (hr2 : oi2 + n2.toNat ≤ (m2.bytes bi2).length)
    (hd : bi ≠ bp) (hd2 : bi2 ≠ bp2) {t u : List Leak} {m' m2' : Mem}
    (h : Base64.encodeT (ptr bi oi) n (ptr bp op) mx m = .ok (0, t) m')
    (h2 : Base64.encodeT (ptr bi2 oi2) n2 (ptr bp2 op2) mx2 m2 = .ok (0, u) m2') (e : lookups t = lookups u) :
    slice (m.bytes bi) oi n.toNat = slice (m2.bytes bi2) oi2 n2.toNat := by
  rw [C97_base64_digits hr hd h, C97_base64_digits hr2 hd2 h2] at e
  exact Base64.digits_inj e

/-- C97: the lookups of a CRC with the table of any variant determine the data. -/
theorem C97_crc8 {tab : List Byte} {b o b2 o2 : Nat} {n n2 : U32} {i x : Byte} {ro ri fx : Bool} {m m2 m' m2' : Mem} {v v2 : Byte}
    {t u : List Leak} (h : Crc.base8T tab (ptr b o) n i x ro ri fx m = .ok (v, t) m')
    (h2 : Crc.base8T tab (ptr b2 o2) n2 i x ro ri fx m2 = .ok (v2, u) m2') (e : lookups t = lookups u) :
    slice (m.bytes b) o n.toNat = slice (m2.bytes b2) o2 n2.toNat := by
  rw [Crc.base8_lookups h, Crc.base8_lookups h2] at e
  exact Crc.indices_inj Crc.idx8_inj _ _ _ e

theorem C97_crc16 {tab : List U16} {b o b2 o2 : Nat} {n n2 : U32} {i x : U16} {ro ri fx : Bool} {m m2 m' m2' : Mem} {v v2 : U16}
    {t u : List Leak} (h : Crc.base16T tab (ptr b o) n i x ro ri fx m = .ok (v, t) m')
    (h2 : Crc.base16T tab (ptr b2 o2) n2 i x ro ri fx m2 = .ok (v2, u) m2') (e : lookups t = lookups u) :
    slice (m.bytes b) o n.toNat = slice (m2.bytes b2) o2 n2.toNat := by
  rw [Crc.base16_lookups h, Crc.base16_lookups h2] at e
  exact Crc.indices_inj Crc.idx16_inj _ _ _ e

theorem C97_crc32 {tab : List U32} {b o b2 o2 : Nat} {n n2 : U32} {i x : U32} {ro ri fx : Bool} {m m2 m' m2' : Mem} {v v2 : U32}
    {t u : List Leak} (h : Crc.base32T tab (ptr b o) n i x ro ri fx m = .ok (v, t) m')
    (h2 : Crc.base32T tab (ptr b2 o2) n2 i x ro ri fx m2 = .ok (v2, u) m2') (e : lookups t = lookups u) :
    slice (m.bytes b) o n.toNat = slice (m2.bytes b2) o2 n2.toNat := by
  rw [Crc.base32_lookups h, Crc.base32_lookups h2] at e
  exact Crc.indices_inj Crc.idx32_inj _ _ _ e

/-- What a run looked up. -/
def leakLookups {α : Type} (r : Res (α × List Leak)) : Option (List Nat) :=
  match r with
  | .ok (_, t) _ => some (lookups t)
  | .ub _ => none

/-- Non-vacuity: the lookups for "Man" and "Ma", and those of a CRC-8 over "AB". -/
example : leakLookups (Base64.encodeT (ptr 0 0) 3 (ptr 1 0) 4 (mem2 (ascii "Man") (List.replicate 5 0))) =
      some [19, 22, 5, 46] ∧
    leakLookups (Base64.encodeT (ptr 0 0) 2 (ptr 1 0) 4 (mem2 (ascii "Man") (List.replicate 5 0))) = some [19, 22, 4] ∧
    leakLookups (Crc.base8T ((List.range 256).map (BitVec.ofNat 8)) (ptr 0 0) 2 0 0 false false false
      (mem2 (ascii "AB") [])) = some [65, 3] := by
  decide +kernel

/-- C98: the observed versions of the Vernam cipher are the Vernam cipher. -/
theorem C98_same_code (cs : Bool) (msg key : Ptr) (n : U32) :
    T.erase (Vernam.encryptT msg key n) = Vernam.encrypt msg key n ∧
    T.erase (Vernam.decryptT cs msg key n) = Vernam.decrypt cs msg key n :=
  ⟨Vernam.erase_encrypt msg key n, Vernam.erase_decrypt cs msg key n⟩

theorem agree_of {bm om bk ok : Nat} {m m2 : Mem} {s s2 : List Byte} (hs : CStr (m.bytes bm) om s)
    (hs2 : CStr (m2.bytes bm) om s2) (hk : s.map kind = s2.map kind)
    (hkk : (slice (m.bytes bk) ok s.length).map kind = (slice (m2.bytes bk) ok s.length).map kind) {n : Nat} (hn : n ≤ s.length) :
    Vernam.Agree bm om bk ok m m2 0 n := by
  have hlen : s.length = s2.length := by simpa using congrArg List.length hk
  intro j _ hj
  constructor
  · rw [hs.get (by omega), hs2.get (by omega), ← List.getElem?_map, ← List.getElem?_map, hk]
  · have := congrArg (·[j]?) hkk
    simp only [List.getElem?_map] at this
    rwa [getElem?_slice, getElem?_slice, if_pos (by omega), if_pos (by omega)] at this

/-- C98: what an observer sees of `VernamCipher_encrypt` depends only on the kinds of the characters of message and key
(capital letter, small letter, or which other range), not on which letters they are. -/
theorem C98_encrypt {bm om bk ok : Nat} (hb : bm ≠ bk) {n : U32} {m m2 m' m2' : Mem} {s s2 : List Byte}
    (hs : CStr (m.bytes bm) om s) (hs2 : CStr (m2.bytes bm) om s2) (hk : s.map kind = s2.map kind)
    (hkk : (slice (m.bytes bk) ok s.length).map kind = (slice (m2.bytes bk) ok s.length).map kind) {a a2 : Bool}
    {t t2 : List Leak} (h : Vernam.encryptT (ptr bm om) (ptr bk ok) n m = .ok (a, t) m')
    (h2 : Vernam.encryptT (ptr bm om) (ptr bk ok) n m2 = .ok (a2, t2) m2') : t = t2 := by
  have hlen : s.length = s2.length := by simpa using congrArg List.length hk
  unfold Vernam.encryptT at h h2
  obtain ⟨l, t3, m3, r3, h3, x3, rfl⟩ := T.bind_cases h
  obtain ⟨l', t4, m4, r4, h4, x4, rfl⟩ := T.bind_cases h2
  obtain ⟨h5, rfl⟩ := Vernam.strlenT_cases h3
  obtain ⟨h6, rfl⟩ := Vernam.strlenT_cases h4
  rw [strlen_ok hs] at h5
  rw [strlen_ok hs2] at h6
  cases h5
  cases h6
  rw [← hlen] at x4 ⊢
  congr 1
  obtain ⟨r5, x5, rfl⟩ := Vernam.branch_exact x3
  obtain ⟨r6, x6, rfl⟩ := Vernam.branch_exact x4
  congr 1
  split at x5
  · rename_i hc
    have hc := of_decide_eq_true hc
    have hn : n.toInt.toNat ≤ s.length := by
      rw [← hc]
      have := BitVec.toInt_eq_toNat_bmod (BitVec.ofNat 32 s.length)
      rw [BitVec.toInt]
      split
      · simp only [BitVec.toNat_ofNat, Int.toNat_natCast]; omega
      · simp only [BitVec.toNat_ofNat]; omega
    rw [if_pos (decide_eq_true hc)] at x6
    obtain ⟨_, t7, m7, r7, h7, x7, rfl⟩ := T.bind_cases x5
    obtain ⟨_, t8, m8, r8, h8, x8, rfl⟩ := T.bind_cases x6
    obtain ⟨-, -, rfl⟩ := pure_cases x7
    obtain ⟨-, -, rfl⟩ := pure_cases x8
    congr 1
    exact (Vernam.loop_shows hb (f := fun _ _ => []) (fun _ _ _ _ => rfl) (fun h => Vernam.encryptRound_cases h) _
      (agree_of hs hs2 hk hkk hn) h7 h8).2.mpr (fun _ _ _ _ _ _ _ _ => rfl)
  · rename_i hc
    rw [if_neg hc] at x6
    rw [(pure_cases x5).2.2, (pure_cases x6).2.2]

theorem negative_letter {cs : Bool} {c k : Byte} (hc : kind c = 1 ∨ kind c = 3) (hk : kind k = 1 ∨ kind k = 3) :
    Vernam.negative cs c k = decide (letter c < letter k) := by
  revert c k cs
  have : ∀ x : Byte, kind x = 1 ∨ kind x = 3 → ∀ cs, charVal cs x - (if kind x = 1 then 65 else 97) = letter x := by
    decide +kernel
  intro cs c k hc hk
  have h3 : (if kind k = 3 then (97 : Int) else 65) = if kind k = 1 then 65 else 97 := by
    rcases hk with e | e <;> rw [e] <;> rfl
  unfold Vernam.negative
  rw [h3, this c hc, this k hk, decide_eq_decide]
  omega

/-- C98: of `VernamCipher_decrypt` an observer sees the kinds of the characters and, for every letter of the message,
whether it comes before the letter of the key in the alphabet.  For two messages and keys of the same kinds the
observations are the same exactly if these comparisons are. -/
theorem C98_decrypt {cs : Bool} {bm om bk ok : Nat} (hb : bm ≠ bk) {n : U32} {m m2 m' m2' : Mem} {s s2 k k2 : List Byte}
    (hs : CStr (m.bytes bm) om s) (hs2 : CStr (m2.bytes bm) om s2) (hk : s.map kind = s2.map kind)
    (ek : k = slice (m.bytes bk) ok s.length) (ek2 : k2 = slice (m2.bytes bk) ok s.length)
    (hkk : k.map kind = k2.map kind) (hkr : ok + s.length ≤ (m.bytes bk).length)
    (hkl : ∀ x ∈ k, kind x = 1 ∨ kind x = 3) (hn : n.toInt = s.length) {a a2 : Bool}
    {t t2 : List Leak} (h : Vernam.decryptT cs (ptr bm om) (ptr bk ok) n m = .ok (a, t) m')
    (h2 : Vernam.decryptT cs (ptr bm om) (ptr bk ok) n m2 = .ok (a2, t2) m2') :
    t = t2 ↔ ∀ (i : Nat) (c c2 x x2 : Byte), s[i]? = some c → s2[i]? = some c2 → k[i]? = some x → k2[i]? = some x2 →
      kind c = 1 ∨ kind c = 3 → (letter c < letter x ↔ letter c2 < letter x2) := by
  have hlen : s.length = s2.length := by simpa using congrArg List.length hk
  unfold Vernam.decryptT at h h2
  obtain ⟨l, t3, m3, r3, h3, x3, rfl⟩ := T.bind_cases h
  obtain ⟨l', t4, m4, r4, h4, x4, rfl⟩ := T.bind_cases h2
  obtain ⟨h5, rfl⟩ := Vernam.strlenT_cases h3
  obtain ⟨h6, rfl⟩ := Vernam.strlenT_cases h4
  rw [strlen_ok hs] at h5
  rw [strlen_ok hs2] at h6
  cases h5
  cases h6
  rw [← hlen] at x4 ⊢
  obtain ⟨r5, x5, rfl⟩ := Vernam.branch_exact x3
  obtain ⟨r6, x6, rfl⟩ := Vernam.branch_exact x4
  have hc : BitVec.ofNat 32 s.length = n := by
    apply BitVec.eq_of_toNat_eq
    have h0 := n.isLt
    rw [BitVec.toInt] at hn
    rw [BitVec.toNat_ofNat]
    split at hn <;> omega
  rw [if_pos (decide_eq_true hc)] at x5 x6
  obtain ⟨_, t7, m7, r7, h7, x7, rfl⟩ := T.bind_cases x5
  obtain ⟨_, t8, m8, r8, h8, x8, rfl⟩ := T.bind_cases x6
  obtain ⟨-, -, rfl⟩ := pure_cases x7
  obtain ⟨-, -, rfl⟩ := pure_cases x8
  have hnn : n.toInt.toNat = s.length := by rw [hn]; rfl
  have key := (Vernam.loop_shows hb (f := fun c k => [.branch (Vernam.negative cs c k)]) (fun _ _ _ _ => rfl)
    (fun h => Vernam.decryptRound_cases h) _ (agree_of hs hs2 hk (by rw [← ek, ← ek2]; exact hkk) (Nat.le_of_eq hnn)) h7 h8).2
  rw [List.append_cancel_left_eq, List.cons.injEq, List.append_nil, List.append_nil, key, hnn]
  have hk2 : ∀ x ∈ k2, kind x = 1 ∨ kind x = 3 := by
    intro x hx
    obtain ⟨y, hy, e⟩ := List.mem_map.mp (hkk ▸ List.mem_map_of_mem (f := kind) hx : kind x ∈ k.map kind)
    rw [← e]; exact hkl y hy
  simp only [List.cons.injEq, Leak.branch.injEq, and_true, true_and]
  constructor
  · intro h i c c2 x x2 hc hc2 hx hx2 hl
    have hi : i < s.length := (List.getElem?_eq_some_iff.mp hc).1
    have := h i (Nat.zero_le _) (by omega) c c2 (by rw [hs.get hi, hc]) (by rw [hs2.get (by omega), hc2])
      (by simpa using hl)
    have gx : (m.bytes bk)[ok + i]? = some x := by rw [ek, getElem?_slice, if_pos hi] at hx; exact hx
    have gx2 : (m2.bytes bk)[ok + i]? = some x2 := by rw [ek2, getElem?_slice, if_pos hi] at hx2; exact hx2
    have hl2 : kind c2 = 1 ∨ kind c2 = 3 := by
      have := congrArg (·[i]?) hk
      simp only [List.getElem?_map, hc, hc2, Option.map_some, Option.some.injEq] at this
      rw [← this]; exact hl
    rw [gx, gx2, Option.getD_some, Option.getD_some, negative_letter hl (hkl x (List.mem_of_getElem? hx)),
      negative_letter hl2 (hk2 x2 (List.mem_of_getElem? hx2)), decide_eq_decide] at this
    exact this
  · intro h i _ hi c c2 hc hc2 hl
    have hi : i < s.length := by omega
    rw [hs.get hi] at hc
    rw [hs2.get (by omega)] at hc2
    have hl : kind c = 1 ∨ kind c = 3 := by simpa using hl
    have hl2 : kind c2 = 1 ∨ kind c2 = 3 := by
      have := congrArg (·[i]?) hk
      simp only [List.getElem?_map, hc, hc2, Option.map_some, Option.some.injEq] at this
      rw [← this]; exact hl
    have l1 : k.length = s.length := by rw [ek, slice_length _ _ _ hkr]
    have l2 : k.length = k2.length := by simpa using congrArg List.length hkk
    have hx : k[i]? = some k[i] := List.getElem?_eq_getElem (by omega)
    have hx2 : k2[i]? = some k2[i] := List.getElem?_eq_getElem (by omega)
    have gx : (m.bytes bk)[ok + i]? = some k[i] := by
      rw [← hx, ek, getElem?_slice, if_pos hi]
    have gx2 : (m2.bytes bk)[ok + i]? = some k2[i] := by
      rw [← hx2, ek2, getElem?_slice, if_pos hi]
    rw [gx, gx2, Option.getD_some, Option.getD_some, negative_letter hl (hkl _ (List.mem_of_getElem? hx)),
      negative_letter hl2 (hk2 _ (List.mem_of_getElem? hx2)), decide_eq_decide]
    exact h i c c2 _ _ hc hc2 hx hx2 hl

/-- What a run showed. -/
def leakTrace {α : Type} (r : Res (α × List Leak)) : Option (List Leak) :=
  match r with
  | .ok (_, t) _ => some t
  | .ub _ => none

/-- Non-vacuity, and the leak: encryption of "Cat" with "KEY" looks like that of "Dog" with "ABC", decryption does not
(`C` comes before `K`, `D` does not come before `A`). -/
example :
    (leakTrace (Vernam.encryptT (ptr 0 0) (ptr 1 0) 3 (mem2 (ascii "Cat" ++ [0]) (ascii "KEY")))).isSome ∧
    leakTrace (Vernam.encryptT (ptr 0 0) (ptr 1 0) 3 (mem2 (ascii "Cat" ++ [0]) (ascii "KEY"))) =
      leakTrace (Vernam.encryptT (ptr 0 0) (ptr 1 0) 3 (mem2 (ascii "Dog" ++ [0]) (ascii "ABC"))) ∧
    (leakTrace (Vernam.decryptT true (ptr 0 0) (ptr 1 0) 3 (mem2 (ascii "Cat" ++ [0]) (ascii "KEY")))).isSome ∧
    leakTrace (Vernam.decryptT true (ptr 0 0) (ptr 1 0) 3 (mem2 (ascii "Cat" ++ [0]) (ascii "KEY"))) ≠
      leakTrace (Vernam.decryptT true (ptr 0 0) (ptr 1 0) 3 (mem2 (ascii "Dog" ++ [0]) (ascii "ABC"))) ∧
    (ascii "Cat").map kind = (ascii "Dog").map kind ∧ (ascii "KEY").map kind = (ascii "ABC").map kind := by
  decide +kernel

end IMU.Props
