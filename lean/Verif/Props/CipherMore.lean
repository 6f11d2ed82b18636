import Verif.Spec.Secrecy
import Verif.Props.Cipher
import Verif.Props.ChaCha20

/-!
# Properties C77 - C79: secrecy of the Vernam cipher, composition of Caesar shifts, reuse of a ChaCha20 key stream
-/

namespace IMU.Props
open Spec Utils

/-! ### C77: the one-time pad -/

/-- The capital letter at a place of the alphabet. -/
def capital (k : Nat) : Byte := BitVec.ofNat 8 (65 + k % 26)

theorem capital_toNat (k : Nat) : (capital k).toNat = 65 + k % 26 := by
  unfold capital; rw [BitVec.toNat_ofNat]; omega

theorem capital_capital (k : Nat) : Capital (capital k) := by
  have := capital_toNat k; unfold Capital; omega

theorem place_capital (k : Nat) : place (capital k) = k % 26 := by
  have := capital_toNat k; unfold place; rw [if_pos (by omega)]; omega

theorem capital_letter {c : Byte} (h : Capital c) : Letter c := Or.inl h

theorem capital_place {c : Byte} (h : Capital c) : capital (place c) = c := by
  apply BitVec.eq_of_toNat_eq
  rw [capital_toNat]
  unfold Capital at h
  unfold place
  rw [if_pos (by omega)]
  omega

/-- The place by which `c` has to move to become `d`. -/
def gap (c d : Byte) : Nat := (place d + 26 - place c) % 26

theorem rot_iff {c d : Byte} (k : Nat) (h : (Capital c ∧ Capital d) ∨ (Small c ∧ Small d)) :
    rot k c = d ↔ k % 26 = gap c d := by
  have hL : Letter c := by rcases h with h | h <;> [exact .inl h.1; exact .inr h.1]
  have hp := Vernam.place_lt hL
  rw [← BitVec.toNat_inj]
  rcases h with ⟨h1, h2⟩ | ⟨h1, h2⟩
  · have e1 : place c = c.toNat - 65 := by unfold place; unfold Capital at h1; rw [if_pos (by omega)]
    have e2 : place d = d.toNat - 65 := by unfold place; unfold Capital at h2; rw [if_pos (by omega)]
    rw [rot_toNat_upper k h1]
    unfold Capital at h1 h2
    unfold gap
    omega
  · have e1 : place c = c.toNat - 97 := by unfold place; unfold Small at h1; rw [if_neg (by omega)]
    have e2 : place d = d.toNat - 97 := by unfold place; unfold Small at h2; rw [if_neg (by omega)]
    rw [rot_toNat_lower k h1]
    unfold Small at h1 h2
    unfold gap
    omega

/-- C77: let `s` be a message of letters.  For every text `t` of the same shape there is exactly one key of capital
letters that encrypts `s` to `t`.  So the ciphertext under a random key says nothing about the message but its shape:
every message of that shape is encrypted to `t` by exactly one key. -/
theorem C77_one_key {s t : List Byte} (hs : ∀ c ∈ s, Letter c) (hst : SameShape s t) :
    ∃ key, key.length = s.length ∧ (∀ k ∈ key, Capital k) ∧
      ∀ {m : Mem} {bm om bk ok : Nat} {len : U32} {key' : List Byte}, (∀ k ∈ key', Capital k) →
        VernamArgs m bm om bk ok s key' len →
        ∃ m', Vernam.encrypt (ptr bm om) (ptr bk ok) len m = .ok true m' ∧ (CStr (m'.bytes bm) om t ↔ key' = key) := by
  have hlen := hst.1
  refine ⟨List.zipWith (fun c d => capital (gap c d)) s t, by simp [hlen], ?_, ?_⟩
  · intro k hk
    obtain ⟨i, hi, e⟩ := List.mem_iff_getElem.mp hk
    rw [List.getElem_zipWith] at e
    rw [← e]
    exact capital_capital _
  · intro m bm om bk ok len key' hk' h
    obtain ⟨m', h1, h2, -⟩ := C57_vernam_sum h (fun k hk => capital_letter (hk' k hk))
    refine ⟨m', h1, ?_⟩
    have hkl : key'.length = s.length := by rw [← h.key, slice_length _ _ _ h.key_room]
    have e0 : CStr (m'.bytes bm) om t ↔ vernam s key' = t := ⟨fun h3 => CStr.unique h2 h3, fun h3 => h3 ▸ h2⟩
    rw [e0]
    have point : ∀ (i : Nat) (h1 : i < s.length) (h2 : i < t.length) (h3 : i < key'.length),
        rot (place key'[i]) s[i] = t[i] ↔ key'[i] = capital (gap s[i] t[i]) := by
      intro i h1 h2 h3
      have hc := hst.2 i s[i] t[i] (List.getElem?_eq_getElem h1) (List.getElem?_eq_getElem h2)
      have hL := hs s[i] (List.getElem_mem _)
      have hcap := hk' key'[i] (List.getElem_mem _)
      have hp := Vernam.place_lt (capital_letter hcap)
      rw [rot_iff _ (by rcases hc with hc | hc | hc <;> [exact .inl hc; exact .inr hc; exact absurd hL hc.1]),
        Nat.mod_eq_of_lt hp]
      constructor
      · intro e; rw [← e, capital_place hcap]
      · intro e; rw [e, place_capital]; unfold gap; omega
    constructor
    · intro e
      apply List.ext_getElem
      · simp [hkl, hlen]
      · intro i i1 i2
        rw [List.getElem_zipWith]
        apply (point i (by omega) (by omega) i1).1
        have := congrArg (fun l => l[i]?) e
        simp only [vernam, List.getElem?_mapIdx, List.getElem?_eq_getElem (show i < s.length by omega),
          List.getElem?_eq_getElem (show i < t.length by omega), Option.map_some, Option.some.injEq] at this
        rw [← this]
        simp [i1]
    · intro e
      apply List.ext_getElem
      · simp [vernam, hlen]
      · intro i i1 i2
        have i0 : i < s.length := by omega
        have i3 : i < key'.length := by omega
        have := (point i i0 i2 i3).2 (by
          have := congrArg (fun l => l[i]?) e
          simp only [List.getElem?_eq_getElem i3] at this
          rw [List.getElem?_eq_getElem (by simp; omega), List.getElem_zipWith] at this
          exact Option.some.inj this)
        simp only [vernam, List.getElem_mapIdx]
        simpa [i3] using this

/-- C77: a key that is used twice gives away the distance of the two messages, letter by letter, whatever the (alphabetic)
key. -/
theorem C77_key_reuse {s t key : List Byte} (hk : ∀ k ∈ key, Letter k) {m n : Mem} {bm om bk ok bm' om' bk' ok' : Nat}
    {len : U32} (h : VernamArgs m bm om bk ok s key len) (h' : VernamArgs n bm' om' bk' ok' t key len) :
    ∃ m' n' x y, Vernam.encrypt (ptr bm om) (ptr bk ok) len m = .ok true m' ∧
      Vernam.encrypt (ptr bm' om') (ptr bk' ok') len n = .ok true n' ∧ CStr (m'.bytes bm) om x ∧ CStr (n'.bytes bm') om' y ∧
      ∀ (i : Nat) (a b c d : Byte), s[i]? = some a → t[i]? = some b → x[i]? = some c → y[i]? = some d →
        Letter a → Letter b → (place d + 26 - place c) % 26 = (place b + 26 - place a) % 26 := by
  obtain ⟨m', h1, h2, -⟩ := C57_vernam_sum h hk
  obtain ⟨n', h1', h2', -⟩ := C57_vernam_sum h' hk
  refine ⟨m', n', _, _, h1, h1', h2, h2', ?_⟩
  intro i a b c d ha hb hc hd hLa hLb
  simp only [vernam, List.getElem?_mapIdx, ha, hb, Option.map_some, Option.some.injEq] at hc hd
  rw [← hc, ← hd, place_rot _ hLa, place_rot _ hLb]
  have := Vernam.place_lt hLa
  have := Vernam.place_lt hLb
  omega

/-- Non-vacuity: "Attack" and "Defend" are both encrypted to "Lxfopv". -/
example : (∀ c ∈ ascii "Attack", Letter c) ∧ SameShape (ascii "Attack") (ascii "Lxfopv") ∧
    vernam (ascii "Attack") (ascii "LEMONL") = ascii "Lxfopv" ∧ vernam (ascii "Defend") (ascii "ITAKCS") = ascii "Lxfopv" := by
  refine ⟨by decide +kernel, ⟨by decide +kernel, ?_⟩, by decide +kernel, by decide +kernel⟩
  intro i c d hc hd
  have hi : i < 6 := by
    have := (List.getElem?_eq_some_iff.mp hc).1
    have e : (ascii "Attack").length = 6 := by decide +kernel
    omega
  rcases i with _ | _ | _ | _ | _ | _ | i
  all_goals first
    | omega
    | (cases hc; cases hd; decide +kernel)

/-! ### C78: Caesar shifts add up -/

theorem upd_upd' (m : Mem) (b : Nat) (x y : List Byte) : (m.upd b x).upd b y = m.upd b y := by
  unfold Mem.upd
  congr 1
  funext z
  by_cases hz : z = b <;> simp [hz]

/-- C78: encrypting twice is encrypting once with the sum of the shifts modulo 26. -/
theorem C78_shifts_add (m : Mem) (b o : Nat) (j k l : Byte) (s : List Byte) (hs : CStr (m.bytes b) o s)
    (hl : l.toNat % 26 = (j.toNat + k.toNat) % 26) :
    (do Caesar.encrypt (ptr b o) j; Caesar.encrypt (ptr b o) k : C Unit) m = Caesar.encrypt (ptr b o) l m := by
  obtain ⟨m1, a1, a2, a3⟩ := C53_encrypt m b o j s hs
  obtain ⟨m2, b1, b2, b3⟩ := C53_encrypt m1 b o k _ a2
  obtain ⟨m3, c1, c2, c3⟩ := C53_encrypt m b o l s hs
  rw [C.bind_ok a1, b1, c1]
  congr 1
  have e : (s.map (rot j.toNat)).map (rot k.toNat) = s.map (rot l.toNat) := by
    rw [List.map_map]
    apply List.map_congr_left
    intro c _
    simp only [Function.comp]
    rw [rot_rot, ← rot_mod (j.toNat + k.toNat), ← hl, rot_mod]
  rw [e] at b2
  have hlt := hs.lt
  rw [List.length_map] at b3
  apply onlyChanged_eq (b := b) (o := o) (n := s.length)
  · refine ⟨by rw [b3.1, a3.1, c3.1], fun x hx => by rw [b3.2.1 x hx, a3.2.1 x hx, c3.2.1 x hx],
      by rw [b3.2.2.1, a3.2.2.1, c3.2.2.1], ?_⟩
    intro i hi
    rw [b3.2.2.2 i hi, a3.2.2.2 i hi, c3.2.2.2 i hi]
  · rw [c3.2.2.1]; omega
  · apply List.ext_getElem?
    intro i
    rw [getElem?_slice, getElem?_slice]
    split
    · rename_i hi; rw [b2.get (by simpa using hi), c2.get (by simpa using hi)]
    · rfl

/-- C78: so there are no more than 26 different encryptions; shifts that agree modulo 26 are the same function, also on
arguments for which it is undefined. -/
theorem C78_period (m : Mem) (b o : Nat) (j k : Byte) (h : j.toNat % 26 = k.toNat % 26) :
    Caesar.encrypt (ptr b o) j m = Caesar.encrypt (ptr b o) k m := by
  by_cases h0 : 0#8 ∈ (m.bytes b).drop o
  · obtain ⟨s, hs⟩ : ∃ s, CStr (m.bytes b) o s := by
      obtain ⟨s, t, e, hn⟩ := List.eq_append_cons_of_mem h0
      exact ⟨s, hn, t, e⟩
    have e0 := C78_shifts_add m b o 0#8 j k s hs (by simpa using h.symm)
    have e1 := C78_shifts_add m b o 0#8 j j s hs (by simp)
    rw [← e0, ← e1]
  · rw [(C53_needs_nul m b o j h0).1, (C53_needs_nul m b o k h0).1]

/-- C78: and different ones on every message with a letter if they do not. -/
theorem C78_distinct (m : Mem) (b o : Nat) (j k : Byte) (s : List Byte) (hs : CStr (m.bytes b) o s) (c : Byte) (hc : c ∈ s)
    (hL : Letter c) (h : j.toNat % 26 ≠ k.toNat % 26) : Caesar.encrypt (ptr b o) j m ≠ Caesar.encrypt (ptr b o) k m := by
  obtain ⟨m1, a1, a2, -⟩ := C53_encrypt m b o j s hs
  obtain ⟨m2, b1, b2, -⟩ := C53_encrypt m b o k s hs
  rw [a1, b1]
  intro e
  injection e with _ e
  subst e
  have e := CStr.unique a2 b2
  obtain ⟨i, hi, rfl⟩ := List.mem_iff_getElem.mp hc
  have := congrArg (fun l => l[i]?) e
  simp only [List.getElem?_map, List.getElem?_eq_getElem hi, Option.map_some, Option.some.injEq] at this
  have := congrArg place this
  rw [place_rot _ hL, place_rot _ hL] at this
  have := Vernam.place_lt hL
  omega

/-- Non-vacuity: 20 and 200 make 220, that is 12. -/
example : (12#8).toNat % 26 = ((20#8).toNat + (200#8).toNat) % 26 ∧
    ((ascii "Hello").map (rot 20)).map (rot 200) = (ascii "Hello").map (rot 12) := by decide +kernel

/-! ### C79: reuse of the ChaCha20 key stream -/

/-- C79: two messages encrypted with the same key, nonce and counter: the xor of the ciphertexts is the xor of the messages
(on the common length). -/
theorem C79_reuse_leaks {m : Mem} {ks bp po bk ok bn on br ro bq qo bs so : Nat} (L L' inc : U32)
    (h : ChaCha.Args m ks bp po bk ok bn on br ro L.toNat) (h' : ChaCha.Args m ks bq qo bk ok bn on bs so L'.toNat) :
    ∃ m1 m2, ChaCha.crypt ks (ptr bp po) L (ptr bk ok) (ptr bn on) inc (ptr br ro) m = .ok () m1 ∧
      ChaCha.crypt ks (ptr bq qo) L' (ptr bk ok) (ptr bn on) inc (ptr bs so) m = .ok () m2 ∧
      ∀ i, i < L.toNat → i < L'.toNat →
        (m1.bytes br).getD (ro + i) 0 ^^^ (m2.bytes bs).getD (so + i) 0 =
          (m.bytes bp).getD (po + i) 0 ^^^ (m.bytes bq).getD (qo + i) 0 := by
  obtain ⟨m1, a1, a2⟩ := C47_bytes L inc h
  obtain ⟨m2, b1, b2⟩ := C47_bytes L' inc h'
  refine ⟨m1, m2, a1, b1, ?_⟩
  intro i hi hi'
  rw [a2 i hi, b2 i hi']
  generalize (rfcBlock _ _ _).getD _ _ = x
  rw [BitVec.xor_assoc, BitVec.xor_comm _ x, ← BitVec.xor_assoc x x, BitVec.xor_self, BitVec.zero_xor]

/-- C79: malleability: flipping bits of the ciphertext flips the same bits of the decrypted message. -/
theorem C79_malleable {m n : Mem} {ks bp po bk ok bn on br ro : Nat} (L inc : U32)
    (h : ChaCha.Args m ks bp po bk ok bn on br ro L.toNat) (h' : ChaCha.Args n ks bp po bk ok bn on br ro L.toNat)
    (ek : slice (n.bytes bk) ok 32 = slice (m.bytes bk) ok 32) (en : slice (n.bytes bn) on 12 = slice (m.bytes bn) on 12)
    (d : Nat → Byte) (hd : ∀ i, i < L.toNat → (n.bytes bp).getD (po + i) 0 = (m.bytes bp).getD (po + i) 0 ^^^ d i) :
    ∃ m1 n1, ChaCha.crypt ks (ptr bp po) L (ptr bk ok) (ptr bn on) inc (ptr br ro) m = .ok () m1 ∧
      ChaCha.crypt ks (ptr bp po) L (ptr bk ok) (ptr bn on) inc (ptr br ro) n = .ok () n1 ∧
      ∀ i, i < L.toNat → (n1.bytes br).getD (ro + i) 0 = (m1.bytes br).getD (ro + i) 0 ^^^ d i := by
  obtain ⟨m1, a1, a2⟩ := C47_bytes L inc h
  obtain ⟨n1, b1, b2⟩ := C47_bytes L inc h'
  refine ⟨m1, n1, a1, b1, ?_⟩
  intro i hi
  rw [a2 i hi, b2 i hi, hd i hi, ek, en]
  generalize (rfcBlock _ _ _).getD _ _ = x
  rw [BitVec.xor_assoc, BitVec.xor_comm (d i), ← BitVec.xor_assoc]

/-- C79: the ciphertext of a prefix is a prefix of the ciphertext. -/
theorem C79_prefix {m : Mem} {ks bp po bk ok bn on br ro : Nat} (L L' inc : U32) (hL : L'.toNat ≤ L.toNat)
    (h : ChaCha.Args m ks bp po bk ok bn on br ro L.toNat) (h' : ChaCha.Args m ks bp po bk ok bn on br ro L'.toNat) :
    ∃ m1 m2, ChaCha.crypt ks (ptr bp po) L (ptr bk ok) (ptr bn on) inc (ptr br ro) m = .ok () m1 ∧
      ChaCha.crypt ks (ptr bp po) L' (ptr bk ok) (ptr bn on) inc (ptr br ro) m = .ok () m2 ∧
      ∀ i, i < L'.toNat → (m1.bytes br).getD (ro + i) 0 = (m2.bytes br).getD (ro + i) 0 := by
  obtain ⟨m1, a1, a2⟩ := C47_bytes L inc h
  obtain ⟨m2, b1, b2⟩ := C47_bytes L' inc h'
  exact ⟨m1, m2, a1, b1, fun i hi => by rw [a2 i (by omega), b2 i hi]⟩

/-- Non-vacuity: two messages in object 0, results behind them. -/
example : ChaCha.Args memC 2 0 0 1 0 1 32 0 100 100 ∧ ChaCha.Args memC 2 0 50 1 0 1 32 0 100 30 := by
  refine ⟨?_, ?_⟩ <;> constructor <;> decide +kernel

end IMU.Props
