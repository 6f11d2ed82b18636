import Verif.Proofs.Ilp32
import Verif.Proofs.JsonBuild
import Verif.Props.Base64
import Verif.Props.Json

/-!
# Properties C99 and C100: Src/base64.c and Src/json.c where `size_t` has 32 bits
-/

namespace IMU.Props
open Spec

/-! ### C99 -/

/-- Where `size_t` has 32 bits `Base64_encode` does what it does where it has 64 bits if the length of the text,
4 * ceil(n / 3), is a 32-bit number, and otherwise reports failure without touching anything. -/
theorem C99_encode (data : Ptr) (n : U32) (result : Ptr) (mx : U32) (m : Mem) :
    (4 * ((n.toNat + 2) / 3) < 2 ^ 32 →
      Base64.encode32 data n result mx m = Base64.encode data (n.setWidth 64) result (mx.setWidth 64) m) ∧
    (2 ^ 32 ≤ 4 * ((n.toNat + 2) / 3) → Base64.encode32 data n result mx m = .ok 1 m) := by
  rw [Base64.encode_up]
  constructor
  · intro h; rw [if_pos h]
  · intro h; rw [if_neg (by omega)]; rfl

/-- `Base64_decode` does the same for all arguments. -/
theorem C99_decode (inp : Ptr) (n : U32) (out : Ptr) (mx : U32) (m : Mem) :
    Base64.decode32 inp n out mx m = Base64.decode inp (n.setWidth 64) out (mx.setWidth 64) m := by
  rw [Base64.decode_up]

/-- Decoding the text of at least three bytes restores them, on a target with 32-bit `size_t`. -/
theorem C99_round_trip {m : Mem} {bi oi bp op bo oo : Nat} {n mx mo : U32}
    (hread : oi + n.toNat ≤ (m.bytes bi).length)
    (hapart : bi ≠ bp ∨ oi + n.toNat ≤ op ∨ op + (b64 m bi oi n.toNat).length ≤ oi)
    (hmx : 4 * ((n.toNat + 2) / 3) ≤ mx.toNat)
    (hroom : op + 4 * ((n.toNat + 2) / 3) + 1 ≤ (m.bytes bp).length)
    (hn3 : 3 ≤ n.toNat) (hmo : n.toNat ≤ mo.toNat) (hout : oo + n.toNat ≤ (m.bytes bo).length)
    (hap : bp ≠ bo ∨ op + 4 * ((n.toNat + 2) / 3) ≤ oo ∨ oo ≤ op) :
    ∃ m1 m2, Base64.encode32 (ptr bi oi) n (ptr bp op) mx m = .ok 0 m1 ∧
      CStr (m1.bytes bp) op (b64 m bi oi n.toNat) ∧
      Base64.decode32 (ptr bp op) (4#32 * ((n + 2#32) / 3#32)) (ptr bo oo) mo m1 = .ok 0 m2 ∧
      slice (m2.bytes bo) oo n.toNat = slice (m.bytes bi) oi n.toNat := by
  have hl := b64_length hread
  have hmx' := mx.isLt
  have hn' : (n.setWidth 64).toNat = n.toNat := up_nat n
  have h : EncArgs m bi oi bp op (n.setWidth 64) :=
    ⟨by rw [hn']; exact hread, by rw [hn']; exact hapart, by rw [hn', hl]; omega⟩
  have hc1 : (b64 m bi oi (n.setWidth 64).toNat).length ≤ (mx.setWidth 64).toNat := by rw [hn', hl, up_nat]; exact hmx
  have hc2 : op + (b64 m bi oi (n.setWidth 64).toNat).length + 1 ≤ (m.bytes bp).length := by rw [hn', hl]; exact hroom
  obtain ⟨m1', e1, e2, -⟩ := C58_encode h hc1 hc2
  obtain ⟨m1, m2, a1, a2, a3⟩ := C59_round_trip (mo := mo.setWidth 64) h hc1 hc2 (by rw [hn']; exact hn3)
    (by rw [hn', up_nat]; exact hmo) (by rw [hn']; exact hout) (by rw [hn', hl]; exact hap)
  rw [a1] at e1
  cases e1
  rw [hn'] at e2 a3
  refine ⟨m1', m2, ?_, e2, ?_, a3⟩
  · rw [(C99_encode _ _ _ _ _).1 (by omega)]; exact a1
  · rw [C99_decode]
    have : (4#32 * ((n + 2#32) / 3#32)).setWidth 64 = BitVec.ofNat 64 (b64 m bi oi (n.setWidth 64).toNat).length := by
      apply BitVec.eq_of_toNat_eq
      rw [hn', hl, up_nat]
      simp only [BitVec.toNat_mul, BitVec.toNat_udiv, BitVec.toNat_add, BitVec.toNat_ofNat, Nat.reducePow, Nat.reduceMod]
      rw [Nat.mod_eq_of_lt (a := n.toNat + 2) (by omega), Nat.mod_eq_of_lt (b := 4294967296) (by omega),
        Nat.mod_eq_of_lt (by omega)]
    rw [this]
    exact a2

/-- Non-vacuity: four bytes through a text buffer of nine bytes. -/
example : ∃ m1 m2, Base64.encode32 (ptr 0 0) 4#32 (ptr 1 0) 8#32
      (memL [[1, 2, 3, 4], List.replicate 9 0, List.replicate 4 0]) = .ok 0 m1 ∧
    CStr (m1.bytes 1) 0 (ascii "AQIDBA==") ∧
    Base64.decode32 (ptr 1 0) (4#32 * ((4#32 + 2#32) / 3#32)) (ptr 2 0) 4#32 m1 = .ok 0 m2 ∧
    slice (m2.bytes 2) 0 4 = [1, 2, 3, 4] :=
  C99_round_trip (m := memL [[1, 2, 3, 4], List.replicate 9 0, List.replicate 4 0]) (bi := 0) (oi := 0) (bp := 1) (op := 0)
    (bo := 2) (oo := 0) (n := 4#32) (mx := 8#32) (mo := 4#32) (by decide) (.inl (by decide)) (by decide) (by decide)
    (by decide) (by decide) (by decide) (.inl (by decide))

/-- Non-vacuity: the first length whose text is too long, and the last one whose text is not. -/
example : 2 ^ 32 ≤ 4 * (((0xBFFFFFFE#32).toNat + 2) / 3) ∧ 4 * (((0xBFFFFFFD#32).toNat + 2) / 3) < 2 ^ 32 := by decide

/-! ### C100 -/

/-- Where `size_t` has 32 bits, so that no object has 2^32 bytes, the functions of json.c do what they do where it
has 64 bits; `Json_addData` if the objects of buffer, key and value together have less than 2^32 - 4 bytes,
`Json_endString` if the text has less than 2^32 - 2 characters. -/
theorem C100_same (b k v : Ptr) (n mx : U32) (m : Mem) (hm : ∀ x, (m.bytes x).length < 2 ^ 32) :
    Json.startString32 b n m = Json.startString b (n.setWidth 64) m ∧
    ((m.bytes b.blk).length + (m.bytes k.blk).length + (m.bytes v.blk).length + 4 < 2 ^ 32 →
      Json.addData32 b n k v m = Json.addData b (n.setWidth 64) k v m) ∧
    ((∀ s m', strlen b m = .ok s m' → s + 2 < 2 ^ 32) →
      Json.endString32 b n m = Json.endString b (n.setWidth 64) m) ∧
    Json.findByKey32 b n k v mx m = Json.findByKey b (n.setWidth 64) k v (mx.setWidth 64) m :=
  ⟨by rw [Json.startString_up], Json.addData_up hm, Json.endString_up hm, Json.findByKey_up hm⟩

/-- Non-vacuity: `{"a":"1"` and the value of `a`, with 32-bit sizes. -/
example : ∃ m', Json.addData32 (ptr 0 0) 9 (ptr 1 0) (ptr 1 2) (memL [123 :: List.replicate 8 0, [97, 0, 49, 0]]) =
    .ok true m' ∧ m'.bytes 0 = ascii "{\"a\":\"1\"" ++ [0] := of_ends (by decide +kernel)
example : ∃ m', Json.findByKey32 (ptr 0 0) 9 (ptr 1 0) (ptr 2 0) 2 (memL [ascii "{\"a\":\"1\"" ++ [0], [97, 0], [7, 7]]) =
    .ok true m' ∧ m'.bytes 2 = [49, 0] := of_ends (by decide +kernel)

/-- The condition on `Json_addData` is needed.  If the length of the new text reaches 2^32 the sum wraps, the check
passes, and the key is copied past the end of the buffer; with 64 bits the call is refused.  Key and value may be the
same string, so strings of 2^31 characters suffice. -/
theorem C100_wraps {m : Mem} {b o bk ok bv ov : Nat} {n : U32} {t k v : List Byte}
    (hm : ∀ x, (m.bytes x).length < 2 ^ 32)
    (ht : CStr (m.bytes b) o t) (hk : CStr (m.bytes bk) ok k) (hv : CStr (m.bytes bv) ov v) (hn : t ≠ [])
    (hq : t.getLast? ≠ some 34#8) (hbk : bk ≠ b) (hroom : o + t.length + 2 ≤ (m.bytes b).length)
    (hkey : (m.bytes b).length < o + t.length + k.length + 2)
    (hwrap : 2 ^ 32 ≤ (t ++ Json.member k v).length + 1) (hle : (t ++ Json.member k v).length + 1 ≤ 2 ^ 32 + n.toNat) :
    Json.addData32 (ptr b o) n (ptr bk ok) (ptr bv ov) m = .ub .oobWrite ∧
    Json.addData (ptr b o) (n.setWidth 64) (ptr bk ok) (ptr bv ov) m = .ok false m := by
  have hml : (t ++ Json.member k v).length = t.length + k.length + v.length + 5 := by
    simp only [Json.member, Json.str, List.length_append, List.length_cons, List.length_nil]; omega
  have hlt := ht.lt
  have hkl := hk.lt
  have hvl := hv.lt
  have m1 := hm b
  have m2 := hm bk
  have m3 := hm bv
  have hn32 := n.isLt
  refine ⟨?_, Json.addData_same ht hk hv hn (by omega) hq (by rw [up_nat]; omega)⟩
  have hc : Json.addComma32 (ptr b o) (BitVec.ofNat 32 t.length) m = .ok (BitVec.ofNat 32 t.length) m := by
    have h64 := Json.addComma_none ht hn (by omega) hq
    rcases Json.addComma_up (b := ptr b o) (i := t.length) hm (by show (0 : Int) ≤ (o : Int); omega) (by omega) with
      ⟨e, -, c2⟩ | ⟨m', j, hj, hj', c1, c2⟩
    · rw [h64] at c2; cases c2
    · rw [h64] at c2
      have hj2 : BitVec.ofNat 64 t.length = BitVec.ofNat 64 j ∧ m = m' := by injection c2 with a b; exact ⟨a, b⟩
      have := congrArg BitVec.toNat hj2.1
      simp only [BitVec.toNat_ofNat] at this
      have : j = t.length := by omega
      subst this
      rw [c1, hj2.2]
  unfold Json.addData32
  rw [C.bind_ok (strlen_ok ht), C.bind_ok (strlen_ok hk), C.bind_ok (strlen_ok hv), C.bind_ok hc, if_pos, C.bind_ub]
  · obtain ⟨m', a1, -, a3⟩ := Json.strcpyLit_ok (s := [34#8]) ht (by decide) (by simp; omega)
    unfold Json.addMember32
    rw [Json.toNat_of (by omega), ptr_addN, C.bind_ok a1, C.bind_ub]
    have i1 : (BitVec.ofNat 32 t.length + 1#32).toNat = t.length + 1 := by
      simp only [BitVec.toNat_add, BitVec.toNat_ofNat]; omega
    have hk' : CStr (m'.bytes bk) ok k := by rw [a3.2.1 bk hbk]; exact hk
    unfold strcpy
    rw [i1, ptr_addN, C.bind_ok (strlen_ok hk')]
    unfold memcpy
    rw [overlaps_blk _ (show b ≠ bk from fun h => hbk h.symm), if_neg (by decide),
      C.bind_ok (loadN_ok (by have := hk'.lt; omega)), storeN_oob]
    · intro h
      have := congrArg List.length h
      rw [slice_length _ _ _ (by have := hk'.lt; omega)] at this
      cases this
    · rw [slice_length _ _ _ (by have := hk'.lt; omega), a3.2.2.1]
      omega
  · rw [BitVec.le_def]
    have e : 5#32 + BitVec.ofNat 32 k.length + BitVec.ofNat 32 v.length + 1#32 + BitVec.ofNat 32 t.length =
        BitVec.ofNat 32 (t.length + k.length + v.length + 6) := by
      apply BitVec.eq_of_toNat_eq
      simp only [BitVec.toNat_add, BitVec.toNat_ofNat]
      omega
    rw [e, BitVec.toNat_ofNat]
    omega

/-- Non-vacuity: any string of 2^31 - 3 characters both as key and as value, a buffer of 16 bytes holding `{`. -/
example (k : List Byte) (hlen : k.length = 2147483645) (hmem : 0#8 ∉ k) :
    Json.addData32 (ptr 0 0) 16 (ptr 1 0) (ptr 1 0)
      ⟨fun x => if x = 0 then 123#8 :: List.replicate 15 0#8 else if x = 1 then k ++ [0#8] else [], fun _ => []⟩ =
      .ub .oobWrite := by
  have hl : (k ++ [0#8]).length = 2147483646 := by rw [List.length_append, hlen, List.length_singleton]
  have hml : ([123#8] ++ Json.member k k).length = 4294967296 := by
    simp only [Json.member, Json.str, List.length_append, List.length_cons, List.length_nil]; omega
  refine (C100_wraps (t := [123#8]) (k := k) (v := k) ?_ ⟨by decide, List.replicate 14 0#8, rfl⟩
    ⟨hmem, [], rfl⟩ ⟨hmem, [], rfl⟩ (by decide) (by decide) (by decide) (show 3 ≤ 16 by decide) ?_ ?_ ?_).1
  · intro x
    show (if x = 0 then 123#8 :: List.replicate 15 0#8 else if x = 1 then k ++ [0#8] else []).length < 2 ^ 32
    split
    · decide
    · split
      · omega
      · decide
  · show 16 < 0 + 1 + k.length + 2
    omega
  · omega
  · show _ ≤ 2 ^ 32 + 16
    omega
example : ∃ k : List Byte, k.length = 2147483645 ∧ 0#8 ∉ k :=
  have h : ∀ n, ∃ k : List Byte, k.length = n ∧ 0#8 ∉ k := fun n =>
    ⟨List.replicate n 65#8, List.length_replicate, fun h => absurd (List.eq_of_mem_replicate h) (by decide)⟩
  h _

/-- C100: the condition on `Json_endString` is needed.  Behind the longest text that a buffer can hold, 2^32 - 2 characters, the
sum wraps to 0, so the check passes for every stated size and the bracket is written past the end of the buffer; with 64 bits
the call is refused. -/
theorem C100_end_wraps {m : Mem} {b o : Nat} {n : U32} {t : List Byte} (hm : ∀ x, (m.bytes x).length < 2 ^ 32)
    (ht : CStr (m.bytes b) o t) (hl : t.length + 2 = 2 ^ 32) :
    Json.endString32 (ptr b o) n m = .ub .oobWrite ∧ Json.endString (ptr b o) (n.setWidth 64) m = .ok false m := by
  have h1 := ht.lt
  have h2 := hm b
  have hn := n.isLt
  refine ⟨?_, Json.endString_fail ht (by omega) (by rw [up_nat]; omega)⟩
  unfold Json.endString32
  rw [C.bind_ok (strlen_ok ht), if_pos, ptr_addN, C.bind_ub (Json.strcpyLit_oob (by simp only [List.length_singleton]; omega))]
  rw [BitVec.le_def]
  simp only [BitVec.toNat_add, BitVec.toNat_ofNat]
  omega

/-- Non-vacuity: a buffer of 2^32 - 1 bytes filled with `x`. -/
example (n : U32) (k : List Byte) (hk : k = List.replicate (2 ^ 32 - 2) 120#8) :
    Json.endString32 (ptr 0 0) n ⟨fun x => if x = 0 then k ++ [0#8] else [], fun _ => []⟩ = .ub .oobWrite := by
  have hkl : k.length = 2 ^ 32 - 2 := by rw [hk, List.length_replicate]
  refine (C100_end_wraps (t := k) ?_ ⟨?_, [], rfl⟩ (by omega)).1
  · intro x
    show (if x = 0 then k ++ [0#8] else []).length < 2 ^ 32
    split
    · rw [List.length_append, hkl]; simp
    · simp
  · rw [hk]
    exact fun h => absurd (List.eq_of_mem_replicate h) (by decide)

end IMU.Props
