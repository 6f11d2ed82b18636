import Verif.Props.CrcForge
import Verif.Props.ChaCha20

/-!
# Property C128: an encrypted checksum is no authentication either
-/

namespace IMU.Props
open Spec Spec.Crc Utils

/-- Byte by byte exclusive or. -/
def xorBytes (a b : List Byte) : List Byte := List.zipWith (· ^^^ ·) a b

theorem chacha20_xor (key nonce : List Byte) (inc : U32) (x d : List Byte) :
    chacha20 key inc nonce (xorBytes (chacha20 key inc nonce x) d) = xorBytes x d := by
  apply List.ext_getElem?
  intro i
  simp only [chacha20, xorBytes, List.getElem?_mapIdx, List.getElem?_zipWith]
  cases x[i]? with
  | none => rfl
  | some a =>
    cases d[i]? with
    | none => rfl
    | some b =>
      simp only [Option.map_some, Option.some.injEq]
      generalize keyStream key inc nonce i = k
      rw [BitVec.xor_assoc, BitVec.xor_comm b, ← BitVec.xor_assoc, BitVec.xor_assoc a, BitVec.xor_self, BitVec.xor_zero]

/-- C128: a frame (message with its checksum) that passes the residue check is encrypted with Chacha20_crypt, changed on its
way by the bytes `d`, and decrypted in the receiver's memory.  The receiver gets the frame changed by `d`, and the check
passes exactly if the plain remainder of `d` is zero: neither key nor nonce nor message matter. -/
theorem C128_change {w : Nat} {e : Entry w} {f : CrcFn w} (hf : Shipped w e f) {m n m1 : Mem} (L inc : U32)
    {ks bp po bk ok bn on br ro ks' bp' po' bk' ok' bn' on' br' ro' : Nat}
    (h : ChaCha.Args m ks bp po bk ok bn on br ro L.toNat)
    (h' : ChaCha.Args n ks' bp' po' bk' ok' bn' on' br' ro' L.toNat)
    (hk : slice (n.bytes bk') ok' 32 = slice (m.bytes bk) ok 32)
    (hn : slice (n.bytes bn') on' 12 = slice (m.bytes bn) on 12)
    (hr : f (ptr bp po) L true none m = .ok (residue e.params) m)
    (hs : ChaCha.crypt ks (ptr bp po) L (ptr bk ok) (ptr bn on) inc (ptr br ro) m = .ok () m1)
    (d : List Byte) (hd : d.length = L.toNat)
    (hc : slice (n.bytes bp') po' L.toNat = xorBytes (slice (m1.bytes br) ro L.toNat) d) :
    ∃ n1, ChaCha.crypt ks' (ptr bp' po') L (ptr bk' ok') (ptr bn' on') inc (ptr br' ro') n = .ok () n1 ∧
      slice (n1.bytes br') ro' L.toNat = xorBytes (slice (m.bytes bp) po L.toNat) d ∧
      (f (ptr br' ro') L true none n1 = .ok (residue e.params) n1 ↔
        crc { e.params with init := 0#w, xorout := 0#w } d = 0#w) := by
  obtain ⟨m1', a1, a2, -⟩ := C47_rfc8439 L inc h
  obtain rfl : m1 = m1' := by
    have := hs.symm.trans a1
    injection this
  obtain ⟨n1, b1, b2, b3⟩ := C47_rfc8439 L inc h'
  rw [hc, a2, hk, hn, chacha20_xor] at b2
  refine ⟨n1, b1, b2, ?_⟩
  have hin : ro' + L.toNat ≤ (n1.bytes br').length := by rw [b3.2.2.1]; exact h'.res
  rw [C72_published hf hin, b2]
  rw [C72_published hf h.msg] at hr
  have hr : crc e.params (slice (m.bytes bp) po L.toNat) = residue e.params := by injection hr
  have hx : (slice (m.bytes bp) po L.toNat).length = L.toNat := slice_length _ _ _ h.msg
  have hl : (slice (m.bytes bp) po L.toNat).length = (xorBytes (slice (m.bytes bp) po L.toNat) d).length := by
    simp [xorBytes, hx, hd]
  have key := Crc.crc_xor e.params e.params.init e.params.init _ _ hl
  rw [BitVec.xor_self] at key
  have hz : List.zipWith (· ^^^ ·) (slice (m.bytes bp) po L.toNat) (xorBytes (slice (m.bytes bp) po L.toNat) d) = d := by
    apply List.ext_getElem?
    intro i
    simp only [xorBytes, List.getElem?_zipWith]
    by_cases hi : i < L.toNat
    · rw [List.getElem?_eq_getElem (by rw [hx]; exact hi), List.getElem?_eq_getElem (by rw [hd]; exact hi)]
      simp [← BitVec.xor_assoc]
    · rw [List.getElem?_eq_none (by omega), List.getElem?_eq_none (by omega)]
  rw [hz] at key
  have key : residue e.params ^^^ crc e.params (xorBytes (slice (m.bytes bp) po L.toNat) d) =
      crc { e.params with init := 0#w, xorout := 0#w } d := by rw [← hr]; exact key
  rw [← key]
  constructor
  · intro hh
    injection hh with hh
    rw [hh, BitVec.xor_self]
  · intro hh
    rw [BitVec.xor_eq_zero_iff] at hh
    rw [← hh]

/-- C128: for every change of the message there is exactly one change of the checksum's place with which the frame passes; it
depends on nothing but the change of the message. -/
theorem C128_fix {w k : Nat} {e : Entry w} {f : CrcFn w} (hf : Shipped w e f) (hw : w = 8 * k) (d : List Byte) :
    ∃! t : List Byte, t.length = k ∧ crc { e.params with init := 0#w, xorout := 0#w } (d ++ t) = 0#w := by
  have := C82_forge hw { e.params with init := 0#w, xorout := 0#w } (Crc.shipped_impl hf).odd d [] 0#w
  simpa using this

/-- C128: the fix, computed with the function itself: the difference of the checksums of two messages that differ as wanted,
as bytes in the order of the frame. -/
theorem C128_fix_value {w k : Nat} {e : Entry w} {f : CrcFn w} (hf : Shipped w e f) (hw : w = 8 * k) {m : Mem} {p q : Piece}
    (hp : p.In m) (hq : q.In m) (hl : p.n = q.n) {t : List Byte} (ht : t.length = k) :
    ∃ c c', f (ptr p.b p.o) p.n true none m = .ok c m ∧ f (ptr q.b q.o) q.n true none m = .ok c' m ∧
      (crc { e.params with init := 0#w, xorout := 0#w } (xorBytes (p.data m) (q.data m) ++ t) = 0#w ↔
        (if e.params.refin then valueLE t else valueBE t) = (c ^^^ c').toNat) := by
  obtain ⟨c, c', h1, h2, h3⟩ := C17_affine hf hp hq hl
  refine ⟨c, c', h1, h2, ?_⟩
  have hi := Crc.shipped_impl hf
  have := C73_residue { e.params with init := 0#w, xorout := 0#w } hi.odd hi.same (xorBytes (p.data m) (q.data m)) t (by omega)
  rw [h3]
  have hz : residue { e.params with init := 0#w, xorout := 0#w } = 0#w := by
    have h0 : (if e.params.refout then (0#w).reverse else 0#w) = 0#w := by
      have : (0#w).reverse = 0#w := by
        apply BitVec.eq_of_getLsbD_eq
        intro i hi
        simp [BitVec.getLsbD_reverse]
      rw [this, ite_self]
    have hx := Crc.crc_xor e.params 0#w 0#w (List.replicate (w / 8) 0#8) (List.replicate (w / 8) 0#8) rfl
    rw [BitVec.xor_self, BitVec.xor_self] at hx
    have hr : List.zipWith (· ^^^ ·) (List.replicate (w / 8) 0#8) (List.replicate (w / 8) 0#8) = List.replicate (w / 8) 0#8 := by
      simp
    rw [hr] at hx
    simp only [residue]
    rw [h0]
    exact hx.symm
  rw [hz] at this
  exact this

/-- Non-vacuity: "pay 10" with its Crc16_ccitFalse passes the check; the change 0 0 0 0 8 9 of the message, which makes it
"pay 99", is fixed by the change 0x18 0x80 of the checksum; and sender and receiver can be set up in one memory. -/
example : crc ⟨0x1021#16, 0xFFFF#16, false, false, 0#16⟩ [0x70#8, 0x61#8, 0x79#8, 0x20#8, 0x31#8, 0x30#8, 0xCF#8, 0x32#8] =
      residue ⟨0x1021#16, 0xFFFF#16, false, false, 0#16⟩ ∧
    crc ⟨0x1021#16, 0#16, false, false, 0#16⟩ [0#8, 0#8, 0#8, 0#8, 8#8, 9#8, 0x18#8, 0x80#8] = 0#16 ∧
    ChaCha.Args memC 2 0 0 1 0 1 32 0 100 8 ∧ ChaCha.Args memC 2 0 100 1 0 1 32 0 150 8 := by
  refine ⟨by decide +kernel, by decide +kernel, ?_, ?_⟩ <;> constructor <;> decide +kernel

end IMU.Props
