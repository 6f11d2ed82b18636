import Verif.Proofs.CrcReachTables
import Verif.Proofs.CrcReach32
import Verif.Props.CrcErrors

/-!
# CRC: property C105, how far the guaranteed detection of errors reaches

Specification: `Verif/Spec/CrcReach.lean`.
-/

namespace IMU.Props
open Spec Spec.Crc

/-- C105: the tables are right: for each polynomial the length in bits up to which all errors in at most `k` bits are
noticed, for every `k` for the 8-bit and 16-bit polynomials, for `k` up to 5 (4 for `0xA833982B`) for the 32-bit ones. -/
theorem C105_tables :
    (∀ x ∈ reach8, ∀ k, 2 ≤ k → IsReach x.1 k (x.2.getD (k - 2) 8)) ∧
    (∀ x ∈ reach16, ∀ k, 2 ≤ k → IsReach x.1 k (x.2.getD (k - 2) 16)) ∧
    (∀ x ∈ reach32, ∀ k, 2 ≤ k → k - 2 < x.2.length → IsReach x.1 k (x.2.getD (k - 2) 0)) :=
  ⟨Crc.reach8_ok, Crc.reach16_ok, Crc.reach32_ok⟩

/-- C105: there is only one such length. -/
theorem C105_unique {w : Nat} {P : BitVec w} {k n n' : Nat} (h : IsReach P k n) (h' : IsReach P k n') : n = n' := by
  have key : ∀ {a b : Nat}, IsReach P k a → IsReach P k b → ¬ a < b := by
    intro a b ha hb hlt
    obtain ⟨x, y, hx, hy, h1, h2, h3⟩ := ha.misses (a + 1) (by omega)
    exact hb.detects 0#w x y (by omega) (by omega) h1 h2 (h3 _)
  have := key h h'
  have := key h' h
  omega

/-- C105: every function has one for two, three and four bits. -/
theorem C105_all {w : Nat} {e : Entry w} {f : CrcFn w} (hf : Shipped w e f) {k : Nat} (h1 : 2 ≤ k) (h2 : k ≤ 4) :
    ∃ n, IsReach e.params.poly k n := by
  have h8 : ∀ e ∈ catalogue8, reach8.any (fun x => x.1 == e.params.poly) = true := by decide +kernel
  have h16 : ∀ e ∈ catalogue16, reach16.any (fun x => x.1 == e.params.poly) = true := by decide +kernel
  have h32 : ∀ e ∈ catalogue32, reach32.any (fun x => x.1 == e.params.poly) = true := by decide +kernel
  have hl : ∀ x ∈ reach32, 3 ≤ x.2.length := by decide +kernel
  have key : ∀ {w : Nat} {P : BitVec w} {l : List (BitVec w × List Nat)} {g : BitVec w × List Nat → Nat},
      (∀ x ∈ l, IsReach x.1 k (g x)) → l.any (fun x => x.1 == P) = true → ∃ n, IsReach P k n := by
    intro w P l g h ha
    obtain ⟨x, hx, hxe⟩ := List.any_eq_true.mp ha
    exact ⟨g x, (by simpa using hxe : x.1 = P) ▸ h x hx⟩
  cases hf with
  | crc8 _ he _ => exact key (fun x hx => C105_tables.1 x hx k h1) (h8 _ he)
  | crc16 _ he _ => exact key (fun x hx => C105_tables.2.1 x hx k h1) (h16 _ he)
  | crc32 _ he _ => exact key (fun x hx => C105_tables.2.2 x hx k h1 (by have := hl x hx; omega)) (h32 _ he)

theorem hamming_pos {x y : List Byte} (hl : x.length = y.length) (h0 : x ≠ y) : 0 < hamming x y := by
  by_contra hc
  apply h0
  have h : hamming x y = 0 := by omega
  rw [hamming] at h
  apply Crc.bits_inj
  have hb : (bits false x).length = (bits false y).length := by rw [Crc.bits_length, Crc.bits_length, hl]
  apply List.ext_getElem hb
  intro i hi1 hi2
  have hi : i < (List.zipWith xor (bits false x) (bits false y)).length := by rw [List.length_zipWith]; omega
  have hne : (List.zipWith xor (bits false x) (bits false y))[i] ≠ true := by
    intro ht
    have := List.count_pos_iff.mpr (ht ▸ List.getElem_mem hi)
    omega
  rw [List.getElem_zipWith] at hne
  revert hne
  cases (bits false x)[i] <;> cases (bits false y)[i] <;> simp

theorem crc_of_bits {w : Nat} (p : Params w) (x y : List Byte) :
    crc p x = crc p y ↔ crcBits p.poly p.init (bits p.refin x) = crcBits p.poly p.init (bits p.refin y) := by
  unfold crc
  cases p.refout
  · simp
  · simp only [if_true]
    rw [BitVec.xor_left_inj]
    constructor
    · intro h
      have := congrArg BitVec.reverse h
      simpa using this
    · intro h; rw [h]

/-- C105: up to that length, errors in at most `k` bits change the CRC, whatever the initial and the final value and the
order of the bits. -/
theorem C105_detects {w : Nat} (p : Params w) {k n : Nat} (hr : IsReach p.poly k n) {x y : List Byte}
    (hl : x.length = y.length) (hlen : 8 * x.length ≤ n) (h0 : x ≠ y) (hh : hamming x y ≤ k) : crc p x ≠ crc p y := by
  rw [Ne, crc_of_bits]
  have hd : diff (bits p.refin x) (bits p.refin y) = hamming x y := Crc.count_diff p.refin hl
  refine hr.detects p.init _ _ (by rw [Crc.bits_length, Crc.bits_length, hl]) (by rw [Crc.bits_length]; exact hlen) ?_ (by rw [hd]; exact hh)
  rw [hd]
  exact hamming_pos hl h0

/-- C105: beyond that length some of these errors go unnoticed. -/
theorem C105_misses {w : Nat} (p : Params w) {k n : Nat} (hr : IsReach p.poly k n) {len : Nat} (hlen : n < 8 * len) :
    ∃ x y : List Byte, x.length = len ∧ y.length = len ∧ x ≠ y ∧ hamming x y ≤ k ∧ crc p x = crc p y := by
  obtain ⟨a, b, ha, hb, h1, h2, h3⟩ := hr.misses (8 * len) hlen
  obtain ⟨x, hx, ex⟩ := Crc.bits_surj p.refin len a ha
  obtain ⟨y, hy, ey⟩ := Crc.bits_surj p.refin len b hb
  have hd : diff (bits p.refin x) (bits p.refin y) = hamming x y := Crc.count_diff p.refin (hx.trans hy.symm)
  rw [ex, ey] at hd
  refine ⟨x, y, hx, hy, ?_, by omega, ?_⟩
  · rintro rfl
    rw [← ex, ← ey] at h1
    have hz : diff (bits p.refin x) (bits p.refin x) = 0 := by
      unfold diff
      rw [List.count_eq_zero]
      intro hm
      obtain ⟨i, hi, he⟩ := List.mem_iff_getElem.mp hm
      rw [List.getElem_zipWith] at he
      simp at he
    omega
  · rw [crc_of_bits, ex, ey]
    exact h3 _

/-- C105 at the functions: a frame (message and checksum) with the residue as its CRC, and what arrives of it. -/
theorem C105_functions {w : Nat} {e : Entry w} {f : CrcFn w} (hf : Shipped w e f) {k n : Nat}
    (hr : IsReach e.params.poly k n) {m : Mem} {p q : Piece} (hp : p.In m) (hq : q.In m) (hn : p.n = q.n)
    (hlen : 8 * p.n.toNat ≤ n) (h0 : p.data m ≠ q.data m) (hh : hamming (p.data m) (q.data m) ≤ k)
    (hs : f (ptr p.b p.o) p.n true none m = .ok (residue e.params) m) :
    ∃ d, f (ptr q.b q.o) q.n true none m = .ok d m ∧ d ≠ residue e.params := by
  rw [C72_published hf hp] at hs
  have he : crc e.params (p.data m) = residue e.params := by
    injection hs
  refine ⟨_, C72_published hf hq, ?_⟩
  rw [← he]
  have l1 : (p.data m).length = p.n.toNat := slice_length _ _ _ hp
  have l2 : (q.data m).length = q.n.toNat := slice_length _ _ _ hq
  exact (C105_detects e.params hr (by rw [l1, l2, hn]) (by rw [l1]; exact hlen) h0 hh).symm

/-- The CRC-32 of Ethernet: all errors in at most three bits in frames of up to 11454 bytes, in at most four bits in
frames of up to 375 bytes, in at most five bits in frames of up to 37 bytes. -/
example : IsReach (0x04C11DB7#32) 3 91639 ∧ 8 * 11454 ≤ 91639 ∧ 91639 < 8 * 11455 ∧
    IsReach (0x04C11DB7#32) 4 3006 ∧ 8 * 375 ≤ 3006 ∧ 3006 < 8 * 376 ∧
    IsReach (0x04C11DB7#32) 5 300 ∧ 8 * 37 ≤ 300 ∧ 300 < 8 * 38 := by
  have hm : (0x04C11DB7#32, [4294967295, 91639, 3006, 300]) ∈ reach32 := by decide
  exact ⟨C105_tables.2.2 _ hm 3 (by decide) (by decide), by decide, by decide, C105_tables.2.2 _ hm 4 (by decide) (by decide),
    by decide, by decide, C105_tables.2.2 _ hm 5 (by decide) (by decide), by decide, by decide⟩

/-- Four errors in two bytes that the 8-bit CRC with the polynomial `0x07` does not see. -/
example : crc (⟨0x07#8, 0x00#8, false, false, 0x00#8⟩ : Params 8) [0x01#8, 0x07#8] =
      crc ⟨0x07#8, 0x00#8, false, false, 0x00#8⟩ [0x00#8, 0x00#8] ∧
    hamming [0x01#8, 0x07#8] [0x00#8, 0x00#8] = 4 := by decide +kernel

end IMU.Props
