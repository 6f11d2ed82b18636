import Verif.Props.CrcErrors

/-!
# Property C91: the functions are different functions
-/

namespace IMU.Props
open Spec Spec.Crc Utils

theorem distinct8 : ∀ e ∈ catalogue8, ∀ e' ∈ catalogue8, e.name ≠ e'.name → crc e.params [2#8] ≠ crc e'.params [2#8] := by
  decide +kernel
theorem distinct16 : ∀ e ∈ catalogue16, ∀ e' ∈ catalogue16, e.name ≠ e'.name → crc e.params [2#8] ≠ crc e'.params [2#8] := by
  decide +kernel
theorem distinct32 : ∀ e ∈ catalogue32, ∀ e' ∈ catalogue32, e.name ≠ e'.name → crc e.params [2#8] ≠ crc e'.params [2#8] := by
  decide +kernel

/-- C91: no two of the functions of a width are the same: on the message that consists of the byte 2 they all return different
checksums. -/
theorem C91_distinct {w : Nat} {e e' : Entry w} {f f' : CrcFn w} (hf : Shipped w e f) (hf' : Shipped w e' f') (hn : e.name ≠ e'.name)
    {m : Mem} {b o : Nat} (hb : (m.bytes b)[o]? = some 2#8) :
    ∃ c d, f (ptr b o) 1#32 true none m = .ok c m ∧ f' (ptr b o) 1#32 true none m = .ok d m ∧ c ≠ d := by
  obtain ⟨ho, hv⟩ := List.getElem?_eq_some_iff.1 hb
  have hlen : o + (1#32).toNat ≤ (m.bytes b).length := ho
  have hs : slice (m.bytes b) o (1#32).toNat = [2#8] := by
    apply List.ext_getElem?
    intro i
    rw [getElem?_slice]
    rcases i with _ | i
    · rw [if_pos (by decide), Nat.add_zero, hb]; rfl
    · rw [if_neg (by simp)]; rfl
  refine ⟨_, _, C72_published hf hlen, C72_published hf' hlen, ?_⟩
  rw [hs]
  cases hf with
  | crc8 _ he _ => cases hf' with | crc8 _ he' _ => exact distinct8 _ he _ he' hn
  | crc16 _ he _ => cases hf' with | crc16 _ he' _ => exact distinct16 _ he _ he' hn
  | crc32 _ he _ => cases hf' with | crc32 _ he' _ => exact distinct32 _ he _ he' hn

/-- C91: functions with the same polynomial and reflection differ by a value that depends only on the length of the message. -/
theorem C91_same_polynomial {w : Nat} {e e' : Entry w} {f f' : CrcFn w} (hf : Shipped w e f) (hf' : Shipped w e' f')
    (h1 : e.params.poly = e'.params.poly) (h2 : e.params.refin = e'.params.refin) (h3 : e.params.refout = e'.params.refout)
    {m : Mem} {p q : Piece} (hp : p.In m) (hq : q.In m) (hl : p.n = q.n) :
    ∃ a b c d, f (ptr p.b p.o) p.n true none m = .ok a m ∧ f' (ptr p.b p.o) p.n true none m = .ok b m ∧
      f (ptr q.b q.o) q.n true none m = .ok c m ∧ f' (ptr q.b q.o) q.n true none m = .ok d m ∧ a ^^^ b = c ^^^ d := by
  refine ⟨_, _, _, _, C72_published hf hp, C72_published hf' hp, C72_published hf hq, C72_published hf' hq, ?_⟩
  have hlen : (slice (m.bytes p.b) p.o p.n.toNat).length = (slice (m.bytes q.b) q.o q.n.toNat).length := by
    rw [slice_length _ _ _ hp, slice_length _ _ _ hq, hl]
  generalize slice (m.bytes p.b) p.o p.n.toNat = x at hlen
  generalize slice (m.bytes q.b) q.o q.n.toNat = y at hlen
  have key : ∀ (e : Entry w), crc e.params x ^^^ crc e.params y =
      crc { e.params with init := 0#w, xorout := 0#w } (List.zipWith (· ^^^ ·) x y) := by
    intro e
    have h := Crc.crc_xor e.params e.params.init e.params.init x y hlen
    rw [BitVec.xor_self] at h
    exact h
  have h4 := (key e).trans (show _ = crc { e'.params with init := 0#w, xorout := 0#w } (List.zipWith (· ^^^ ·) x y) by
    simp only [crc, h1, h2, h3]) |>.trans (key e').symm
  have h5 : ∀ a b c d : BitVec w, a ^^^ c = b ^^^ d → a ^^^ b = c ^^^ d := by
    intro a b c d h
    have : a = (b ^^^ d) ^^^ c := by rw [← h, BitVec.xor_assoc, BitVec.xor_self, BitVec.xor_zero]
    rw [this, BitVec.xor_assoc, BitVec.xor_comm c b, ← BitVec.xor_assoc, BitVec.xor_comm b d, BitVec.xor_assoc d, BitVec.xor_self,
      BitVec.xor_zero, BitVec.xor_comm]
  exact h5 _ _ _ _ h4

/-- Non-vacuity: two functions with the same polynomial. -/
example : ∃ e ∈ catalogue16, ∃ e' ∈ catalogue16, e.name = "Crc16_ccitFalse" ∧ e'.name = "Crc16_genibus" ∧
    e.params.poly = e'.params.poly ∧ e.params.refin = e'.params.refin ∧ e.params.refout = e'.params.refout := by decide +kernel
example : (⟨fun _ => [2#8, 7#8], fun _ => []⟩ : Mem).bytes 3 = [2#8, 7#8] ∧ ([2#8, 7#8] : List Byte)[0]? = some 2#8 := by decide

end IMU.Props
