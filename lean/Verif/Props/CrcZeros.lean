import Verif.Props.CrcErrors
import Verif.Proofs.CrcZeros

/-!
# CRC: property C107, zero bytes gained or lost at the ends

Specification: `Verif/Spec/CrcZeros.lean`.
-/

namespace IMU.Props
open Spec Spec.Crc

/-- C107: whether zero bytes gained or lost in front of a message go unnoticed does not depend on the message. -/
theorem C107_any_message {w : Nat} (p : Params w) (hp : p.poly.getLsbD 0 = true) (n : Nat) (msg : List Byte) :
    crc p (zeros n ++ msg) = crc p msg ↔ crc p (zeros n) = crc p [] := by
  have := Crc.leading_iff p hp n []
  rw [List.append_nil] at this
  rw [Crc.leading_iff p hp, this]

/-- C107: every function is in the table, once. -/
theorem C107_table {w : Nat} {e : Entry w} {f : CrcFn w} (hf : Shipped w e f) :
    ∃! x : Nat × Nat, (e.name, x) ∈ zeroPeriods := by
  have h8 : ∀ e ∈ catalogue8, (zeroPeriods.filter (fun x => x.1 == e.name)).length = 1 := by decide +kernel
  have h16 : ∀ e ∈ catalogue16, (zeroPeriods.filter (fun x => x.1 == e.name)).length = 1 := by decide +kernel
  have h32 : ∀ e ∈ catalogue32, (zeroPeriods.filter (fun x => x.1 == e.name)).length = 1 := by decide +kernel
  have h : (zeroPeriods.filter (fun x => x.1 == e.name)).length = 1 := by
    cases hf with
    | crc8 _ he _ => exact h8 _ he
    | crc16 _ he _ => exact h16 _ he
    | crc32 _ he _ => exact h32 _ he
  obtain ⟨y, hy⟩ := List.length_eq_one_iff.mp h
  have hmem : ∀ z, z ∈ zeroPeriods ∧ z.1 = e.name ↔ z = y := by
    intro z
    have : z ∈ zeroPeriods.filter (fun x => x.1 == e.name) ↔ z = y := by rw [hy]; simp
    rw [← this]; simp
  obtain ⟨h1, h2⟩ := (hmem y).mpr rfl
  refine ⟨y.2, ?_, fun x hx => ?_⟩
  · show (e.name, y.2) ∈ zeroPeriods
    rw [← h2]; exact h1
  · have := (hmem (e.name, x)).mp ⟨hx, rfl⟩
    rw [← this]

/-- C107: zero bytes gained or lost in front of a message go unnoticed exactly if their number is a multiple of the
number in the table. -/
theorem C107_leading {w : Nat} {e : Entry w} {f : CrcFn w} (hf : Shipped w e f) {k k' : Nat}
    (hk : (e.name, k, k') ∈ zeroPeriods) {m : Mem} {p q : Piece} (hp : p.In m) (hq : q.In m) {n : Nat}
    (hd : q.data m = zeros n ++ p.data m) :
    ∃ c d, f (ptr p.b p.o) p.n true none m = .ok c m ∧ f (ptr q.b q.o) q.n true none m = .ok d m ∧ (d = c ↔ k ∣ n) := by
  have hi := Crc.shipped_impl hf
  refine ⟨_, _, C72_published hf hp, C72_published hf hq, ?_⟩
  rw [show slice (m.bytes q.b) q.o q.n.toNat = zeros n ++ slice (m.bytes p.b) p.o p.n.toNat from hd, Crc.leading_iff _ hi.odd]
  exact Crc.zero_period (by have := hi.wide; omega) (Crc.periods_ok hf hk).1 n

/-- C107: zero bytes gained or lost behind a message with its checksum go unnoticed exactly if their number is a multiple
of the number in the table. -/
theorem C107_trailing {w : Nat} {e : Entry w} {f : CrcFn w} (hf : Shipped w e f) {k k' : Nat}
    (hk : (e.name, k, k') ∈ zeroPeriods) {m : Mem} {p q : Piece} (hp : p.In m) (hq : q.In m) {n : Nat}
    (hd : q.data m = p.data m ++ zeros n) (hr : f (ptr p.b p.o) p.n true none m = .ok (residue e.params) m) :
    f (ptr q.b q.o) q.n true none m = .ok (residue e.params) m ↔ k' ∣ n := by
  have hi := Crc.shipped_impl hf
  rw [C72_published hf hp] at hr
  rw [C72_published hf hq]
  have hr : crc e.params (slice (m.bytes p.b) p.o p.n.toNat) = residue e.params := by
    injection hr
  have h8 : 8 ∣ w := by cases hf <;> decide
  rw [show slice (m.bytes q.b) q.o q.n.toNat = _ from hd]
  rw [← Crc.zero_period (by have := hi.wide; omega) (Crc.periods_ok hf hk).2 n, ← Crc.trailing_iff _ hi.odd h8 n hr]
  constructor
  · intro h; injection h
  · intro h; rw [show crc e.params (p.data m ++ zeros n) = _ from h]

/-- C107: a frame of zero bytes only (a line that is dead).  The functions with the initial value 0 and no final xor take
all of them for correct; those with only one of the two take none; the others (both values have ones only) just those whose
length exceeds that of the checksum by a multiple of the number in the table. -/
theorem C107_dead_line {w : Nat} {e : Entry w} {f : CrcFn w} (hf : Shipped w e f) {k k' : Nat}
    (hk : (e.name, k, k') ∈ zeroPeriods) {m : Mem} {p : Piece} (hp : p.In m) {n : Nat} (hd : p.data m = zeros (w / 8 + n)) :
    f (ptr p.b p.o) p.n true none m = .ok (residue e.params) m ↔
      (e.params.init = 0#w ∧ e.params.xorout = 0#w) ∨
      (e.params.init = BitVec.allOnes w ∧ e.params.xorout = BitVec.allOnes w ∧ k ∣ n) := by
  have hi := Crc.shipped_impl hf
  have hw : 0 < w := by have := hi.wide; omega
  have h8 : 8 ∣ w := by cases hf <;> decide
  rw [C72_published hf hp, show slice (m.bytes p.b) p.o p.n.toNat = _ from hd]
  have hred := Crc.dead_iff e.params hi.odd h8 n
  have hok : (Res.ok (crc e.params (zeros (w / 8 + n))) m = .ok (residue e.params) m) ↔
      crc e.params (zeros (w / 8 + n)) = residue e.params :=
    ⟨fun h => by injection h, fun h => by rw [h]⟩
  rw [hok, hred]
  have hrev : (if e.params.refout then e.params.xorout.reverse else e.params.xorout) = 0#w ↔ e.params.xorout = 0#w := by
    cases e.params.refout
    · exact Iff.rfl
    · simp only [if_true]
      refine ⟨fun h => ?_, fun h => by rw [h, Crc.reverse_zero]⟩
      rw [← Crc.reverse_reverse e.params.xorout, h, Crc.reverse_zero]
  have hone : BitVec.allOnes w ≠ 0#w := by cases hf <;> decide
  rcases Crc.both_or_none hf with h | h | ⟨h1, h2⟩
  · rw [h, Crc.rounds_zero, eq_comm, hrev]
    constructor
    · intro hx; exact .inl ⟨rfl, hx⟩
    · rintro (⟨_, hx⟩ | ⟨hx, _⟩)
      · exact hx
      · exact absurd hx.symm hone
  · rw [hrev.mpr h, h]
    constructor
    · intro hx; exact .inl ⟨Crc.rounds_eq_zero hi.odd _ hx, rfl⟩
    · rintro (⟨hx, _⟩ | ⟨_, hx, _⟩)
      · rw [hx, Crc.rounds_zero]
      · exact absurd hx.symm hone
  · have hz := Crc.zero_period hw (Crc.periods_ok hf hk).1 n
    have hr : (if e.params.refout then e.params.xorout.reverse else e.params.xorout) = e.params.init := by
      rw [h1, h2]
      cases e.params.refout
      · rfl
      · simp only [if_true]
        apply BitVec.eq_of_getLsbD_eq
        intro i hi
        rw [BitVec.getLsbD_reverse, BitVec.getMsbD_eq_getLsbD]
        simp [hi]; omega
    rw [hr, hz]
    constructor
    · intro hx; exact .inr ⟨h1, h2, hx⟩
    · rintro (⟨hx, _⟩ | ⟨_, _, hx⟩)
      · rw [h1] at hx; exact absurd hx hone
      · exact hx

/-- A CRC-32 takes a message with a zero byte in front for another one, a CRC-16/XMODEM does not. -/
example : crc ⟨0x04C11DB7#32, 0xFFFFFFFF#32, true, true, 0xFFFFFFFF#32⟩ [0#8, 49#8] ≠
    crc ⟨0x04C11DB7#32, 0xFFFFFFFF#32, true, true, 0xFFFFFFFF#32⟩ [49#8] ∧
    crc ⟨0x1021#16, 0x0000#16, false, false, 0x0000#16⟩ [0#8, 0#8, 49#8] =
    crc ⟨0x1021#16, 0x0000#16, false, false, 0x0000#16⟩ [49#8] := by decide +kernel

/-- A frame of Crc16_ccitFalse, and the same with a zero byte behind. -/
example : crc ⟨0x1021#16, 0xFFFF#16, false, false, 0x0000#16⟩ [49#8, 50#8, 51#8, 52#8, 53#8, 54#8, 55#8, 56#8, 57#8, 0x29#8, 0xB1#8] =
      residue ⟨0x1021#16, 0xFFFF#16, false, false, 0x0000#16⟩ ∧
    crc ⟨0x1021#16, 0xFFFF#16, false, false, 0x0000#16⟩ [49#8, 50#8, 51#8, 52#8, 53#8, 54#8, 55#8, 56#8, 57#8, 0x29#8, 0xB1#8, 0#8] =
      residue ⟨0x1021#16, 0xFFFF#16, false, false, 0x0000#16⟩ := by decide +kernel

/-- The hypotheses are met: an object with the two frames, the longer one behind the shorter one. -/
example : ∃ (e : Entry 16) (f : CrcFn 16) (m : Mem) (p q : Piece), Shipped 16 e f ∧ (e.name, 32767, 1) ∈ zeroPeriods ∧ p.In m ∧
    q.In m ∧ q.data m = p.data m ++ zeros 1 ∧ crc e.params (p.data m) = residue e.params := by
  refine ⟨⟨"Crc16_ccitFalse", ⟨0x1021#16, 0xFFFF#16, false, false, 0x0000#16⟩, 0x29B1#16, [0x1021#16, 0x1021#16, 0x1021#16]⟩, _,
    ⟨fun b => if b = 0 then [49, 50, 51, 52, 53, 54, 55, 56, 57, 0x29, 0xB1, 0] else [], fun _ => []⟩, ⟨0, 0, 11#32⟩, ⟨0, 0, 12#32⟩,
    .crc16 (v := IMU.Crc.Crc16_ccitFalse) ?_ ?_ rfl, ?_, ?_, ?_, ?_, ?_⟩
  · simp [IMU.Crc.variants16]
  · simp [catalogue16]
  · decide +kernel
  · unfold Piece.In; decide
  · unfold Piece.In; decide
  · decide
  · decide +kernel

/-- C107: the numbers of the table are 1 exactly where the initial value, respectively the final xor value, is 0; the others
lie between 127 and 2^32 - 1. -/
theorem C107_numbers {w : Nat} {e : Entry w} {f : CrcFn w} (hf : Shipped w e f) {k k' : Nat}
    (hk : (e.name, k, k') ∈ zeroPeriods) :
    (e.params.init = 0#w ∧ k = 1 ∨ e.params.init ≠ 0#w ∧ 127 ≤ k ∧ k ≤ 2 ^ 32 - 1) ∧
    (e.params.xorout = 0#w ∧ k' = 1 ∨ e.params.xorout ≠ 0#w ∧ 127 ≤ k' ∧ k' ≤ 2 ^ 32 - 1) := by
  cases hf with
  | crc8 hv he hn =>
    have : ∀ e ∈ catalogue8, ∀ x ∈ zeroPeriods, x.1 = e.name →
        (e.params.init = 0#8 ∧ x.2.1 = 1 ∨ e.params.init ≠ 0#8 ∧ 127 ≤ x.2.1 ∧ x.2.1 ≤ 2 ^ 32 - 1) ∧
        (e.params.xorout = 0#8 ∧ x.2.2 = 1 ∨ e.params.xorout ≠ 0#8 ∧ 127 ≤ x.2.2 ∧ x.2.2 ≤ 2 ^ 32 - 1) := by decide +kernel
    exact this _ he _ hk rfl
  | crc16 hv he hn =>
    have : ∀ e ∈ catalogue16, ∀ x ∈ zeroPeriods, x.1 = e.name →
        (e.params.init = 0#16 ∧ x.2.1 = 1 ∨ e.params.init ≠ 0#16 ∧ 127 ≤ x.2.1 ∧ x.2.1 ≤ 2 ^ 32 - 1) ∧
        (e.params.xorout = 0#16 ∧ x.2.2 = 1 ∨ e.params.xorout ≠ 0#16 ∧ 127 ≤ x.2.2 ∧ x.2.2 ≤ 2 ^ 32 - 1) := by decide +kernel
    exact this _ he _ hk rfl
  | crc32 hv he hn =>
    have : ∀ e ∈ catalogue32, ∀ x ∈ zeroPeriods, x.1 = e.name →
        (e.params.init = 0#32 ∧ x.2.1 = 1 ∨ e.params.init ≠ 0#32 ∧ 127 ≤ x.2.1 ∧ x.2.1 ≤ 2 ^ 32 - 1) ∧
        (e.params.xorout = 0#32 ∧ x.2.2 = 1 ∨ e.params.xorout ≠ 0#32 ∧ 127 ≤ x.2.2 ∧ x.2.2 ≤ 2 ^ 32 - 1) := by decide +kernel
    exact this _ he _ hk rfl

/-- C107: nine functions notice zero bytes (fewer than 127 at least) at both ends. -/
theorem C107_both_ends : (zeroPeriods.filter (fun x => x.2.1 ≠ 1 ∧ x.2.2 ≠ 1)).map (·.1) =
    ["Crc8_8h2f", "Crc8_saeJ1850", "Crc16_genibus", "Crc16_usb", "Crc16_x25", "Crc32", "Crc32_bzip2", "Crc32_c", "Crc32_d"] := by
  decide +kernel

end IMU.Props
