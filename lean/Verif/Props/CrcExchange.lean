import Verif.Props.CrcErrors
import Verif.Proofs.CrcExchange

/-!
# CRC: property C120, two bytes that change places

Specification: `Verif/Spec/CrcExchange.lean`.
-/

namespace IMU.Props
open Spec Spec.Crc

/-- C120: the polynomial of every function is in the table of its width, once; those of the 16-bit and 32-bit functions
without exceptions. -/
theorem C120_table {w : Nat} {e : Entry w} {f : CrcFn w} (hf : Shipped w e f) :
    (∃! row : ExchangeRow w, row ∈ exchanges w ∧ row.1 = e.params.poly) ∧
      (w ≠ 8 → ∀ row ∈ exchanges w, row.2.2 = []) := by
  have h8 : ∀ e ∈ catalogue8, (exchange8.filter (fun x => x.1 == e.params.poly)).length = 1 := by decide +kernel
  have h16 : ∀ e ∈ catalogue16, (exchange16.filter (fun x => x.1 == e.params.poly)).length = 1 := by decide +kernel
  have h32 : ∀ e ∈ catalogue32, (exchange32.filter (fun x => x.1 == e.params.poly)).length = 1 := by decide +kernel
  have h : ((exchanges w).filter (fun x => x.1 == e.params.poly)).length = 1 := by
    cases hf with
    | crc8 _ he _ => exact h8 _ he
    | crc16 _ he _ => exact h16 _ he
    | crc32 _ he _ => exact h32 _ he
  refine ⟨?_, ?_⟩
  · obtain ⟨y, hy⟩ := List.length_eq_one_iff.mp h
    have hmem : ∀ z, z ∈ exchanges w ∧ z.1 = e.params.poly ↔ z = y := by
      intro z
      have : z ∈ (exchanges w).filter (fun x => x.1 == e.params.poly) ↔ z = y := by rw [hy]; simp
      rw [← this]; simp
    exact ⟨y, (hmem y).mpr rfl, fun z hz => (hmem z).mp hz⟩
  · have e16 : ∀ row ∈ exchange16, row.2.2 = [] := by decide
    have e32 : ∀ row ∈ exchange32, row.2.2 = [] := by decide
    intro hw
    cases hf with
    | crc8 _ _ _ => exact absurd rfl hw
    | crc16 _ _ _ => exact e16
    | crc32 _ _ _ => exact e32

/-- C120: two bytes changed by the same mask.  The change goes unnoticed exactly if the distance of the two bytes is a
multiple of the one in the table, whatever the rest of the message. -/
theorem C120_same_change {w : Nat} {e : Entry w} {f : CrcFn w} (hf : Shipped w e f) {row : ExchangeRow w}
    (hr : row ∈ exchanges w) (he : row.1 = e.params.poly) {m : Mem} {p q : Piece} (hp : p.In m) (hq : q.In m)
    {a mid z : List Byte} {u v d : Byte} (hd : d ≠ 0#8) (h1 : p.data m = a ++ u :: (mid ++ v :: z))
    (h2 : q.data m = a ++ (u ^^^ d) :: (mid ++ (v ^^^ d) :: z)) :
    ∃ c c', f (ptr p.b p.o) p.n true none m = .ok c m ∧ f (ptr q.b q.o) q.n true none m = .ok c' m ∧
      (c' = c ↔ distanceOf row (entering e.params.refin d) ∣ mid.length + 1) := by
  have hi := Crc.shipped_impl hf
  refine ⟨_, _, C72_published hf hp, C72_published hf hq, ?_⟩
  rw [show slice (m.bytes p.b) p.o p.n.toNat = _ from h1, show slice (m.bytes q.b) q.o q.n.toNat = _ from h2,
    Crc.same_change_iff _ hi.odd, ← he]
  apply Crc.exchange_period hr
  unfold entering
  split
  · intro h0
    apply hd
    rw [← Crc.reverse_reverse d, h0, Crc.reverse_zero]
  · exact hd

/-- C120: two different bytes that change places.  The exchange goes unnoticed exactly if their distance is a multiple of the
one in the table. -/
theorem C120_exchange {w : Nat} {e : Entry w} {f : CrcFn w} (hf : Shipped w e f) {row : ExchangeRow w}
    (hr : row ∈ exchanges w) (he : row.1 = e.params.poly) {m : Mem} {p q : Piece} (hp : p.In m) (hq : q.In m)
    {a mid z : List Byte} {u v : Byte} (hd : u ≠ v) (h1 : p.data m = a ++ u :: (mid ++ v :: z))
    (h2 : q.data m = a ++ v :: (mid ++ u :: z)) :
    ∃ c c', f (ptr p.b p.o) p.n true none m = .ok c m ∧ f (ptr q.b q.o) q.n true none m = .ok c' m ∧
      (c' = c ↔ distanceOf row (entering e.params.refin (u ^^^ v)) ∣ mid.length + 1) := by
  apply C120_same_change hf hr he hp hq (fun h => hd (BitVec.xor_eq_zero_iff.mp h)) h1
  rw [h2]
  congr 2
  · rw [← BitVec.xor_assoc, BitVec.xor_self, BitVec.zero_xor]
  · rw [BitVec.xor_comm u v, ← BitVec.xor_assoc, BitVec.xor_self, BitVec.zero_xor]

/-- C120: the 16-bit and 32-bit functions notice every exchange of two different bytes of a message that is no longer than
the distance in the table. -/
theorem C120_noticed {w : Nat} {e : Entry w} {f : CrcFn w} (hf : Shipped w e f) (hw : w ≠ 8) {row : ExchangeRow w}
    (hr : row ∈ exchanges w) (he : row.1 = e.params.poly) {m : Mem} {p q : Piece} (hp : p.In m) (hq : q.In m)
    {a mid z : List Byte} {u v : Byte} (hd : u ≠ v) (h1 : p.data m = a ++ u :: (mid ++ v :: z))
    (h2 : q.data m = a ++ v :: (mid ++ u :: z)) (hn : p.n.toNat ≤ row.2.1) :
    ∃ c c', f (ptr p.b p.o) p.n true none m = .ok c m ∧ f (ptr q.b q.o) q.n true none m = .ok c' m ∧ c' ≠ c := by
  obtain ⟨c, c', hc, hc', h⟩ := C120_exchange hf hr he hp hq hd h1 h2
  refine ⟨c, c', hc, hc', fun hcc => ?_⟩
  have h3 := h.mp hcc
  rw [distanceOf, (C120_table hf).2 hw row hr] at h3
  have h4 := Nat.le_of_dvd (by omega) h3
  have h5 : (p.data m).length = p.n.toNat := by
    rw [Piece.data, slice_length]; exact hp
  rw [h1] at h5
  simp only [List.length_append, List.length_cons] at h5
  simp only [List.find?_nil, Option.map_none, Option.getD_none] at h4
  omega

/-- C120: two different neighbouring bytes that change places.  All 16-bit and 32-bit functions notice it.  The 8-bit
functions notice it as well, except that those whose polynomial is in the table with an exception of distance 1 do not notice
it if this exception is how the two bytes differ. -/
theorem C120_neighbours {w : Nat} {e : Entry w} {f : CrcFn w} (hf : Shipped w e f) {row : ExchangeRow w}
    (hr : row ∈ exchanges w) (he : row.1 = e.params.poly) {m : Mem} {p q : Piece} (hp : p.In m) (hq : q.In m)
    {a z : List Byte} {u v : Byte} (hd : u ≠ v) (h1 : p.data m = a ++ u :: v :: z) (h2 : q.data m = a ++ v :: u :: z) :
    ∃ c c', f (ptr p.b p.o) p.n true none m = .ok c m ∧ f (ptr q.b q.o) q.n true none m = .ok c' m ∧
      (c' = c ↔ w = 8 ∧ (1, [entering e.params.refin (u ^^^ v)]) ∈ row.2.2) := by
  obtain ⟨c, c', hc, hc', h⟩ := C120_exchange (mid := []) hf hr he hp hq hd h1 h2
  refine ⟨c, c', hc, hc', h.trans ?_⟩
  rw [List.length_nil, Nat.zero_add, Nat.dvd_one]
  generalize entering e.params.refin (u ^^^ v) = x
  by_cases hw : w = 8
  · subst hw
    have key : ∀ row ∈ exchange8, ∀ x : Byte, distanceOf row x = 1 ↔ (1, [x]) ∈ row.2.2 := by decide +kernel
    simp only [true_and]
    exact key row hr x
  · simp only [hw, false_and, iff_false]
    rw [distanceOf, (C120_table hf).2 hw row hr]
    simp only [List.find?_nil, Option.map_none, Option.getD_none]
    have e16 : ∀ row ∈ exchange16, row.2.1 ≠ 1 := by decide
    have e32 : ∀ row ∈ exchange32, row.2.1 ≠ 1 := by decide
    cases hf with
    | crc8 _ _ _ => exact absurd rfl hw
    | crc16 _ _ _ => exact e16 row hr
    | crc32 _ _ _ => exact e32 row hr

/-- C120: the 8-bit functions for which two different neighbouring bytes exist whose exchange goes unnoticed are those whose
divisor is even. -/
theorem C120_eight {e : Entry 8} {f : CrcFn 8} (hf : Shipped 8 e f) :
    (∃ u v : Byte, u ≠ v ∧ crc e.params [v, u] = crc e.params [u, v]) ↔ e.name ∈ evenDivisors := by
  have key : ∀ e ∈ catalogue8, (∃ row ∈ exchange8, row.1 = e.params.poly ∧ row.2.2 ≠ []) ↔ e.name ∈ evenDivisors := by
    decide +kernel
  have he : e ∈ catalogue8 := by cases hf with | crc8 _ he _ => exact he
  have hi := Crc.shipped_impl hf
  obtain ⟨⟨row, ⟨hr, hp⟩, _⟩, _⟩ := C120_table hf
  have hx : ∀ u v : Byte, u ≠ v → (crc e.params [v, u] = crc e.params [u, v] ↔
      distanceOf row (entering e.params.refin (u ^^^ v)) ∣ 1) := by
    intro u v huv
    have h := Crc.same_change_iff e.params hi.odd [] [] [] u v (u ^^^ v)
    rw [show u ^^^ (u ^^^ v) = v by rw [← BitVec.xor_assoc, BitVec.xor_self, BitVec.zero_xor],
      show v ^^^ (u ^^^ v) = u by rw [BitVec.xor_comm u v, ← BitVec.xor_assoc, BitVec.xor_self, BitVec.zero_xor]] at h
    simp only [List.nil_append] at h
    rw [h, ← hp]
    apply Crc.exchange_period hr
    unfold entering
    split
    · intro h0
      apply huv
      apply BitVec.xor_eq_zero_iff.mp
      rw [← Crc.reverse_reverse (u ^^^ v), h0, Crc.reverse_zero]
    · exact fun h0 => huv (BitVec.xor_eq_zero_iff.mp h0)
  have key2 : ∀ row ∈ exchange8, (∃ x : Byte, distanceOf row x = 1) ↔ row.2.2 ≠ [] := by decide +kernel
  have key3 : ∀ row ∈ exchange8, distanceOf row 0#8 ≠ 1 := by decide +kernel
  rw [← key e he]
  constructor
  · rintro ⟨u, v, huv, h⟩
    exact ⟨row, hr, hp, (key2 row hr).mp ⟨_, Nat.dvd_one.mp ((hx u v huv).mp h)⟩⟩
  · rintro ⟨row', hr', hp', hne⟩
    obtain ⟨⟨r0, _, hu⟩, _⟩ := C120_table hf
    have : row' = row := (hu row' ⟨hr', hp'⟩).trans (hu row ⟨hr, hp⟩).symm
    subst this
    obtain ⟨x, hx1⟩ := (key2 row' hr).mpr hne
    have hx0 : x ≠ 0#8 := fun h0 => key3 row' hr (h0 ▸ hx1)
    have hent : entering e.params.refin (entering e.params.refin x) = x := by
      unfold entering
      split
      · exact Crc.reverse_reverse x
      · rfl
    refine ⟨entering e.params.refin x, 0#8, ?_, ?_⟩
    · intro h0
      apply hx0
      rw [← hent, h0]
      unfold entering
      split
      · exact Crc.reverse_zero 8
      · rfl
    · rw [hx _ _ ?_, BitVec.xor_zero, hent, hx1]
      intro h0
      apply hx0
      rw [← hent, h0]
      unfold entering
      split
      · exact Crc.reverse_zero 8
      · rfl

/-- The hypotheses are met: `Crc8`, whose polynomial has the exception 0xFD, and the two neighbouring bytes 0x31 and 0xCC. -/
example : ∃ (e : Entry 8) (f : CrcFn 8) (row : ExchangeRow 8) (m : Mem) (p q : Piece), Shipped 8 e f ∧ row ∈ exchanges 8 ∧
    row.1 = e.params.poly ∧ p.In m ∧ q.In m ∧ p.data m = [0x01#8] ++ 0x31#8 :: 0xCC#8 :: [0x02#8] ∧
    q.data m = [0x01#8] ++ 0xCC#8 :: 0x31#8 :: [0x02#8] ∧ (1, [entering e.params.refin (0x31#8 ^^^ 0xCC#8)]) ∈ row.2.2 := by
  refine ⟨⟨"Crc8", ⟨0x07#8, 0x00#8, false, false, 0x00#8⟩, 0xF4#8, [0x07#8, 0x07#8]⟩, _, (0x07#8, 127, [(1, [0xFD#8])]),
    ⟨fun b => if b = 0 then [1, 0x31, 0xCC, 2, 1, 0xCC, 0x31, 2] else [], fun _ => []⟩, ⟨0, 0, 4#32⟩, ⟨0, 4, 4#32⟩,
    .crc8 (v := IMU.Crc.Crc8) ?_ ?_ rfl, ?_, rfl, ?_, ?_, ?_, ?_, ?_⟩
  · simp [IMU.Crc.variants8]
  · simp [catalogue8]
  · simp [exchanges, exchange8]
  · unfold Piece.In; decide
  · unfold Piece.In; decide
  · decide
  · decide
  · decide

/-- `Crc8` does not notice this exchange, and notices that of two other bytes. -/
example : crc ⟨0x07#8, 0x00#8, false, false, 0x00#8⟩ [1, 0xCC, 0x31, 2] = crc ⟨0x07#8, 0x00#8, false, false, 0x00#8⟩ [1, 0x31, 0xCC, 2] ∧
    crc ⟨0x07#8, 0x00#8, false, false, 0x00#8⟩ [1, 0xCD, 0x31, 2] ≠ crc ⟨0x07#8, 0x00#8, false, false, 0x00#8⟩ [1, 0x31, 0xCD, 2] := by
  decide +kernel

end IMU.Props
