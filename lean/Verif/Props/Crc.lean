import Verif.Proofs.CrcVariants
import Verif.Proofs.CrcAlgebra
import Verif.Proofs.CrcPoly
import Verif.Props.Base64

/-!
# CRC: properties C12 to C20 and C72

Specification: `Verif/Spec/Crc.lean` (the bit-at-a-time CRC), `Verif/Spec/CrcCatalogue.lean` (published parameters),
`Verif/Spec/CrcPoly.lean` (polynomials over GF(2)), `Verif/Spec/CrcCalls.lean` (`Shipped`: the 45 functions).
-/

namespace IMU.Props
open Spec.Crc

/-! ### The 45 functions -/

/-- Every function has exactly one entry of the catalogue, and every entry a function. -/
theorem crc_names :
    Crc.variants8.map (·.name) = catalogue8.map (·.name) ∧ Crc.variants16.map (·.name) = catalogue16.map (·.name) ∧
    Crc.variants32.map (·.name) = catalogue32.map (·.name) ∧
    (Crc.variants8.map (·.name) ++ Crc.variants16.map (·.name) ++ Crc.variants32.map (·.name)).Nodup ∧
    Crc.variants8.length + Crc.variants16.length + Crc.variants32.length = 45 := by
  decide +kernel

/-- So `Shipped` speaks about all 45 functions. -/
theorem crc_shipped :
    (∀ v ∈ Crc.variants8, ∃ e, Shipped 8 e (v.call Crc.base8)) ∧
    (∀ v ∈ Crc.variants16, ∃ e, Shipped 16 e (v.call Crc.base16)) ∧
    (∀ v ∈ Crc.variants32, ∃ e, Shipped 32 e (v.call Crc.base32)) := by
  have key : ∀ {w} {l : List (Crc.Variant w)} {c : List (Entry w)}, l.map (·.name) = c.map (·.name) →
      ∀ v ∈ l, ∃ e ∈ c, v.name = e.name := by
    intro w l c h v hv
    have : v.name ∈ c.map (·.name) := h ▸ List.mem_map_of_mem hv
    obtain ⟨e, he, hn⟩ := List.mem_map.mp this
    exact ⟨e, he, hn.symm⟩
  refine ⟨fun v hv => ?_, fun v hv => ?_, fun v hv => ?_⟩
  · obtain ⟨e, he, hn⟩ := key crc_names.1 v hv
    exact ⟨e, .crc8 hv he hn⟩
  · obtain ⟨e, he, hn⟩ := key crc_names.2.1 v hv
    exact ⟨e, .crc16 hv he hn⟩
  · obtain ⟨e, he, hn⟩ := key crc_names.2.2.1 v hv
    exact ⟨e, .crc32 hv he hn⟩

/-! ### C12: the tables -/

/-- C12: the table of each function is what the generator writes for the published polynomial, whatever was in the
array before. -/
theorem C12_tables (m : Mem) :
    (∀ v ∈ Crc.variants8, ∀ e ∈ catalogue8, v.name = e.name → v.crc_table.length = 256 ∧ ∀ T : List Byte, T.length = 256 →
      Crc.tableCalculator8 e.params.poly T m = .ok v.crc_table m) ∧
    (∀ v ∈ Crc.variants16, ∀ e ∈ catalogue16, v.name = e.name → v.crc_table.length = 256 ∧ ∀ T : List U16, T.length = 256 →
      Crc.tableCalculator16 e.params.poly T m = .ok v.crc_table m) ∧
    (∀ v ∈ Crc.variants32, ∀ e ∈ catalogue32, v.name = e.name → v.crc_table.length = 256 ∧ ∀ T : List U32, T.length = 256 →
      Crc.tableCalculator32 e.params.poly T m = .ok v.crc_table m) := by
  refine ⟨fun v hv e he hn => ?_, fun v hv e he hn => ?_, fun v hv e he hn => ?_⟩
  · have h := (Crc.sound8 v hv e he hn).table
    refine ⟨by rw [h]; simp [Crc.tableOf], fun T hT => ?_⟩
    rw [Crc.tableCalculator8_ok _ _ _ (by omega), h, List.drop_of_length_le (by omega), List.append_nil]
  · have h := (Crc.sound16 v hv e he hn).table
    refine ⟨by rw [h]; simp [Crc.tableOf], fun T hT => ?_⟩
    rw [Crc.tableCalculator16_ok _ _ _ (by omega), h, List.drop_of_length_le (by omega), List.append_nil]
  · have h := (Crc.sound32 v hv e he hn).table
    refine ⟨by rw [h]; simp [Crc.tableOf], fun T hT => ?_⟩
    rw [Crc.tableCalculator32_ok _ _ _ (by omega), h, List.drop_of_length_le (by omega), List.append_nil]

/-! ### C13: the generator and the loop, for every polynomial -/

/-- Entry `d` of the generated table: the register after the eight bits of `d` enter an empty register. -/
theorem entry_spec {w : Nat} (hw : 8 ≤ w) (P : BitVec w) (d : Byte) : Crc.entry P d = crcBits P 0#w (bitsMSB d) := by
  rw [Crc.crcBits_byte hw]
  simp [Crc.high]

/-- C13: the generated tables, for every polynomial and every array of at least 256 items: the first 256 items become
the remainders, the others stay.  A shorter array is overrun. -/
theorem C13_generator (m : Mem) :
    (∀ (P : Byte) (T : List Byte), 256 ≤ T.length → ∃ T', Crc.tableCalculator8 P T m = .ok T' m ∧
      T'.length = T.length ∧ (∀ d : Byte, T'[d.toNat]? = some (crcBits P 0#8 (bitsMSB d))) ∧
      ∀ i, 256 ≤ i → T'[i]? = T[i]?) ∧
    (∀ (P : U16) (T : List U16), 256 ≤ T.length → ∃ T', Crc.tableCalculator16 P T m = .ok T' m ∧
      T'.length = T.length ∧ (∀ d : Byte, T'[d.toNat]? = some (crcBits P 0#16 (bitsMSB d))) ∧
      ∀ i, 256 ≤ i → T'[i]? = T[i]?) ∧
    (∀ (P : U32) (T : List U32), 256 ≤ T.length → ∃ T', Crc.tableCalculator32 P T m = .ok T' m ∧
      T'.length = T.length ∧ (∀ d : Byte, T'[d.toNat]? = some (crcBits P 0#32 (bitsMSB d))) ∧
      ∀ i, 256 ≤ i → T'[i]? = T[i]?) := by
  have key : ∀ {w : Nat} (_ : 8 ≤ w) (P : BitVec w) (T : List (BitVec w)), 256 ≤ T.length →
      (Crc.tableOf P ++ T.drop 256).length = T.length ∧
      (∀ d : Byte, (Crc.tableOf P ++ T.drop 256)[d.toNat]? = some (crcBits P 0#w (bitsMSB d))) ∧
      ∀ i, 256 ≤ i → (Crc.tableOf P ++ T.drop 256)[i]? = T[i]? := by
    intro w hw P T h
    have hl : (Crc.tableOf P).length = 256 := by simp [Crc.tableOf]
    refine ⟨by simp [hl]; omega, fun d => ?_, fun i hi => ?_⟩
    · rw [List.getElem?_append_left (by have := d.isLt; omega), Crc.tableOf_get, entry_spec hw]
    · rw [List.getElem?_append_right (by omega), hl, List.getElem?_drop, Nat.add_sub_cancel' hi]
  exact ⟨fun P T h => ⟨_, Crc.tableCalculator8_ok P T m h, key (by decide) P T h⟩,
    fun P T h => ⟨_, Crc.tableCalculator16_ok P T m h, key (by decide) P T h⟩,
    fun P T h => ⟨_, Crc.tableCalculator32_ok P T m h, key (by decide) P T h⟩⟩

/-- C13: an array of fewer than 256 items is overrun. -/
theorem C13_generator_short (m : Mem) :
    (∀ (P : Byte) (T : List Byte), T.length < 256 → Crc.tableCalculator8 P T m = .ub .oobWrite) ∧
    (∀ (P : U16) (T : List U16), T.length < 256 → Crc.tableCalculator16 P T m = .ub .oobWrite) ∧
    (∀ (P : U32) (T : List U32), T.length < 256 → Crc.tableCalculator32 P T m = .ub .oobWrite) := by
  refine ⟨fun P T h => ?_, fun P T h => ?_, fun P T h => ?_⟩
  · unfold Crc.tableCalculator8; rw [Crc.fill_oob _ m 256 T h]
  · unfold Crc.tableCalculator16; rw [Crc.fill_oob _ m 256 T h]
  · unfold Crc.tableCalculator32; rw [Crc.fill_oob _ m 256 T h]

/-- The parameters that a call of `CrcNBase` stands for. -/
def callParams {w : Nat} (P init fxv : BitVec w) (refout refin fx : Bool) : Params w :=
  ⟨P, init, refin, refout, if fx then fxv else 0#w⟩

/-- C13: the table-driven loop with a generated table is the bit-at-a-time CRC, for every polynomial, initial value,
final xor value, flags and message. -/
theorem C13_loop {m : Mem} {b o : Nat} {len : U32} (h : o + len.toNat ≤ (m.bytes b).length) (refout refin fx : Bool) :
    (∀ (P init fxv : Byte) (T T' : List Byte), T.length = 256 → Crc.tableCalculator8 P T m = .ok T' m →
      Crc.base8 T' (ptr b o) len init fxv refout refin fx m =
        .ok (crc (callParams P init fxv refout refin fx) (slice (m.bytes b) o len.toNat)) m) ∧
    (∀ (P init fxv : U16) (T T' : List U16), T.length = 256 → Crc.tableCalculator16 P T m = .ok T' m →
      Crc.base16 T' (ptr b o) len init fxv refout refin fx m =
        .ok (crc (callParams P init fxv refout refin fx) (slice (m.bytes b) o len.toNat)) m) ∧
    (∀ (P init fxv : U32) (T T' : List U32), T.length = 256 → Crc.tableCalculator32 P T m = .ok T' m →
      Crc.base32 T' (ptr b o) len init fxv refout refin fx m =
        .ok (crc (callParams P init fxv refout refin fx) (slice (m.bytes b) o len.toNat)) m) := by
  have hr := reads_slice h
  have hl := slice_length _ _ _ h
  refine ⟨fun P init fxv T T' hT hc => ?_, fun P init fxv T T' hT hc => ?_, fun P init fxv T T' hT hc => ?_⟩
  · rw [Crc.tableCalculator8_ok _ _ _ (by omega), List.drop_of_length_le (by omega), List.append_nil] at hc
    cases hc
    rw [Crc.base8_ok P hr hl]; rfl
  · rw [Crc.tableCalculator16_ok _ _ _ (by omega), List.drop_of_length_le (by omega), List.append_nil] at hc
    cases hc
    rw [Crc.base16_ok P hr hl]; rfl
  · rw [Crc.tableCalculator32_ok _ _ _ (by omega), List.drop_of_length_le (by omega), List.append_nil] at hc
    cases hc
    rw [Crc.base32_ok P hr hl]; rfl

/-- A message in memory that meets the hypotheses: "123456789" at offset 2 of object 7. -/
def crcMem : Mem := ⟨fun b => if b = 7 then [0#8, 0#8, 49#8, 50#8, 51#8, 52#8, 53#8, 54#8, 55#8, 56#8, 57#8] else [], fun _ => []⟩

example : 2 + (9#32).toNat ≤ (crcMem.bytes 7).length ∧
    slice (crcMem.bytes 7) 2 9 = [49#8, 50#8, 51#8, 52#8, 53#8, 54#8, 55#8, 56#8, 57#8] := by decide

/-! ### C72: the functions compute the published CRCs -/

/-- C72: a single call computes the CRC with the published parameters. -/
theorem C72_published {w : Nat} {e : Entry w} {f : CrcFn w} (hf : Shipped w e f) {m : Mem} {b o : Nat} {len : U32}
    (h : o + len.toNat ≤ (m.bytes b).length) :
    f (ptr b o) len true none m = .ok (crc e.params (slice (m.bytes b) o len.toNat)) m :=
  (Crc.shipped_impl hf).run (reads_slice h) (slice_length _ _ _ h) true none

/-- The published parameters are consistent with the published checksums of "123456789". -/
theorem crc_checks :
    (∀ e ∈ catalogue8, crc e.params [49#8, 50#8, 51#8, 52#8, 53#8, 54#8, 55#8, 56#8, 57#8] = e.check) ∧
    (∀ e ∈ catalogue16, crc e.params [49#8, 50#8, 51#8, 52#8, 53#8, 54#8, 55#8, 56#8, 57#8] = e.check) ∧
    (∀ e ∈ catalogue32, crc e.params [49#8, 50#8, 51#8, 52#8, 53#8, 54#8, 55#8, 56#8, 57#8] = e.check) := by
  decide +kernel

/-- The well-known checksum of the well-known function. -/
example : Crc.Crc32.call Crc.base32 (ptr 7 2) 9#32 true none crcMem = .ok 0xCBF43926#32 crcMem := by
  have hs : Shipped 32 ⟨"Crc32", ⟨0x04C11DB7#32, 0xFFFFFFFF#32, true, true, 0xFFFFFFFF#32⟩, 0xCBF43926#32,
      [0x04C11DB7#32, 0x04C11DB7#32, 0x04C11DB7#32]⟩ (Crc.Crc32.call Crc.base32) :=
    .crc32 (List.mem_cons_self ..) (List.mem_cons_self ..) rfl
  have hd : slice (crcMem.bytes 7) 2 (9#32).toNat = [49#8, 50#8, 51#8, 52#8, 53#8, 54#8, 55#8, 56#8, 57#8] := by decide
  rw [C72_published hs (by decide), hd, crc_checks.2.2 _ (List.mem_cons_self ..)]

/-! ### C14: remainders of polynomials -/

/-- C14: the CRC, after undoing the final xor and the output reflection, is the remainder of
`init * x^(8 n) + M(x) * x^w`, for every width, parameters and message.  The coefficients of `M` are the bits of the message in
the order in which they are processed. -/
theorem C14_remainder {w : Nat} (hw : 0 < w) (p : Params w) (msg : List Byte) :
    polyOf (if p.refout then (crc p msg ^^^ p.xorout).reverse else crc p msg ^^^ p.xorout) =
      Polynomial.modByMonic (polyOf p.init * Polynomial.X ^ (8 * msg.length) + polyBits (bits p.refin msg) * Polynomial.X ^ w)
        (divisor p.poly) := by
  unfold crc
  rw [← Crc.bits_length p.refin msg, ← Crc.crcBits_rem hw, BitVec.xor_assoc, BitVec.xor_self, BitVec.xor_zero]
  cases p.refout
  · rfl
  · rw [if_pos rfl, if_pos rfl, Crc.reverse_reverse]

/-- C14: the remainder determines the checksum. -/
theorem C14_injective {w : Nat} {r s : BitVec w} (h : polyOf r = polyOf s) : r = s := Crc.polyOf_inj h

/-- C14 at the functions. -/
theorem C14_functions {w : Nat} {e : Entry w} {f : CrcFn w} (hf : Shipped w e f) {m : Mem} {b o : Nat} {len : U32}
    (h : o + len.toNat ≤ (m.bytes b).length) :
    ∃ c, f (ptr b o) len true none m = .ok c m ∧
      polyOf (if e.params.refout then (c ^^^ e.params.xorout).reverse else c ^^^ e.params.xorout) =
      Polynomial.modByMonic (polyOf e.params.init * Polynomial.X ^ (8 * len.toNat) +
        polyBits (bits e.params.refin (slice (m.bytes b) o len.toNat)) * Polynomial.X ^ w) (divisor e.params.poly) := by
  refine ⟨_, C72_published hf h, ?_⟩
  have hi := Crc.shipped_impl hf
  have := C14_remainder (by have := hi.wide; omega) e.params (slice (m.bytes b) o len.toNat)
  rw [slice_length _ _ _ h] at this
  exact this

/-! ### C15: messages in pieces -/

theorem chunked_run {w : Nat} {p : Params w} {f : CrcFn w} (hf : Crc.Impl w p f) {m : Mem} : ∀ (rest : List Piece)
    (q : Piece) (last : Option (BitVec w)), (∀ c ∈ q :: rest, c.In m) →
    chunked f last q rest m = .ok (crc { p with init := last.getD p.init } ((q :: rest).flatMap (·.data m))) m := by
  intro rest
  induction rest with
  | nil =>
    intro q last h
    have hq := h q (List.mem_cons_self ..)
    rw [chunked, hf.run (reads_slice hq) (slice_length _ _ _ hq)]
    simp [Piece.data]
  | cons q' rest ih =>
    intro q last h
    have hq := h q (List.mem_cons_self ..)
    rw [chunked, C.bind_ok (hf.run (reads_slice hq) (slice_length _ _ _ hq) false last),
      ih q' _ (fun c hc => h c (List.mem_cons_of_mem _ hc))]
    congr 1
    rw [List.flatMap_cons (x := q)]
    unfold crc
    dsimp only
    rw [Crc.bits_append, Crc.crcBits_append]
    rfl

/-- C15: a message that arrives in pieces, anywhere in memory and of any lengths, gets the published CRC of the
concatenation. -/
theorem C15_pieces {w : Nat} {e : Entry w} {f : CrcFn w} (hf : Shipped w e f) {m : Mem} {q : Piece} {rest : List Piece}
    (h : ∀ c ∈ q :: rest, c.In m) :
    chunked f none q rest m = .ok (crc e.params ((q :: rest).flatMap (·.data m))) m := by
  rw [chunked_run (Crc.shipped_impl hf) rest q none h]; rfl

/-- C15: in particular the same as one call on a contiguous copy. -/
theorem C15_one_call {w : Nat} {e : Entry w} {f : CrcFn w} (hf : Shipped w e f) {m : Mem} {q whole : Piece} {rest : List Piece}
    (h : ∀ c ∈ q :: rest, c.In m) (hw : whole.In m) (hd : whole.data m = (q :: rest).flatMap (·.data m)) :
    chunked f none q rest m = f (ptr whole.b whole.o) whole.n true none m := by
  rw [C15_pieces hf h, C72_published hf hw, ← hd]; rfl

/-- Pieces with an empty one among them, and the whole. -/
example : (∀ c ∈ [⟨7, 2, 4#32⟩, ⟨7, 6, 0#32⟩, (⟨7, 6, 5#32⟩ : Piece)], c.In crcMem) ∧ (⟨7, 2, 9#32⟩ : Piece).In crcMem ∧
    (⟨7, 2, 9#32⟩ : Piece).data crcMem = [⟨7, 2, 4#32⟩, ⟨7, 6, 0#32⟩, (⟨7, 6, 5#32⟩ : Piece)].flatMap (·.data crcMem) := by
  refine ⟨?_, by unfold Piece.In; decide, by decide⟩
  intro c hc
  simp only [List.mem_cons, List.not_mem_nil, or_false] at hc
  rcases hc with rfl | rfl | rfl <;> (unfold Piece.In; decide)

/-! ### C16: burst errors -/

/-- `x` and `y` differ, and only within `n` consecutive positions. -/
def Burst (n : Nat) (x y : List Bool) : Prop :=
  x.length = y.length ∧ x ≠ y ∧ ∃ k, ∀ i, x[i]? ≠ y[i]? → k ≤ i ∧ i < k + n

theorem burst_pattern {n : Nat} {x y : List Bool} (h : Burst n x y) : ∃ k j d, d.length ≤ n ∧ true ∈ d ∧
    List.zipWith xor x y = List.replicate k false ++ d ++ List.replicate j false := by
  obtain ⟨hl, hne, k, hk⟩ := h
  have hz : ∀ i, (hi : i < (List.zipWith xor x y).length) → ¬ (k ≤ i ∧ i < k + n) → (List.zipWith xor x y)[i] = false := by
    intro i hi hn
    have hi2 : i < x.length ∧ i < y.length := by rw [List.length_zipWith] at hi; omega
    have : x[i]? = y[i]? := by
      by_cases hc : x[i]? = y[i]?
      · exact hc
      · exact absurd (hk i hc) hn
    rw [List.getElem?_eq_getElem hi2.1, List.getElem?_eq_getElem hi2.2] at this
    simp only [Option.some.injEq] at this
    simp [this]
  generalize hd : List.zipWith xor x y = z at hz
  refine ⟨(z.take k).length, (z.drop (k + n)).length, (z.drop k).take n, List.length_take_le .., ?_, ?_⟩
  · by_cases ht : true ∈ z
    · obtain ⟨i, hi, he⟩ := List.getElem_of_mem ht
      have hin : k ≤ i ∧ i < k + n := by
        by_cases hc : k ≤ i ∧ i < k + n
        · exact hc
        · have := hz i hi hc
          rw [he] at this; cases this
      apply List.mem_iff_getElem?.mpr
      refine ⟨i - k, ?_⟩
      rw [List.getElem?_take_of_lt (by omega), List.getElem?_drop, show k + (i - k) = i by omega, List.getElem?_eq_getElem hi, he]
    · exfalso
      apply hne
      apply List.ext_getElem hl
      intro i h1 h2
      have hi : i < z.length := by rw [← hd, List.length_zipWith]; omega
      have : z[i] = false := by
        cases hc : z[i] with
        | false => rfl
        | true => exact absurd (hc ▸ List.getElem_mem hi) ht
      subst hd
      rw [List.getElem_zipWith] at this
      revert this
      cases x[i] <;> cases y[i] <;> simp
  · have e1 : z.take k = List.replicate (z.take k).length false := by
      apply List.eq_replicate_of_mem
      intro b hb
      obtain ⟨i, hi, rfl⟩ := List.getElem_of_mem hb
      rw [List.length_take] at hi
      rw [List.getElem_take]
      exact hz i (by omega) (by omega)
    have e2 : z.drop (k + n) = List.replicate (z.drop (k + n)).length false := by
      apply List.eq_replicate_of_mem
      intro b hb
      obtain ⟨i, hi, rfl⟩ := List.getElem_of_mem hb
      rw [List.length_drop] at hi
      rw [List.getElem_drop]
      exact hz _ (by omega) (by omega)
    rw [← e1, ← e2, ← List.drop_drop, List.append_assoc, List.take_append_drop, List.take_append_drop]

/-- C16: messages that differ by a burst of at most `w` bits (in the order in which the bits enter the register) have
different checksums: for every CRC whose polynomial has constant term 1. -/
theorem C16_burst {w : Nat} (p : Params w) (hp : p.poly.getLsbD 0 = true) {x y : List Byte}
    (h : Burst w (bits p.refin x) (bits p.refin y)) : crc p x ≠ crc p y := by
  have hl : x.length = y.length := by
    have := h.1
    rw [Crc.bits_length, Crc.bits_length] at this
    omega
  obtain ⟨k, j, d, hd, ht, hz⟩ := burst_pattern h
  rw [Ne, Crc.crc_eq_iff p x y hl, hz]
  exact Crc.burst hp k j hd ht

/-- C16 at the functions: two such messages in memory get different checksums. -/
theorem C16_functions {w : Nat} {e : Entry w} {f : CrcFn w} (hf : Shipped w e f) {m : Mem} {p q : Piece} (hp : p.In m)
    (hq : q.In m) (h : Burst w (bits e.params.refin (p.data m)) (bits e.params.refin (q.data m))) :
    ∃ c d, f (ptr p.b p.o) p.n true none m = .ok c m ∧ f (ptr q.b q.o) q.n true none m = .ok d m ∧ c ≠ d :=
  ⟨_, _, C72_published hf hp, C72_published hf hq, C16_burst e.params (Crc.shipped_impl hf).odd h⟩

/-- C16: in particular one flipped bit. -/
theorem C16_single_bit {w : Nat} {e : Entry w} {f : CrcFn w} (hf : Shipped w e f) {m : Mem} {p q : Piece} (hp : p.In m)
    (hq : q.In m) {a c : List Byte} {d : Byte} {i : Nat} (hi : i < 8) (h1 : p.data m = a ++ d :: c)
    (h2 : q.data m = a ++ (d ^^^ (1#8 <<< i)) :: c) :
    ∃ x y, f (ptr p.b p.o) p.n true none m = .ok x m ∧ f (ptr q.b q.o) q.n true none m = .ok y m ∧ x ≠ y := by
  apply C16_functions hf hp hq
  have hw := (Crc.shipped_impl hf).wide
  rw [h1, h2]
  refine ⟨by rw [Crc.bits_length, Crc.bits_length]; simp, ?_, 8 * a.length, ?_⟩
  · intro he
    rw [Crc.bits_append, Crc.bits_append, Crc.bits_cons, Crc.bits_cons] at he
    have he := List.append_cancel_right (List.append_cancel_left he)
    have key : ∀ (r : Bool) (d : Byte) (i : Nat), i < 8 → Crc.bitsOf r d ≠ Crc.bitsOf r (d ^^^ (1#8 <<< i)) := by
      decide +kernel
    exact key _ d i hi he
  · intro i hne
    rw [Crc.bits_append, Crc.bits_append, Crc.bits_cons, Crc.bits_cons] at hne
    have hla := Crc.bits_length e.params.refin a
    constructor
    · by_cases hc : 8 * a.length ≤ i
      · exact hc
      · exfalso; apply hne
        rw [List.getElem?_append_left (by omega), List.getElem?_append_left (by omega)]
    · by_cases hc : i < 8 * a.length + w
      · exact hc
      · exfalso; apply hne
        have hx : ∀ x : List Bool, x.length = 8 →
            (bits e.params.refin a ++ (x ++ bits e.params.refin c))[i]? = (bits e.params.refin c)[i - 8 * a.length - 8]? := by
          intro x hx
          rw [List.getElem?_append_right (by omega), List.getElem?_append_right (by omega), hla, hx]
        rw [hx _ (Crc.bitsOf_length _ _), hx _ (Crc.bitsOf_length _ _)]

/-! ### C17: checksums are affine -/

/-- C17: the difference of two checksums is the checksum of the difference, without initial value and final xor. -/
theorem C17_affine {w : Nat} {e : Entry w} {f : CrcFn w} (hf : Shipped w e f) {m : Mem} {p q : Piece} (hp : p.In m)
    (hq : q.In m) (hl : p.n = q.n) :
    ∃ c d, f (ptr p.b p.o) p.n true none m = .ok c m ∧ f (ptr q.b q.o) q.n true none m = .ok d m ∧
      c ^^^ d = crc { e.params with init := 0#w, xorout := 0#w } (List.zipWith (· ^^^ ·) (p.data m) (q.data m)) := by
  refine ⟨_, _, C72_published hf hp, C72_published hf hq, ?_⟩
  have h := Crc.crc_xor e.params e.params.init e.params.init (p.data m) (q.data m) (by
    unfold Piece.data; rw [slice_length _ _ _ hp, slice_length _ _ _ hq, hl])
  rw [BitVec.xor_self] at h
  exact h

/-- C17: so it depends on the difference of the messages only. -/
theorem C17_difference {w : Nat} {e : Entry w} {f : CrcFn w} (hf : Shipped w e f) {m : Mem} {p q p' q' : Piece}
    (hp : p.In m) (hq : q.In m) (hp' : p'.In m) (hq' : q'.In m) (hl : p.n = q.n) (hl' : p'.n = q'.n)
    (hd : List.zipWith (· ^^^ ·) (p.data m) (q.data m) = List.zipWith (· ^^^ ·) (p'.data m) (q'.data m)) :
    ∃ c d c' d', f (ptr p.b p.o) p.n true none m = .ok c m ∧ f (ptr q.b q.o) q.n true none m = .ok d m ∧
      f (ptr p'.b p'.o) p'.n true none m = .ok c' m ∧ f (ptr q'.b q'.o) q'.n true none m = .ok d' m ∧
      c ^^^ d = c' ^^^ d' := by
  obtain ⟨c, d, h1, h2, h3⟩ := C17_affine hf hp hq hl
  obtain ⟨c', d', h1', h2', h3'⟩ := C17_affine hf hp' hq' hl'
  exact ⟨c, d, c', d', h1, h2, h1', h2', by rw [h3, h3', hd]⟩

/-- C17: starting values `a` and `b` (through `last_crc_ptr`) change the checksum of a message by the checksum of as many
zero bytes from `a ^ b`. -/
theorem C17_initial {w : Nat} {e : Entry w} {f : CrcFn w} (hf : Shipped w e f) {m : Mem} {p : Piece} (hp : p.In m)
    (a b : BitVec w) :
    ∃ c d, f (ptr p.b p.o) p.n true (some a) m = .ok c m ∧ f (ptr p.b p.o) p.n true (some b) m = .ok d m ∧
      c ^^^ d = crc { e.params with init := a ^^^ b, xorout := 0#w } (List.replicate p.n.toNat 0#8) := by
  have hi := Crc.shipped_impl hf
  refine ⟨_, _, hi.run (reads_slice hp) (slice_length _ _ _ hp) true (some a),
    hi.run (reads_slice hp) (slice_length _ _ _ hp) true (some b), ?_⟩
  have h := Crc.crc_xor e.params a b (p.data m) (p.data m) rfl
  have hz : List.zipWith (· ^^^ ·) (p.data m) (p.data m) = List.replicate p.n.toNat 0#8 := by
    apply List.eq_replicate_iff.mpr
    refine ⟨by simp [Piece.data, slice_length _ _ _ hp], ?_⟩
    intro x hx
    obtain ⟨i, hi, rfl⟩ := List.getElem_of_mem hx
    simp
  rw [hz] at h
  exact h

/-! ### C18: what a call reads -/

/-- C18: a call with readable data returns, and memory is as before. -/
theorem C18_returns {w : Nat} {e : Entry w} {f : CrcFn w} (hf : Shipped w e f) {m : Mem} {b o : Nat} {len : U32}
    (h : o + len.toNat ≤ (m.bytes b).length) (fc : Bool) (last : Option (BitVec w)) :
    ∃ c, f (ptr b o) len fc last m = .ok c m :=
  ⟨_, (Crc.shipped_impl hf).run (reads_slice h) (slice_length _ _ _ h) fc last⟩

/-- C18: the result depends on the `len` bytes only. -/
theorem C18_depends {w : Nat} {e : Entry w} {f : CrcFn w} (hf : Shipped w e f) {m m' : Mem} {b o b' o' : Nat} {len : U32}
    (h : o + len.toNat ≤ (m.bytes b).length) (h' : o' + len.toNat ≤ (m'.bytes b').length)
    (hd : slice (m.bytes b) o len.toNat = slice (m'.bytes b') o' len.toNat) (fc : Bool) (last : Option (BitVec w)) :
    ∃ c, f (ptr b o) len fc last m = .ok c m ∧ f (ptr b' o') len fc last m' = .ok c m' := by
  have hi := Crc.shipped_impl hf
  refine ⟨_, hi.run (reads_slice h) (slice_length _ _ _ h) fc last, ?_⟩
  rw [hi.run (reads_slice h') (slice_length _ _ _ h') fc last, hd]

/-- C18: otherwise it reads outside the object: all `len` bytes are read. -/
theorem C18_reads {w : Nat} {e : Entry w} {f : CrcFn w} (hf : Shipped w e f) {m : Mem} {q : Ptr} {len : U32}
    (h : 0 < len.toNat ∧ (q.off < 0 ∨ ((m.bytes q.blk).length : Int) < q.off + len.toNat)) (fc : Bool)
    (last : Option (BitVec w)) : f q len fc last m = .ub .oobRead := by
  have hi := Crc.shipped_impl hf
  by_cases hn : q.off < 0
  · exact hi.neg h.1 hn fc last
  · obtain ⟨b, z⟩ := q
    obtain ⟨o, rfl⟩ : ∃ o : Nat, z = o := ⟨z.toNat, by simp at hn; omega⟩
    exact hi.oob h.1 (by have := h.2; simp at this; omega) fc last

example : ((crcMem.bytes 7).length : Int) < (ptr 7 3).off + (9#32).toNat := by decide

/-! ### C19: the right-shifting algorithm -/

/-- C19: a function with reflection is the textbook right-shifting algorithm with the mirrored polynomial and initial
value. -/
theorem C19_lsb_first {w : Nat} {e : Entry w} {f : CrcFn w} (hf : Shipped w e f) (href : e.params.refin = true) {m : Mem}
    {b o : Nat} {len : U32} (h : o + len.toNat ≤ (m.bytes b).length) :
    f (ptr b o) len true none m =
      .ok (crcLSB e.params.poly.reverse e.params.init.reverse (slice (m.bytes b) o len.toNat) ^^^ e.params.xorout) m := by
  rw [C72_published hf h]
  have hi := Crc.shipped_impl hf
  unfold crc
  rw [← hi.same, href]
  simp only [if_true, Crc.crcBits_reverse hi.wide]

/-- The mirrored constants of `Crc32` are the familiar ones. -/
example : (0x04C11DB7#32).reverse = 0xEDB88320#32 ∧ (0xFFFFFFFF#32).reverse = 0xFFFFFFFF#32 := by decide +kernel

/-! ### C20: the documented polynomials -/

/-- C20: with four exceptions, each function uses the one polynomial that its header and its source document. -/
theorem C20_documented {w : Nat} {e : Entry w} {f : CrcFn w} (_ : Shipped w e f)
    (hx : e.name ∉ ["Crc32_d", "Crc32_posix", "Crc32_q", "Crc32_xfer"]) :
    e.documented ≠ [] ∧ ∀ P ∈ e.documented, P = e.params.poly := by
  have h8 : ∀ e ∈ catalogue8, e.name ∉ ["Crc32_d", "Crc32_posix", "Crc32_q", "Crc32_xfer"] →
      e.documented ≠ [] ∧ e.documented.all (· == e.params.poly) = true := by decide +kernel
  have h16 : ∀ e ∈ catalogue16, e.name ∉ ["Crc32_d", "Crc32_posix", "Crc32_q", "Crc32_xfer"] →
      e.documented ≠ [] ∧ e.documented.all (· == e.params.poly) = true := by decide +kernel
  have h32 : ∀ e ∈ catalogue32, e.name ∉ ["Crc32_d", "Crc32_posix", "Crc32_q", "Crc32_xfer"] →
      e.documented ≠ [] ∧ e.documented.all (· == e.params.poly) = true := by decide +kernel
  have key : ∀ {w : Nat} {e : Entry w}, (e.documented ≠ [] ∧ e.documented.all (· == e.params.poly) = true) →
      e.documented ≠ [] ∧ ∀ P ∈ e.documented, P = e.params.poly := by
    intro w e h
    exact ⟨h.1, fun P hP => by simpa using List.all_eq_true.mp h.2 P hP⟩
  rename_i hs
  cases hs with
  | crc8 hv he hn => exact key (h8 _ he hx)
  | crc16 hv he hn => exact key (h16 _ he hx)
  | crc32 hv he hn => exact key (h32 _ he hx)

/-- C20: a wrong polynomial shows: CRCs that differ in nothing but the polynomial differ on some one-byte message. -/
theorem C20_poly_matters {w : Nat} (hw : 0 < w) (p : Params w) {P : BitVec w} (h : P ≠ p.poly) :
    ∃ d : Byte, crc { p with poly := P } [d] ≠ crc p [d] := by
  by_cases hc : ∃ d : Byte, crc { p with poly := P } [d] ≠ crc p [d]
  · exact hc
  · exfalso
    have hall : ∀ d : Byte, crc { p with poly := P } [d] = crc p [d] := fun d => by
      by_cases he : crc { p with poly := P } [d] = crc p [d]
      · exact he
      · exact absurd ⟨d, he⟩ hc
    let d : Byte := if p.refin then 0x80#8 else 1#8
    have hbits : bits p.refin [d] = List.replicate 7 false ++ [true] := by
      show bits p.refin [if p.refin then 0x80#8 else 1#8] = _
      cases p.refin <;> decide
    have key : ∀ Q : BitVec w, crc { p with poly := Q } [d] ^^^ crc { p with poly := Q } [0#8] =
        if p.refout then Q.reverse else Q := by
      intro Q
      have hx := Crc.crc_xor { p with poly := Q } p.init p.init [d] [0#8] rfl
      dsimp only at hx
      rw [BitVec.xor_self] at hx
      refine hx.trans ?_
      unfold crc
      dsimp only
      have hz : List.zipWith (fun x1 x2 : Byte => x1 ^^^ x2) [d] [0#8] = [d] := by simp
      have hf : feed Q 0#w true = Q := by unfold feed; simp [hw]
      rw [hz, hbits, Crc.crcBits_append, Crc.crcBits_zeros, Crc.rounds_zero, BitVec.xor_zero]
      show (if p.refout then (feed Q 0#w true).reverse else feed Q 0#w true) = _
      rw [hf]
    have h1 := key P
    have h2 := key p.poly
    rw [hall d, hall 0#8] at h1
    have h3 : (if p.refout then P.reverse else P) = (if p.refout then p.poly.reverse else p.poly) := h1.symm.trans h2
    apply h
    cases hr : p.refout
    · simpa [hr] using h3
    · rw [hr, if_pos rfl, if_pos rfl] at h3
      rw [← Crc.reverse_reverse P, h3, Crc.reverse_reverse]

/-- C20: the four exceptions document a polynomial that gives other checksums than the function. -/
theorem C20_exceptions : ∀ e ∈ catalogue32, e.name ∈ ["Crc32_d", "Crc32_posix", "Crc32_q", "Crc32_xfer"] →
    ∃ P ∈ e.documented, ∃ d : Byte, crc { e.params with poly := P } [d] ≠ crc e.params [d] := by
  have h : ∀ e ∈ catalogue32, e.name ∈ ["Crc32_d", "Crc32_posix", "Crc32_q", "Crc32_xfer"] →
    e.documented.any (· != e.params.poly) = true := by decide +kernel
  intro e he hn
  obtain ⟨P, hP, hne⟩ := List.any_eq_true.mp (h e he hn)
  have hne : P ≠ e.params.poly := by simpa using hne
  exact ⟨P, hP, C20_poly_matters (by decide) e.params hne⟩

end IMU.Props
