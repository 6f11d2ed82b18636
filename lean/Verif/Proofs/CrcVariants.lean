import Verif.Proofs.CrcTables

/-! # The 45 functions -/

namespace IMU.Crc
open Spec.Crc
open Base64 (Reads)

/-! ### Reading outside the object -/

theorem loop_oob {w : Nat} (P : BitVec w) (refin : Bool) {round : Nat → BitVec w → C (BitVec w)} {m : Mem} {b o : Nat}
    (hround : ∀ i crc d, (m.bytes b)[o + i]? = some d → round i crc m = .ok (crcBits P crc (bitsOf refin d)) m)
    (hoob : ∀ i crc, (m.bytes b).length ≤ o + i → round i crc m = .ub .oobRead) :
    ∀ (n k : Nat) (crc : BitVec w), 0 < n → (m.bytes b).length < o + k + n → forN n k round crc m = .ub .oobRead := by
  intro n
  induction n with
  | zero => intro k crc h _; omega
  | succ n ih =>
    intro k crc _ h
    rw [forN_succ]
    by_cases hk : o + k < (m.bytes b).length
    · rw [hround k crc _ (List.getElem?_eq_getElem hk)]
      exact ih (k + 1) _ (by omega) (by omega)
    · rw [hoob k crc (by omega)]

/-- What the functions have in common. -/
structure IsBase (w : Nat) (base : List (BitVec w) → Ptr → U32 → BitVec w → BitVec w → Bool → Bool → Bool → C (BitVec w)) :
    Prop where
  run : ∀ (P : BitVec w) {m : Mem} {b o : Nat} {msg : List Byte} {len : U32}, Reads m b o msg → msg.length = len.toNat →
    ∀ (init fxv : BitVec w) (refout refin fx : Bool),
    base (tableOf P) (ptr b o) len init fxv refout refin fx m =
      .ok (finish (crcBits P init (bits refin msg)) fxv refout fx) m
  oob : ∀ (P : BitVec w) {m : Mem} {b o : Nat} {len : U32}, 0 < len.toNat → (m.bytes b).length < o + len.toNat →
    ∀ (init fxv : BitVec w) (refout refin fx : Bool),
    base (tableOf P) (ptr b o) len init fxv refout refin fx m = .ub .oobRead
  neg : ∀ (T : List (BitVec w)) {m : Mem} {p : Ptr} {len : U32}, 0 < len.toNat → p.off < 0 →
    ∀ (init fxv : BitVec w) (refout refin fx : Bool),
    base T p len init fxv refout refin fx m = .ub .oobRead

theorem neg_loop {w : Nat} {round : Nat → BitVec w → C (BitVec w)} {m : Mem} (n : Nat) (h : 0 < n)
    (h0 : ∀ crc, round 0 crc m = .ub .oobRead) (crc : BitVec w) : forN n 0 round crc m = .ub .oobRead := by
  obtain ⟨k, rfl⟩ : ∃ k, n = k + 1 := ⟨n - 1, by omega⟩
  rw [forN_succ, h0]

theorem isBase8 : IsBase 8 base8 where
  run := base8_ok
  oob := by
    intro P m b o len h0 h init fxv refout refin fx
    unfold base8
    rw [C.bind_ub (loop_oob P refin (fun i crc d hd => round8_ok P refin crc hd) ?_ _ 0 init h0 (by omega))]
    intro i crc hi
    unfold round8
    rw [ptr_addN, C.bind_ub (load_oob hi)]
  neg := by
    intro T m p len h0 h init fxv refout refin fx
    unfold base8
    rw [C.bind_ub (neg_loop _ h0 _ init)]
    intro crc
    unfold round8
    rw [C.bind_ub (load_neg (by simpa using h))]

theorem isBase16 : IsBase 16 base16 where
  run := base16_ok
  oob := by
    intro P m b o len h0 h init fxv refout refin fx
    unfold base16
    rw [C.bind_ub (loop_oob P refin (fun i crc d hd => round16_ok P refin crc hd) ?_ _ 0 init h0 (by omega))]
    intro i crc hi
    unfold round16
    rw [ptr_addN, C.bind_ub (load_oob hi)]
  neg := by
    intro T m p len h0 h init fxv refout refin fx
    unfold base16
    rw [C.bind_ub (neg_loop _ h0 _ init)]
    intro crc
    unfold round16
    rw [C.bind_ub (load_neg (by simpa using h))]

theorem isBase32 : IsBase 32 base32 where
  run := base32_ok
  oob := by
    intro P m b o len h0 h init fxv refout refin fx
    unfold base32
    rw [C.bind_ub (loop_oob P refin (fun i crc d hd => round32_ok P refin crc hd) ?_ _ 0 init h0 (by omega))]
    intro i crc hi
    unfold round32
    rw [ptr_addN, C.bind_ub (load_oob hi)]
  neg := by
    intro T m p len h0 h init fxv refout refin fx
    unfold base32
    rw [C.bind_ub (neg_loop _ h0 _ init)]
    intro crc
    unfold round32
    rw [C.bind_ub (load_neg (by simpa using h))]

/-! ### The functions -/

/-- The function `f` computes the CRC with the parameters `p`. -/
structure Impl (w : Nat) (p : Params w) (f : CrcFn w) : Prop where
  wide : 8 ≤ w
  dvd : 8 ∣ w
  same : p.refin = p.refout
  odd : p.poly.getLsbD 0 = true
  run : ∀ {m : Mem} {b o : Nat} {msg : List Byte} {len : U32}, Reads m b o msg → msg.length = len.toNat →
    ∀ (fc : Bool) (last : Option (BitVec w)),
    f (ptr b o) len fc last m = .ok (if fc then crc { p with init := last.getD p.init } msg
      else crcBits p.poly (last.getD p.init) (bits p.refin msg)) m
  oob : ∀ {m : Mem} {b o : Nat} {len : U32}, 0 < len.toNat → (m.bytes b).length < o + len.toNat →
    ∀ (fc : Bool) (last : Option (BitVec w)), f (ptr b o) len fc last m = .ub .oobRead
  neg : ∀ {m : Mem} {q : Ptr} {len : U32}, 0 < len.toNat → q.off < 0 →
    ∀ (fc : Bool) (last : Option (BitVec w)), f q len fc last m = .ub .oobRead

theorem call_eq {w : Nat} (base : List (BitVec w) → Ptr → U32 → BitVec w → BitVec w → Bool → Bool → Bool → C (BitVec w))
    (v : Variant w) (p : Ptr) (len : U32) (fc : Bool) (last : Option (BitVec w)) :
    v.call base p len fc last = base v.crc_table p len (last.getD v.initial) v.final_xor_value
      (if v.gate_reflect then (if fc then v.reflected_output else false) else v.reflected_output) v.reflected_input
      (if v.gate_xor then (if fc then v.final_xor else false) else v.final_xor) := by
  cases last <;> rfl

theorem impl_of {w : Nat} {base : List (BitVec w) → Ptr → U32 → BitVec w → BitVec w → Bool → Bool → Bool → C (BitVec w)}
    (hb : IsBase w base) (hw : 8 ≤ w) (hd : 8 ∣ w) {v : Variant w} {e : Entry w} (h : Sound v e) :
    Impl w e.params (v.call base) where
  wide := hw
  dvd := hd
  same := h.same
  odd := h.odd
  run := by
    intro m b o msg len hr hl fc last
    rw [call_eq, h.init, h.table, hb.run _ hr hl, h.refin]
    congr 1
    have g1 := h.gate1
    have g2 := h.gate2
    cases fc
    · have e1 : (if v.gate_reflect = true then (if false = true then v.reflected_output else false) else v.reflected_output)
          = false := by
        cases hg : v.gate_reflect <;> cases ho : v.reflected_output <;> simp_all
      have e2 : (if v.gate_xor = true then (if false = true then v.final_xor else false) else v.final_xor) = false := by
        cases hg : v.gate_xor <;> cases ho : v.final_xor <;> simp_all
      rw [e1, e2]
      simp [finish]
    · have e1 : (if v.gate_reflect = true then (if true = true then v.reflected_output else false) else v.reflected_output)
          = e.params.refout := by
        rw [← h.refout]; cases v.gate_reflect <;> simp
      have e2 : (if v.gate_xor = true then (if true = true then v.final_xor else false) else v.final_xor) = v.final_xor := by
        cases v.gate_xor <;> simp
      rw [e1, e2, finish, h.xorout]
      rfl
  oob := by
    intro m b o len h0 hl fc last
    rw [call_eq, h.table, hb.oob _ h0 hl]
  neg := by
    intro m q len h0 hl fc last
    rw [call_eq, hb.neg _ h0 hl]

theorem shipped_impl {w : Nat} {e : Entry w} {f : CrcFn w} (h : Shipped w e f) : Impl w e.params f := by
  cases h with
  | crc8 hv he hn => exact impl_of isBase8 (by decide) (by decide) (sound8 _ hv _ he hn)
  | crc16 hv he hn => exact impl_of isBase16 (by decide) (by decide) (sound16 _ hv _ he hn)
  | crc32 hv he hn => exact impl_of isBase32 (by decide) (by decide) (sound32 _ hv _ he hn)

end IMU.Crc
