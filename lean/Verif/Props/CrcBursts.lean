import Verif.Spec.CrcBursts
import Verif.Props.CrcForge

/-!
# Properties C89 (checksums of parts) and C90 (long bursts)
-/

namespace IMU.Props
open Spec Spec.Crc Utils

/-! ### C89: the checksum of a concatenation -/

/-- The register that a checksum stands for. -/
def unfinish {w : Nat} (p : Params w) (c : BitVec w) : BitVec w := if p.refout then (c ^^^ p.xorout).reverse else c ^^^ p.xorout

theorem crcBits_unfinish {w : Nat} (p : Params w) (x : List Byte) : unfinish p (crc p x) = crcBits p.poly p.init (bits p.refin x) := by
  unfold unfinish crc
  rw [BitVec.xor_assoc, BitVec.xor_self, BitVec.xor_zero]
  cases p.refout
  · rfl
  · simp only [if_true, Crc.reverse_reverse]

theorem crc_append {w : Nat} (p : Params w) (x y : List Byte) :
    crc p (x ++ y) = crc { p with init := unfinish p (crc p x) } y := by
  rw [crcBits_unfinish]
  simp only [crc, Crc.bits_append, Crc.crcBits_append]

/-- C89: the checksum of a concatenation is computed from the checksums of the parts and the length of the second part:
the difference of the first checksum to the initial value is passed through as many zero bytes. -/
theorem C89_combine {w : Nat} {e : Entry w} {f : CrcFn w} (hf : Shipped w e f) {m : Mem} {p q r : Piece} (hp : p.In m)
    (hq : q.In m) (hr : r.In m) (hd : r.data m = p.data m ++ q.data m) :
    ∃ c d, f (ptr p.b p.o) p.n true none m = .ok c m ∧ f (ptr q.b q.o) q.n true none m = .ok d m ∧
      f (ptr r.b r.o) r.n true none m = .ok (d ^^^ crc { e.params with
        init := (if e.params.refout then (c ^^^ e.params.xorout).reverse else c ^^^ e.params.xorout) ^^^ e.params.init
        xorout := 0#w } (List.replicate q.n.toNat 0#8)) m := by
  refine ⟨_, _, C72_published hf hp, C72_published hf hq, ?_⟩
  rw [C72_published hf hr]
  congr 1
  rw [show slice (m.bytes r.b) r.o r.n.toNat = _ from hd, crc_append]
  have h := Crc.crc_xor e.params (unfinish e.params (crc e.params (p.data m))) e.params.init (q.data m) (q.data m) rfl
  have hz : List.zipWith (· ^^^ ·) (q.data m) (q.data m) = List.replicate q.n.toNat 0#8 := by
    apply List.eq_replicate_iff.mpr
    refine ⟨by simp [Piece.data, slice_length _ _ _ hq], ?_⟩
    intro x hx
    obtain ⟨i, hi, rfl⟩ := List.getElem_of_mem hx
    simp
  rw [hz] at h
  have h' : ∀ a b c : BitVec w, a ^^^ b = c → a = b ^^^ c := by
    rintro a b c rfl; rw [Crc.xlc, BitVec.xor_self, BitVec.xor_zero]
  exact h' _ _ _ h

/-- C89: so parts may be exchanged for others with the same checksum, the first one even for one of another length, without
any effect on the checksum of the whole. -/
theorem C89_exchange {w : Nat} {e : Entry w} {f : CrcFn w} (hf : Shipped w e f) {m : Mem} {p q r p' q' r' : Piece}
    (hp : p.In m) (hq : q.In m) (hr : r.In m) (hp' : p'.In m) (hq' : q'.In m) (hr' : r'.In m)
    (hd : r.data m = p.data m ++ q.data m) (hd' : r'.data m = p'.data m ++ q'.data m) (hl : q.n = q'.n)
    (h1 : f (ptr p.b p.o) p.n true none m = f (ptr p'.b p'.o) p'.n true none m)
    (h2 : f (ptr q.b q.o) q.n true none m = f (ptr q'.b q'.o) q'.n true none m) :
    f (ptr r.b r.o) r.n true none m = f (ptr r'.b r'.o) r'.n true none m := by
  obtain ⟨c, d, a1, a2, a3⟩ := C89_combine hf hp hq hr hd
  obtain ⟨c', d', b1, b2, b3⟩ := C89_combine hf hp' hq' hr' hd'
  rw [a1, b1] at h1
  rw [a2, b2] at h2
  injection h1 with h1
  injection h2 with h2
  subst h1 h2
  rw [a3, b3, hl]

theorem crcBits_start {w : Nat} {P : BitVec w} (hP : P.getLsbD 0 = true) {r s : BitVec w} (l : List Bool)
    (h : crcBits P r l = crcBits P s l) : r = s := by
  have hx := Crc.crcBits_xor P l l r s rfl
  rw [h, BitVec.xor_self] at hx
  have hz : List.zipWith xor l l = List.replicate l.length false := by
    apply List.eq_replicate_iff.mpr
    refine ⟨by simp, ?_⟩
    intro x hx
    obtain ⟨i, hi, rfl⟩ := List.getElem_of_mem hx
    simp
  rw [hz, Crc.crcBits_zeros] at hx
  have := Crc.rounds_eq_zero hP _ hx.symm
  rw [← BitVec.xor_zero (x := s), ← this, Crc.xlc, BitVec.xor_self, BitVec.xor_zero]

theorem crc_inj {w : Nat} (p : Params w) {x y : List Byte} (h : crc p x = crc p y) :
    crcBits p.poly p.init (bits p.refin x) = crcBits p.poly p.init (bits p.refin y) := by
  rw [← crcBits_unfinish, ← crcBits_unfinish, h]

theorem crc_of {w : Nat} (p : Params w) {x y : List Byte}
    (h : crcBits p.poly p.init (bits p.refin x) = crcBits p.poly p.init (bits p.refin y)) : crc p x = crc p y := by
  unfold crc; rw [h]

/-- C89: conversely, messages with the same end `t` have the same checksum only if the parts before it, possibly of different
lengths, have. -/
theorem C89_determines {w : Nat} {e : Entry w} {f : CrcFn w} (hf : Shipped w e f) {m : Mem} {p r p' r' : Piece} (t : List Byte)
    (hp : p.In m) (hr : r.In m) (hp' : p'.In m) (hr' : r'.In m)
    (hd : r.data m = p.data m ++ t) (hd' : r'.data m = p'.data m ++ t) :
    f (ptr r.b r.o) r.n true none m = f (ptr r'.b r'.o) r'.n true none m ↔
      f (ptr p.b p.o) p.n true none m = f (ptr p'.b p'.o) p'.n true none m := by
  have hi := Crc.shipped_impl hf
  rw [C72_published hf hp, C72_published hf hp', C72_published hf hr, C72_published hf hr']
  rw [show slice (m.bytes r.b) r.o r.n.toNat = _ from hd, show slice (m.bytes r'.b) r'.o r'.n.toNat = _ from hd']
  constructor
  · intro h
    injection h with h
    congr 1
    have h := crc_inj _ h
    rw [Crc.bits_append, Crc.bits_append, Crc.crcBits_append, Crc.crcBits_append] at h
    exact crc_of _ (crcBits_start hi.odd _ h)
  · intro h
    injection h with h
    rw [crc_append, crc_append]
    unfold Piece.data
    rw [h]

/-- Non-vacuity: two parts and the whole in one memory. -/
example : (⟨7, 2, 4#32⟩ : Piece).In crcMem ∧ (⟨7, 6, 5#32⟩ : Piece).In crcMem ∧ (⟨7, 2, 9#32⟩ : Piece).In crcMem ∧
    (⟨7, 2, 9#32⟩ : Piece).data crcMem = (⟨7, 2, 4#32⟩ : Piece).data crcMem ++ (⟨7, 6, 5#32⟩ : Piece).data crcMem := by
  refine ⟨?_, ?_, ?_, by decide⟩ <;> (unfold Piece.In; decide)

/-! ### C90: bursts longer than the checksum -/

theorem xor_ne {x y : Bool} : some x ≠ some y ↔ xor x y = true := by cases x <;> cases y <;> simp

/-- The difference of two messages that differ by a burst. -/
theorem spans_pattern {k L : Nat} {x y : List Bool} (hL : 2 ≤ L) (hk : k + L ≤ x.length) (h : Spans k L x y) :
    List.zipWith xor x y = List.replicate k false ++ (true :: ((List.zipWith xor x y).drop (k + 1)).take (L - 2) ++ [true]) ++
      List.replicate (x.length - k - L) false := by
  obtain ⟨hl, h1, h2, h3⟩ := h
  apply List.ext_getElem?
  intro i
  have hz : ∀ i, i < x.length → ∃ a b, x[i]? = some a ∧ y[i]? = some b ∧ (List.zipWith xor x y)[i]? = some (xor a b) := by
    intro i hi
    refine ⟨x[i], y[i], List.getElem?_eq_getElem hi, List.getElem?_eq_getElem (by omega), ?_⟩
    rw [List.getElem?_zipWith, List.getElem?_eq_getElem hi, List.getElem?_eq_getElem (show i < y.length by omega)]
  have hout : ∀ i, i < x.length → ¬ (k ≤ i ∧ i < k + L) → (List.zipWith xor x y)[i]? = some false := by
    intro i hi hn
    obtain ⟨a, b, e1, e2, e3⟩ := hz i hi
    rw [e3]
    by_cases hab : a = b
    · rw [hab]; simp
    · exact absurd (h3 i (by rw [e1, e2]; simpa using hab)) hn
  have hone : ∀ i, i < x.length → x[i]? ≠ y[i]? → (List.zipWith xor x y)[i]? = some true := by
    intro i hi hn
    obtain ⟨a, b, e1, e2, e3⟩ := hz i hi
    rw [e1, e2] at hn
    rw [e3, xor_ne.mp hn]
  have hlz : (List.zipWith xor x y).length = x.length := by rw [List.length_zipWith]; omega
  by_cases c1 : i < k
  · rw [hout i (by omega) (by omega), List.append_assoc, List.getElem?_append_left (by simpa), List.getElem?_replicate, if_pos c1]
  rw [List.append_assoc, List.getElem?_append_right (by simp; omega), List.length_replicate]
  by_cases c2 : i = k
  · subst c2
    rw [hone i (by omega) h1, Nat.sub_self]; rfl
  obtain ⟨j, rfl⟩ : ∃ j, i = k + (j + 1) := ⟨i - k - 1, by omega⟩
  rw [show k + (j + 1) - k = j + 1 by omega, List.cons_append, List.cons_append, List.getElem?_cons_succ]
  have ht : (((List.zipWith xor x y).drop (k + 1)).take (L - 2)).length = L - 2 := by
    rw [List.length_take, List.length_drop, hlz]; omega
  by_cases c3 : j < L - 2
  · rw [List.append_assoc, List.getElem?_append_left (by omega), List.getElem?_take_of_lt c3, List.getElem?_drop]
    congr 1; omega
  rw [List.append_assoc, List.getElem?_append_right (by omega), ht]
  by_cases c4 : j = L - 2
  · subst c4
    rw [Nat.sub_self, show k + (L - 2 + 1) = k + L - 1 by omega, hone _ (by omega) h2]; rfl
  obtain ⟨n, rfl⟩ : ∃ n, j = L - 2 + (n + 1) := ⟨j - (L - 2) - 1, by omega⟩
  rw [show L - 2 + (n + 1) - (L - 2) = n + 1 by omega, List.singleton_append, List.getElem?_cons_succ, List.getElem?_replicate]
  split
  · exact hout _ (by omega) (by omega)
  · exact List.getElem?_eq_none (by omega)

theorem crcBits_padded {w : Nat} {P : BitVec w} (hP : P.getLsbD 0 = true) (k j : Nat) (d : List Bool) :
    crcBits P 0#w (List.replicate k false ++ d ++ List.replicate j false) = 0#w ↔ crcBits P 0#w d = 0#w := by
  rw [Crc.crcBits_append, Crc.crcBits_append, Crc.crcBits_zeros, Crc.crcBits_zeros, Crc.rounds_zero]
  constructor
  · exact Crc.rounds_eq_zero hP _
  · intro h; rw [h, Crc.rounds_zero]

theorem feed_true {w : Nat} (P : BitVec w) : crcBits P 0#w [true] = P := by
  simp [crcBits, feed]

/-- The register `P` is emptied by exactly one sequence of `w` bits, the bits of `P`. -/
theorem clear_iff {w : Nat} {P : BitVec w} (hP : P.getLsbD 0 = true) (r : BitVec w) {t : List Bool} (ht : t.length = w) :
    crcBits P r t = 0#w ↔ ∀ i, i < w → t[i]? = some (r.getLsbD (w - 1 - i)) := by
  rw [Crc.crcBits_top P t r (by omega)]
  have h0 : rounds (Crc.step P) t.length (r ^^^ Crc.top w t) = 0#w ↔ r = Crc.top w t := by
    constructor
    · intro h
      have h := Crc.rounds_eq_zero hP _ h
      rw [← BitVec.xor_zero (x := r), ← BitVec.xor_self (x := Crc.top w t), ← BitVec.xor_assoc, h, BitVec.zero_xor]
    · rintro rfl
      rw [BitVec.xor_self, Crc.rounds_zero]
  rw [h0]
  constructor
  · rintro rfl i hi
    rw [Crc.top_bit, show w - 1 - (w - 1 - i) = i by omega, List.getElem?_eq_getElem (by omega)]
    simp; omega
  · intro h
    apply BitVec.eq_of_getLsbD_eq
    intro i hi
    rw [Crc.top_bit, h _ (by omega), show w - 1 - (w - 1 - i) = i by omega]
    simp [hi]

/-- C90: of all bursts of `w + 1` bits exactly one goes undetected: the one with the pattern of the divisor. -/
theorem C90_next {w : Nat} (p : Params w) (hp : p.poly.getLsbD 0 = true) {x y : List Byte} {k : Nat} (hk : k + (w + 1) ≤ 8 * x.length)
    (h : Spans k (w + 1) (bits p.refin x) (bits p.refin y)) :
    crc p x = crc p y ↔ ∀ i, i ≤ w → ((bits p.refin x)[k + i]? ≠ (bits p.refin y)[k + i]? ↔ i = 0 ∨ p.poly.getLsbD (w - i) = true) := by
  have hl : x.length = y.length := by
    have := h.1
    rw [Crc.bits_length, Crc.bits_length] at this; omega
  have hw : 0 < w := by
    rcases Nat.eq_zero_or_pos w with h0 | h0
    · subst h0; simp at hp
    · exact h0
  have hlx := Crc.bits_length p.refin x
  have hly := Crc.bits_length p.refin y
  have hpat := spans_pattern (by omega) (by omega) h
  have hget : ∀ i, i ≤ w → ∃ b, (List.zipWith xor (bits p.refin x) (bits p.refin y))[k + i]? = some b ∧
      ((bits p.refin x)[k + i]? ≠ (bits p.refin y)[k + i]? ↔ b = true) := by
    intro i hi
    have h1 : k + i < (bits p.refin x).length := by omega
    have h2 : k + i < (bits p.refin y).length := by omega
    refine ⟨xor (bits p.refin x)[k + i] (bits p.refin y)[k + i], ?_, ?_⟩
    · rw [List.getElem?_zipWith, List.getElem?_eq_getElem h1, List.getElem?_eq_getElem h2]
    · rw [List.getElem?_eq_getElem h1, List.getElem?_eq_getElem h2]
      exact xor_ne
  rw [Crc.crc_eq_iff p x y hl]
  generalize hz : List.zipWith xor (bits p.refin x) (bits p.refin y) = z at hpat hget ⊢
  have hlz : z.length = 8 * x.length := by rw [← hz, List.length_zipWith]; omega
  generalize hmid : (z.drop (k + 1)).take (w + 1 - 2) = mid at hpat
  have hml : mid.length = w - 1 := by rw [← hmid, List.length_take, List.length_drop]; omega
  have hzi : ∀ i, i < w → z[k + (i + 1)]? = (mid ++ [true])[i]? := by
    intro i hi
    rw [hpat, List.append_assoc, List.getElem?_append_right (by rw [List.length_replicate]; omega), List.length_replicate,
      show k + (i + 1) - k = i + 1 by omega, List.getElem?_append_left (by simp; omega), List.cons_append, List.getElem?_cons_succ]
  have hz0 : z[k]? = some true := by
    rw [hpat, List.append_assoc, List.getElem?_append_right (by simp), List.length_replicate, Nat.sub_self]; rfl
  conv => lhs; rw [hpat]
  rw [crcBits_padded hp, show true :: mid ++ [true] = [true] ++ (mid ++ [true]) from rfl, Crc.crcBits_append, feed_true,
    clear_iff hp _ (by simp; omega)]
  constructor
  · intro hb i hi
    obtain ⟨b, e1, e2⟩ := hget i hi
    rw [e2]
    rcases Nat.eq_zero_or_pos i with rfl | hpos
    · rw [Nat.add_zero, hz0] at e1
      injection e1 with e1; simp [e1]
    · obtain ⟨j, rfl⟩ : ∃ j, i = j + 1 := ⟨i - 1, by omega⟩
      rw [hzi j (by omega), hb j (by omega)] at e1
      injection e1 with e1
      rw [← e1, show w - 1 - j = w - (j + 1) by omega]; simp
  · intro hb i hi
    obtain ⟨b, e1, e2⟩ := hget (i + 1) (by omega)
    rw [hb _ (by omega)] at e2
    rw [← hzi i hi, e1, show w - 1 - i = w - (i + 1) by omega]
    congr 1
    have : ¬ (i + 1 = 0) := by omega
    simp only [this, false_or] at e2
    revert e2
    cases b <;> cases p.poly.getLsbD (w - (i + 1)) <;> simp

/-! Counting. -/

/-- Sequences of `n` bits. -/
def BitStrings (n : Nat) : Type := {l : List Bool // l.length = n}

theorem card_bitStrings (n : Nat) : Nat.card (BitStrings n) = 2 ^ n := by
  have e : BitStrings n ≃ (Fin n → Bool) :=
    { toFun := fun l i => l.1[i.val]'(by rw [l.2]; exact i.isLt)
      invFun := fun g => ⟨List.ofFn g, by simp⟩
      left_inv := fun l => by
        apply Subtype.ext
        apply List.ext_getElem
        · simp [l.2]
        · intro i h1 h2; simp
      right_inv := fun g => by funext i; simp }
  rw [Nat.card_congr e, Nat.card_fun]
  simp

theorem regBits_length {w : Nat} (v : BitVec w) : (Crc.regBits v).length = w := by
  simp [Crc.regBits]

theorem top_regBits {w : Nat} (v : BitVec w) : Crc.top w (Crc.regBits v) = v := by
  apply BitVec.eq_of_getLsbD_eq
  intro i hi
  rw [Crc.top_bit]
  unfold Crc.regBits
  rw [List.getElem?_map, List.getElem?_range (by omega)]
  simp [hi, show w - 1 - (w - 1 - i) = i by omega]

theorem top_inj {w : Nat} {t t' : List Bool} (h : t.length = w) (h' : t'.length = w) (he : Crc.top w t = Crc.top w t') : t = t' := by
  apply List.ext_getElem (by omega)
  intro i h1 h2
  have := congrArg (fun v => v.getLsbD (w - 1 - i)) he
  simp only [Crc.top_bit] at this
  rw [show w - 1 - (w - 1 - i) = i by omega, List.getElem?_eq_getElem h1, List.getElem?_eq_getElem h2] at this
  simpa [show w - 1 - i < w by omega] using this

/-- Exactly one sequence of `w` bits followed by a one empties a register. -/
theorem fill_one {w : Nat} {P : BitVec w} (hP : P.getLsbD 0 = true) (r : BitVec w) :
    ∃! t : List Bool, t.length = w ∧ crcBits P r (t ++ [true]) = 0#w := by
  have hw : 0 < w := by
    rcases Nat.eq_zero_or_pos w with h0 | h0
    · subst h0; simp at hP
    · exact h0
  have key : ∀ t : List Bool, t.length = w → (crcBits P r (t ++ [true]) = 0#w ↔
      rounds (Crc.step P) w (r ^^^ Crc.top w t) = Crc.top w [true]) := by
    intro t ht
    rw [Crc.crcBits_append, Crc.crcBits_top P [true] _ (by simp; omega), Crc.crcBits_top P t r (by omega), ht]
    constructor
    · intro h
      have h := Crc.rounds_eq_zero hP _ h
      rw [← BitVec.xor_zero (x := rounds _ _ _), ← BitVec.xor_self (x := Crc.top w [true]), ← BitVec.xor_assoc, h, BitVec.zero_xor]
    · intro h
      rw [h, BitVec.xor_self, Crc.rounds_zero]
  let g : Fin (2 ^ w) → Fin (2 ^ w) := fun n => (rounds (Crc.step P) w (BitVec.ofFin n)).toFin
  have hg : Function.Injective g := by
    intro a b h
    have h := (Crc.rounds_inj hP w).mp (BitVec.toFin_inj.mp h)
    exact BitVec.ofFin.inj h
  obtain ⟨n, hn⟩ := (Finite.injective_iff_surjective.mp hg) (Crc.top w [true]).toFin
  have hv : rounds (Crc.step P) w (BitVec.ofFin n) = Crc.top w [true] := BitVec.toFin_inj.mp hn
  refine ⟨Crc.regBits (r ^^^ BitVec.ofFin n), ⟨regBits_length _, ?_⟩, ?_⟩
  · rw [key _ (regBits_length _), top_regBits, Crc.xxc, hv]
  · rintro t ⟨h1, h2⟩
    rw [key t h1, ← hv, Crc.rounds_inj hP] at h2
    apply top_inj h1 (regBits_length _)
    rw [top_regBits, ← h2, Crc.xxc]

theorem card_fill {w : Nat} {P : BitVec w} (hP : P.getLsbD 0 = true) {n : Nat} (hn : w ≤ n) :
    Nat.card {t : BitStrings n // crcBits P 0#w (true :: t.1 ++ [true]) = 0#w} = 2 ^ (n - w) := by
  rw [← card_bitStrings (n - w)]
  choose t ht hu using fun pre : List Bool => fill_one hP (crcBits P 0#w (true :: pre))
  refine Nat.card_congr
    { toFun := fun l => ⟨l.1.1.take (n - w), by rw [List.length_take, l.1.2]; omega⟩
      invFun := fun s => ⟨⟨s.1 ++ t s.1, by rw [List.length_append, s.2, (ht s.1).1]; omega⟩, by
        have := (ht s.1).2
        rw [← Crc.crcBits_append] at this
        simpa using this⟩
      left_inv := fun l => ?_
      right_inv := fun s => ?_ }
  · apply Subtype.ext; apply Subtype.ext
    have h : l.1.1.drop (n - w) = t (l.1.1.take (n - w)) := by
      apply hu
      refine ⟨by rw [List.length_drop, l.1.2]; omega, ?_⟩
      rw [← Crc.crcBits_append]
      rw [List.cons_append, ← List.append_assoc, List.take_append_drop]
      exact l.2
    show l.1.1.take (n - w) ++ t (l.1.1.take (n - w)) = l.1.1
    rw [← h, List.take_append_drop]
  · apply Subtype.ext
    show (s.1 ++ t s.1).take (n - w) = s.1
    rw [List.take_append_of_le_length (by rw [s.2]), List.take_of_length_le (by rw [s.2])]

theorem xor_twice : ∀ {x z : List Bool}, x.length = z.length → List.zipWith xor x (List.zipWith xor x z) = z
  | [], [], _ => rfl
  | a :: x, b :: z, h => by
    simp only [List.zipWith_cons_cons]
    rw [xor_twice (by simpa using h)]
    cases a <;> simp

/-- The messages at the distance of a burst are as many as the patterns inside it. -/
noncomputable def spansEquiv (refin : Bool) (x : List Byte) {k L : Nat} (hL : 2 ≤ L) (hk : k + L ≤ 8 * x.length) :
    {y : Strings x.length // Spans k L (bits refin x) (bits refin y.1)} ≃ BitStrings (L - 2) :=
  have hlx := Crc.bits_length refin x
  Equiv.ofBijective (fun y => ⟨((List.zipWith xor (bits refin x) (bits refin y.1.1)).drop (k + 1)).take (L - 2), by
      rw [List.length_take, List.length_drop, List.length_zipWith, Crc.bits_length, Crc.bits_length, y.1.2]; omega⟩) (by
    constructor
    · intro y z h
      have h := congrArg Subtype.val h
      simp only at h
      have p1 := spans_pattern hL (by omega) y.2
      have p2 := spans_pattern hL (by omega) z.2
      rw [h, ← p2] at p1
      apply Subtype.ext; apply Subtype.ext
      apply bits_inj' refin
      rw [← xor_twice (x := bits refin x) (z := bits refin y.1.1) (by rw [Crc.bits_length, Crc.bits_length, y.1.2]), p1,
        xor_twice (by rw [Crc.bits_length, Crc.bits_length, z.1.2])]
    · rintro ⟨mid, hm⟩
      let z := List.replicate k false ++ (true :: mid ++ [true]) ++ List.replicate (8 * x.length - k - L) false
      have hz : z.length = 8 * x.length := by simp [z, hm]; omega
      obtain ⟨y, hy1, hy2⟩ := Crc.bits_surj refin x.length (List.zipWith xor (bits refin x) z) (by
        rw [List.length_zipWith, Crc.bits_length, hz, Nat.min_self])
      have hxor : List.zipWith xor (bits refin x) (bits refin y) = z := by rw [hy2, xor_twice (by omega)]
      have hly : (bits refin y).length = 8 * x.length := by rw [Crc.bits_length, hy1]
      have hne : ∀ i : Nat, (bits refin x)[i]? ≠ (bits refin y)[i]? ↔ z[i]? = some true := by
        intro i
        rw [← hxor, List.getElem?_zipWith]
        by_cases hi : i < 8 * x.length
        · rw [List.getElem?_eq_getElem (by omega), List.getElem?_eq_getElem (by omega)]
          simp only [Option.some.injEq]
          rw [← xor_ne]
        · rw [List.getElem?_eq_none (by omega), List.getElem?_eq_none (by omega)]; simp
      have z0 : z[k]? = some true := by
        simp only [z]
        rw [List.append_assoc, List.getElem?_append_right (by simp), List.length_replicate, Nat.sub_self]; rfl
      have z1 : z[k + L - 1]? = some true := by
        simp only [z]
        rw [List.append_assoc, List.getElem?_append_right (by simp; omega), List.length_replicate,
          List.getElem?_append_left (by simp; omega), List.getElem?_append_right (by simp; omega)]
        simp only [List.length_cons, hm]
        rw [show k + L - 1 - k - (L - 2 + 1) = 0 by omega]; rfl
      refine ⟨⟨⟨y, hy1⟩, hlx.trans hly.symm, (hne _).mpr z0, (hne _).mpr z1, fun i hi => ?_⟩, ?_⟩
      · have hi := (hne i).mp hi
        constructor
        · by_contra hc
          simp only [z] at hi
          rw [List.append_assoc, List.getElem?_append_left (by simp; omega), List.getElem?_replicate, if_pos (by omega)] at hi
          cases hi
        · by_contra hc
          simp only [z] at hi
          rw [List.getElem?_append_right (by simp [hm]; omega), List.getElem?_replicate] at hi
          split at hi <;> cases hi
      · apply Subtype.ext
        simp only
        rw [hxor]
        apply List.ext_getElem?
        intro i
        by_cases hi : i < L - 2
        · rw [List.getElem?_take_of_lt hi, List.getElem?_drop]
          simp only [z]
          rw [List.append_assoc, List.getElem?_append_right (by simp; omega), List.length_replicate,
            show k + 1 + i - k = i + 1 by omega, List.cons_append, List.cons_append, List.getElem?_cons_succ, List.append_assoc,
            List.getElem?_append_left (by omega)]
        · rw [List.getElem?_eq_none (by rw [List.length_take]; omega), List.getElem?_eq_none (by omega)])

/-- C90: a message has `2 ^ (L - 2)` neighbours that differ from it by a burst from bit `k` to bit `k + L - 1`. -/
theorem C90_bursts (refin : Bool) (x : List Byte) {k L : Nat} (hL : 2 ≤ L) (hk : k + L ≤ 8 * x.length) :
    Nat.card {y : Strings x.length // Spans k L (bits refin x) (bits refin y.1)} = 2 ^ (L - 2) := by
  rw [Nat.card_congr (spansEquiv refin x hL hk), card_bitStrings]

/-- C90: if the burst is at least two bits longer than the checksum, `2 ^ (L - 2 - w)` of them have the same checksum as the
message: a fraction of exactly `2 ^ -w` of these bursts goes undetected. -/
theorem C90_longer {w : Nat} (p : Params w) (hp : p.poly.getLsbD 0 = true) (x : List Byte) {k L : Nat} (hL : w + 2 ≤ L)
    (hk : k + L ≤ 8 * x.length) :
    Nat.card {y : Strings x.length // Spans k L (bits p.refin x) (bits p.refin y.1) ∧ crc p y.1 = crc p x} = 2 ^ (L - 2 - w) := by
  rw [← card_fill hp (n := L - 2) (by omega)]
  refine Nat.card_congr ((Equiv.subtypeSubtypeEquivSubtypeInter _ _).symm.trans
    (Equiv.subtypeEquiv (spansEquiv p.refin x (by omega) hk) fun y => ?_))
  have hp1 := spans_pattern (by omega) (by rw [Crc.bits_length]; exact hk) y.2
  have hl : x.length = y.1.1.length := y.1.2.symm
  rw [eq_comm, Crc.crc_eq_iff p x y.1.1 hl, hp1, crcBits_padded hp]
  exact Iff.rfl

/-- C90 at the functions. -/
theorem C90_functions {w : Nat} {e : Entry w} {f : CrcFn w} (hf : Shipped w e f) {m : Mem} {p q : Piece} (hp : p.In m)
    (hq : q.In m) {k : Nat} (hk : k + (w + 1) ≤ 8 * p.n.toNat)
    (h : Spans k (w + 1) (bits e.params.refin (p.data m)) (bits e.params.refin (q.data m))) :
    ∃ c d, f (ptr p.b p.o) p.n true none m = .ok c m ∧ f (ptr q.b q.o) q.n true none m = .ok d m ∧
      (c = d ↔ ∀ i, i ≤ w → ((bits e.params.refin (p.data m))[k + i]? ≠ (bits e.params.refin (q.data m))[k + i]? ↔
        i = 0 ∨ e.params.poly.getLsbD (w - i) = true)) :=
  ⟨_, _, C72_published hf hp, C72_published hf hq,
    C90_next e.params (Crc.shipped_impl hf).odd (by rw [slice_length _ _ _ hp]; exact hk) h⟩

/-- C90 at the functions: among the bursts from bit `k` to bit `k + L - 1` on the message at `p`, of which there are
`2 ^ (L - 2)`, the function fails to detect `2 ^ (L - 2 - w)`: in any memory `m'` that holds such a message instead it
returns the same. -/
theorem C90_fraction {w : Nat} {e : Entry w} {f : CrcFn w} (hf : Shipped w e f) {m : Mem} {p : Piece} (hp : p.In m) {k L : Nat}
    (hL : w + 2 ≤ L) (hk : k + L ≤ 8 * p.n.toNat) :
    ∃ c, f (ptr p.b p.o) p.n true none m = .ok c m ∧
      Nat.card {y : Strings p.n.toNat // Spans k L (bits e.params.refin (p.data m)) (bits e.params.refin y.1)} = 2 ^ (L - 2) ∧
      Nat.card {y : Strings p.n.toNat // Spans k L (bits e.params.refin (p.data m)) (bits e.params.refin y.1) ∧
        ∀ (m' : Mem) (q : Piece), q.n = p.n → q.In m' → q.data m' = y.1 → f (ptr q.b q.o) q.n true none m' = .ok c m'} =
          2 ^ (L - 2 - w) := by
  have hlen : (p.data m).length = p.n.toNat := slice_length _ _ _ hp
  have h1 := C90_bursts e.params.refin (p.data m) (k := k) (L := L) (by omega) (by omega)
  have h2 := C90_longer e.params (Crc.shipped_impl hf).odd (p.data m) hL (by omega : k + L ≤ _)
  rw [hlen] at h1 h2
  refine ⟨_, C72_published hf hp, h1, ?_⟩
  rw [← h2]
  refine Nat.card_congr (Equiv.subtypeEquivRight fun y => and_congr_right fun _ => ?_)
  constructor
  · intro h
    have := h ⟨fun _ => y.1, fun _ => []⟩ ⟨0, 0, p.n⟩ rfl (by
      show 0 + p.n.toNat ≤ y.1.length
      rw [y.2]; omega) (by
      show slice y.1 0 p.n.toNat = y.1
      rw [slice, List.drop_zero, List.take_of_length_le (by rw [y.2])])
    rw [C72_published hf (by
      show 0 + p.n.toNat ≤ y.1.length
      rw [y.2]; omega)] at this
    injection this with this
    rw [show slice y.1 0 p.n.toNat = y.1 by rw [slice, List.drop_zero, List.take_of_length_le (by rw [y.2])]] at this
    exact this
  · intro h m' q hn hq hd
    rw [C72_published hf hq]
    congr 1
    rw [show slice (m'.bytes q.b) q.o q.n.toNat = y.1 from hd]
    exact h

/-- Non-vacuity: the message `Hello` and the message with the divisor of CRC-8 (x^8 + x^2 + x + 1) added at bit 5, which has
the same checksum; and room for a burst of 20 bits. -/
example : Spans 5 (8 + 1) (bits false [72#8, 101#8, 108#8, 108#8, 111#8]) (bits false [76#8, 121#8, 108#8, 108#8, 111#8]) ∧
    crc ⟨0x07#8, 0#8, false, false, 0#8⟩ [72#8, 101#8, 108#8, 108#8, 111#8] =
      crc ⟨0x07#8, 0#8, false, false, 0#8⟩ [76#8, 121#8, 108#8, 108#8, 111#8] := by
  refine ⟨⟨by decide, by decide, by decide, fun i hi => ?_⟩, by decide +kernel⟩
  by_contra hc
  by_cases h : i < 40
  · have : ∀ i : Nat, i < 40 → ¬ (5 ≤ i ∧ i < 5 + (8 + 1)) → (bits false [72#8, 101#8, 108#8, 108#8, 111#8])[i]? =
        (bits false [76#8, 121#8, 108#8, 108#8, 111#8])[i]? := by decide +kernel
    exact hi (this i h hc)
  · rw [List.getElem?_eq_none (by simp [Crc.bits_length]; omega), List.getElem?_eq_none (by simp [Crc.bits_length]; omega)] at hi
    exact hi rfl
example : 5 + (8 + 1) ≤ 8 * [72#8, 101#8, 108#8, 108#8, 111#8].length ∧ 8 + 2 ≤ 20 ∧ 5 + 20 ≤ 8 * 5 := by decide

end IMU.Props
