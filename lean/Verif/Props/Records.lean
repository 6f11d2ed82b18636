import Verif.Props.CrcErrors
import Verif.Spec.Records

/-!
# Property C138: records of fields, with and without a checksum behind them
-/

namespace IMU.Props
open Spec Spec.Crc Utils

/-- The call that writes a field; a value too wide for the parameter is cut off by the conversion. -/
def putAt : Kind → Ptr → U32 → C Unit
  | .u8, p, v => serialize8 p (v.setWidth 8)
  | .be16, p, v => serialize16BE p (v.setWidth 16)
  | .be24, p, v => serialize24BE p v
  | .be32, p, v => serialize32BE p v
  | .le16, p, v => serialize16LE p (v.setWidth 16)
  | .le24, p, v => serialize24LE p v
  | .le32, p, v => serialize32LE p v

/-- The call that reads a field. -/
def getAt : Kind → Ptr → C U32
  | .u8, p => do return (← deserialize8 p).setWidth 32
  | .be16, p => do return (← deserialize16BE p).setWidth 32
  | .be24, p => deserialize24BE p
  | .be32, p => deserialize32BE p
  | .le16, p => do return (← deserialize16LE p).setWidth 32
  | .le24, p => deserialize24LE p
  | .le32, p => deserialize32LE p

/-- The fields are written one after the other. -/
def writeAll (b : Nat) : List (Slot × U32) → C Unit
  | [] => pure ()
  | (s, v) :: fs => do
    putAt s.kind (ptr b s.o) v
    writeAll b fs

/-- The fields are read one after the other. -/
def readAll (b : Nat) : List Slot → C (List U32)
  | [] => pure []
  | s :: ss => do
    let v ← getAt s.kind (ptr b s.o)
    let vs ← readAll b ss
    return v :: vs

/-- The values that come back: those bits of `v` for which the field has room. -/
def keptBits (k : Kind) (v : U32) : U32 := BitVec.ofNat 32 (v.toNat % 256 ^ k.size)

theorem serialises_narrow {w k : Nat} {ser : Ptr → BitVec w → C Unit} {value : List Byte → Nat} (h : Serialises ser k value)
    (hw : 2 ^ w = 256 ^ k) : Serialises (fun p (v : U32) => ser p (v.setWidth w)) k value := by
  intro b o v m
  refine ⟨fun hl => ?_, (h b o (v.setWidth w) m).2⟩
  obtain ⟨m', h1, h2, h3⟩ := (h b o (v.setWidth w) m).1 hl
  refine ⟨m', h1, ?_, h3⟩
  rw [h2, BitVec.toNat_setWidth, hw, Nat.mod_mod]

theorem deserialises_wide {w k : Nat} {des : Ptr → C (BitVec w)} {value : List Byte → Nat} (h : Deserialises des k value)
    (hw : w ≤ 32) : Deserialises (fun p => do return (← des p).setWidth 32 : Ptr → C U32) k value := by
  intro b o m
  refine ⟨fun hl => ?_, fun hl => ?_⟩
  · obtain ⟨v, h1, h2⟩ := (h b o m).1 hl
    refine ⟨v.setWidth 32, ?_, ?_⟩
    · show (des (ptr b o) >>= fun v => pure (v.setWidth 32)) m = _
      rw [C.bind_ok h1]; rfl
    · rw [BitVec.toNat_setWidth, h2, Nat.mod_eq_of_lt]
      have := v.isLt
      have hp : 2 ^ w ≤ 2 ^ 32 := Nat.pow_le_pow_right (by omega) hw
      omega
  · show (des (ptr b o) >>= fun v => pure (v.setWidth 32)) m = _
    rw [C.bind_ub ((h b o m).2 hl)]

theorem put_spec (k : Kind) : Serialises (putAt k) k.size k.value := by
  obtain ⟨s1, s2, s3, s4, s5, s6, s7⟩ := C04_serialise_layout
  cases k
  · exact serialises_narrow s1 rfl
  · exact serialises_narrow s2 rfl
  · exact s3
  · exact s4
  · exact serialises_narrow s5 rfl
  · exact s6
  · exact s7

theorem get_spec (k : Kind) : Deserialises (getAt k) k.size k.value := by
  obtain ⟨s1, s2, s3, s4, s5, s6, s7⟩ := C04_deserialise_layout
  cases k
  · exact deserialises_wide s1 (by omega)
  · exact deserialises_wide s2 (by omega)
  · exact s3
  · exact s4
  · exact deserialises_wide s5 (by omega)
  · exact s6
  · exact s7

theorem kind_inj (k : Kind) {x y : List Byte} (hl : x.length = y.length) (h : k.value x = k.value y) : x = y := by
  cases k <;> first | exact valueBE_inj x y hl h | exact valueLE_inj x y hl h

theorem kind_lt (k : Kind) (x : List Byte) : k.value x < 256 ^ x.length := by
  cases k <;> first | exact valueBE_lt x | exact valueLE_lt x

/-- Between `m` and `m'` the fields `fs` of object `b` got their values, and nothing else changed. -/
structure Written (b : Nat) (fs : List (Slot × U32)) (m m' : Mem) : Prop where
  words : m'.words = m.words
  other : ∀ x, x ≠ b → m'.bytes x = m.bytes x
  len : (m'.bytes b).length = (m.bytes b).length
  rest : ∀ i, (∀ f ∈ fs, i < f.1.o ∨ f.1.o + f.1.kind.size ≤ i) → (m'.bytes b)[i]? = (m.bytes b)[i]?
  val : ∀ f ∈ fs, f.1.kind.value (slice (m'.bytes b) f.1.o f.1.kind.size) = f.2.toNat % 256 ^ f.1.kind.size

theorem slice_congr {l l' : List Byte} {o n : Nat} (h : ∀ i, o ≤ i → i < o + n → l'[i]? = l[i]?) :
    slice l' o n = slice l o n := by
  apply List.ext_getElem?
  intro j
  rw [getElem?_slice, getElem?_slice]
  split
  · exact h _ (by omega) (by omega)
  · rfl

theorem written_unique {b : Nat} {fs : List (Slot × U32)} {m m1 m2 : Mem}
    (hin : ∀ f ∈ fs, f.1.o + f.1.kind.size ≤ (m.bytes b).length) (h1 : Written b fs m m1) (h2 : Written b fs m m2) :
    m1 = m2 := by
  apply Mem.ext'
  · intro x
    by_cases hx : x = b
    · subst hx
      apply List.ext_getElem?
      intro i
      by_cases hc : ∀ f ∈ fs, i < f.1.o ∨ f.1.o + f.1.kind.size ≤ i
      · rw [h1.rest i hc, h2.rest i hc]
      · push Not at hc
        obtain ⟨f, hf, ha, hb⟩ := hc
        have e : slice (m1.bytes x) f.1.o f.1.kind.size = slice (m2.bytes x) f.1.o f.1.kind.size := by
          apply kind_inj f.1.kind
          · rw [slice_length _ _ _ (by rw [h1.len]; exact hin f hf), slice_length _ _ _ (by rw [h2.len]; exact hin f hf)]
          · rw [h1.val f hf, h2.val f hf]
        have := congrArg (fun l => l[i - f.1.o]?) e
        simp only [getElem?_slice] at this
        rw [if_pos (by omega), if_pos (by omega), show f.1.o + (i - f.1.o) = i by omega] at this
        exact this
    · rw [h1.other x hx, h2.other x hx]
  · intro x
    rw [h1.words, h2.words]

theorem writeAll_written (b : Nat) : ∀ (fs : List (Slot × U32)) (m : Mem),
    (∀ f ∈ fs, f.1.o + f.1.kind.size ≤ (m.bytes b).length) → fs.Pairwise (fun f g => f.1.Apart g.1) →
    ∃ m', writeAll b fs m = .ok () m' ∧ Written b fs m m'
  | [], m, _, _ => ⟨m, rfl, rfl, fun _ _ => rfl, rfl, fun _ _ => rfl, fun f hf => by cases hf⟩
  | (s, v) :: fs, m, hin, hap => by
    obtain ⟨m1, h1, hv, hch⟩ := (put_spec s.kind b s.o v m).1 (hin (s, v) (List.mem_cons_self ..))
    rw [List.pairwise_cons] at hap
    obtain ⟨m', h2, hw⟩ := writeAll_written b fs m1
      (fun f hf => by rw [hch.2.2.1]; exact hin f (List.mem_cons_of_mem _ hf)) hap.2
    refine ⟨m', ?_, ?_⟩
    · show (putAt s.kind (ptr b s.o) v >>= fun _ => writeAll b fs) m = _
      rw [C.bind_ok h1, h2]
    · refine ⟨hw.words.trans hch.1, fun x hx => (hw.other x hx).trans (hch.2.1 x hx), hw.len.trans hch.2.2.1, ?_, ?_⟩
      · intro i hi
        rw [hw.rest i (fun f hf => hi f (List.mem_cons_of_mem _ hf))]
        exact hch.2.2.2 i (hi (s, v) (List.mem_cons_self ..))
      · intro f hf
        rcases List.mem_cons.mp hf with rfl | hf
        · rw [← hv]
          congr 1
          apply slice_congr
          intro i ha hb
          apply hw.rest
          intro g hg
          have := hap.1 g hg
          unfold Slot.Apart at this
          simp only at this ha hb
          omega
        · exact hw.val f hf

theorem readAll_ok (b : Nat) : ∀ (ss : List Slot) (m : Mem), (∀ s ∈ ss, s.o + s.kind.size ≤ (m.bytes b).length) →
    readAll b ss m = .ok (ss.map fun s => BitVec.ofNat 32 (s.kind.value (slice (m.bytes b) s.o s.kind.size))) m
  | [], m, _ => rfl
  | s :: ss, m, hin => by
    obtain ⟨v, h1, h2⟩ := (get_spec s.kind b s.o m).1 (hin s (List.mem_cons_self ..))
    have hr := readAll_ok b ss m (fun t ht => hin t (List.mem_cons_of_mem _ ht))
    show (getAt s.kind (ptr b s.o) >>= fun v => readAll b ss >>= fun vs => pure (v :: vs)) m = _
    rw [C.bind_ok h1, C.bind_ok hr, List.map_cons, ← h2, BitVec.ofNat_toNat, BitVec.setWidth_eq]
    rfl

/-- C138: fields without common bytes, wherever they lie in an object and in whatever order they are written, all read
back; nothing outside them changes. -/
theorem C138_write (b : Nat) (fs : List (Slot × U32)) (m : Mem)
    (hin : ∀ f ∈ fs, f.1.o + f.1.kind.size ≤ (m.bytes b).length) (hap : fs.Pairwise (fun f g => f.1.Apart g.1)) :
    ∃ m', writeAll b fs m = .ok () m' ∧
      readAll b (fs.map (·.1)) m' = .ok (fs.map fun f => keptBits f.1.kind f.2) m' ∧
      m'.words = m.words ∧ (∀ x, x ≠ b → m'.bytes x = m.bytes x) ∧ (m'.bytes b).length = (m.bytes b).length ∧
      ∀ i, (∀ f ∈ fs, i < f.1.o ∨ f.1.o + f.1.kind.size ≤ i) → (m'.bytes b)[i]? = (m.bytes b)[i]? := by
  obtain ⟨m', h1, hw⟩ := writeAll_written b fs m hin hap
  refine ⟨m', h1, ?_, hw.words, hw.other, hw.len, hw.rest⟩
  rw [readAll_ok b _ m' (by
    intro s hs
    obtain ⟨f, hf, rfl⟩ := List.mem_map.mp hs
    rw [hw.len]; exact hin f hf)]
  congr 1
  rw [List.map_map]
  apply List.map_congr_left
  intro f hf
  show BitVec.ofNat 32 _ = BitVec.ofNat 32 _
  rw [hw.val f hf]

theorem writeAll_ub (b : Nat) : ∀ (fs : List (Slot × U32)) (m : Mem),
    (∃ f ∈ fs, (m.bytes b).length < f.1.o + f.1.kind.size) → writeAll b fs m = .ub .oobWrite
  | [], m, h => by obtain ⟨f, hf, _⟩ := h; cases hf
  | (s, v) :: fs, m, h => by
    show (putAt s.kind (ptr b s.o) v >>= fun _ => writeAll b fs) m = _
    by_cases hc : s.o + s.kind.size ≤ (m.bytes b).length
    · obtain ⟨m1, h1, _, hch⟩ := (put_spec s.kind b s.o v m).1 hc
      rw [C.bind_ok h1]
      apply writeAll_ub b fs m1
      obtain ⟨f, hf, hl⟩ := h
      rcases List.mem_cons.mp hf with rfl | hf
      · simp only at hl; omega
      · exact ⟨f, hf, by rw [hch.2.2.1]; exact hl⟩
    · rw [C.bind_ub ((put_spec s.kind b s.o v m).2 (by omega))]

/-- C138: the order of the writes does not matter. -/
theorem C138_order (b : Nat) {fs gs : List (Slot × U32)} (hp : fs.Perm gs) (hap : fs.Pairwise (fun f g => f.1.Apart g.1))
    (m : Mem) : writeAll b fs m = writeAll b gs m := by
  have hap' : gs.Pairwise (fun f g => f.1.Apart g.1) :=
    (hp.pairwise_iff (fun {f g} h => Or.symm h)).mp hap
  by_cases hin : ∀ f ∈ fs, f.1.o + f.1.kind.size ≤ (m.bytes b).length
  · obtain ⟨m1, h1, w1⟩ := writeAll_written b fs m hin hap
    obtain ⟨m2, h2, w2⟩ := writeAll_written b gs m (fun f hf => hin f (hp.mem_iff.mpr hf)) hap'
    have : m1 = m2 := written_unique hin w1
      ⟨w2.words, w2.other, w2.len, fun i hi => w2.rest i (fun f hf => hi f (hp.mem_iff.mpr hf)),
        fun f hf => w2.val f (hp.mem_iff.mp hf)⟩
    rw [h1, h2, this]
  · push Not at hin
    obtain ⟨f, hf, hl⟩ := hin
    rw [writeAll_ub b fs m ⟨f, hf, hl⟩, writeAll_ub b gs m ⟨f, hp.mem_iff.mp hf, hl⟩]

/-- C138: a field can be changed later without disturbing the others. -/
theorem C138_update (b : Nat) (s : Slot) (v : U32) (ss : List Slot) (m : Mem)
    (hs : s.o + s.kind.size ≤ (m.bytes b).length) (hin : ∀ t ∈ ss, t.o + t.kind.size ≤ (m.bytes b).length)
    (hap : ∀ t ∈ ss, t.Apart s) :
    ∃ m' vs, putAt s.kind (ptr b s.o) v m = .ok () m' ∧ readAll b ss m = .ok vs m ∧ readAll b ss m' = .ok vs m' ∧
      getAt s.kind (ptr b s.o) m' = .ok (keptBits s.kind v) m' := by
  obtain ⟨m', h1, hv, hch⟩ := (put_spec s.kind b s.o v m).1 hs
  refine ⟨m', _, h1, readAll_ok b ss m hin, ?_, ?_⟩
  · rw [readAll_ok b ss m' (fun t ht => by rw [hch.2.2.1]; exact hin t ht)]
    congr 1
    apply List.map_congr_left
    intro t ht
    congr 2
    apply slice_congr
    intro i ha hb
    apply hch.2.2.2
    have := hap t ht
    unfold Slot.Apart at this
    omega
  · obtain ⟨u, h2, h3⟩ := (get_spec s.kind b s.o m').1 (by rw [hch.2.2.1]; exact hs)
    rw [h2]
    congr 1
    rw [hv] at h3
    unfold keptBits
    rw [← h3]; simp

/-- C138: a series of writes is defined exactly if all the fields lie inside the object, whether they overlap or not. -/
theorem C138_defined (b : Nat) (fs : List (Slot × U32)) (m : Mem) :
    ((∃ m', writeAll b fs m = .ok () m') ↔ ∀ f ∈ fs, f.1.o + f.1.kind.size ≤ (m.bytes b).length) := by
  constructor
  · rintro ⟨m', h⟩ f hf
    by_contra hc
    rw [writeAll_ub b fs m ⟨f, hf, by omega⟩] at h
    cases h
  · induction fs generalizing m with
    | nil => exact fun _ => ⟨m, rfl⟩
    | cons f fs ih =>
      intro h
      obtain ⟨s, v⟩ := f
      obtain ⟨m1, h1, _, hch⟩ := (put_spec s.kind b s.o v m).1 (h (s, v) (List.mem_cons_self ..))
      obtain ⟨m', h2⟩ := ih m1 (fun f hf => by rw [hch.2.2.1]; exact h f (List.mem_cons_of_mem _ hf))
      refine ⟨m', ?_⟩
      show (putAt s.kind (ptr b s.o) v >>= fun _ => writeAll b fs) m = _
      rw [C.bind_ok h1, h2]

/-! ### Fields one behind the other -/

theorem packed_bounds : ∀ (ks : List Kind) (o : Nat), ∀ s ∈ packed o ks, o ≤ s.o ∧ s.o + s.kind.size ≤ o + total ks
  | [], _, s, hs => by cases hs
  | k :: ks, o, s, hs => by
    rw [total]
    rcases List.mem_cons.mp hs with rfl | hs
    · exact ⟨Nat.le_refl _, by simp only; omega⟩
    · have := packed_bounds ks (o + k.size) s hs
      omega

theorem packed_apart : ∀ (ks : List Kind) (o : Nat), (packed o ks).Pairwise Slot.Apart
  | [], _ => List.Pairwise.nil
  | k :: ks, o => by
    rw [packed, List.pairwise_cons]
    exact ⟨fun s hs => Or.inl (packed_bounds ks (o + k.size) s hs).1, packed_apart ks _⟩

theorem packed_cover : ∀ (ks : List Kind) (o i : Nat), o ≤ i → i < o + total ks →
    ∃ s ∈ packed o ks, s.o ≤ i ∧ i < s.o + s.kind.size
  | [], o, i, h1, h2 => by rw [total] at h2; omega
  | k :: ks, o, i, h1, h2 => by
    rw [total] at h2
    by_cases hc : i < o + k.size
    · exact ⟨⟨o, k⟩, List.mem_cons_self .., h1, hc⟩
    · obtain ⟨s, hs, h⟩ := packed_cover ks (o + k.size) i (by omega) (by omega)
      exact ⟨s, List.mem_cons_of_mem _ hs, h⟩

theorem packed_length : ∀ (ks : List Kind) (o : Nat), (packed o ks).length = ks.length
  | [], _ => rfl
  | k :: ks, o => by rw [packed, List.length_cons, List.length_cons, packed_length ks]

/-- A record: the kinds of its fields and their values. -/
def fieldsAt (o : Nat) (r : List (Kind × U32)) : List (Slot × U32) :=
  (packed o (r.map (·.1))).zip (r.map (·.2))

theorem fieldsAt_cons (o : Nat) (k : Kind) (v : U32) (r : List (Kind × U32)) :
    fieldsAt o ((k, v) :: r) = (⟨o, k⟩, v) :: fieldsAt (o + k.size) r := rfl

theorem fieldsAt_slots : ∀ (r : List (Kind × U32)) (o : Nat), (fieldsAt o r).map (·.1) = packed o (r.map (·.1))
  | [], _ => rfl
  | (k, v) :: r, o => by rw [fieldsAt_cons, List.map_cons, fieldsAt_slots r]; rfl

theorem fieldsAt_stored : ∀ (r : List (Kind × U32)) (o : Nat),
    ((fieldsAt o r).map fun f => keptBits f.1.kind f.2) = r.map fun f => keptBits f.1 f.2
  | [], _ => rfl
  | (k, v) :: r, o => by rw [fieldsAt_cons, List.map_cons, fieldsAt_stored r]; rfl

theorem fieldsAt_mem {r : List (Kind × U32)} {o : Nat} {f : Slot × U32} (h : f ∈ fieldsAt o r) :
    f.1 ∈ packed o (r.map (·.1)) := by
  rw [← fieldsAt_slots]; exact List.mem_map_of_mem h

theorem fieldsAt_apart (r : List (Kind × U32)) (o : Nat) : (fieldsAt o r).Pairwise (fun f g => f.1.Apart g.1) := by
  have := packed_apart (r.map (·.1)) o
  rw [← fieldsAt_slots, List.pairwise_map] at this
  exact this

/-- C138: a record written one field behind the other reads back, takes as many bytes as its fields have together, and
changes no others. -/
theorem C138_packed (b o : Nat) (r : List (Kind × U32)) (m : Mem) (h : o + total (r.map (·.1)) ≤ (m.bytes b).length) :
    ∃ m', writeAll b (fieldsAt o r) m = .ok () m' ∧ OnlyChanged m m' b o (total (r.map (·.1))) ∧
      readAll b (packed o (r.map (·.1))) m' = .ok (r.map fun f => keptBits f.1 f.2) m' := by
  have hin : ∀ f ∈ fieldsAt o r, f.1.o + f.1.kind.size ≤ (m.bytes b).length := by
    intro f hf
    have := packed_bounds _ o f.1 (fieldsAt_mem hf)
    omega
  obtain ⟨m', h1, h2, h3, h4, h5, h6⟩ := C138_write b (fieldsAt o r) m hin (fieldsAt_apart r o)
  refine ⟨m', h1, ⟨h3, h4, h5, ?_⟩, ?_⟩
  · intro i hi
    apply h6
    intro f hf
    have := packed_bounds _ o f.1 (fieldsAt_mem hf)
    omega
  · rw [fieldsAt_slots, fieldsAt_stored] at h2
    exact h2

theorem packed_map (l l' : List Byte) : ∀ (ks : List Kind) (o o' : Nat),
    slice l' o' (total ks) = slice l o (total ks) →
    ((packed o' ks).map fun s => BitVec.ofNat 32 (s.kind.value (slice l' s.o s.kind.size))) =
      (packed o ks).map fun s => BitVec.ofNat 32 (s.kind.value (slice l s.o s.kind.size))
  | [], _, _, _ => rfl
  | k :: ks, o, o', h => by
    rw [total] at h
    have h1 : slice l' o' k.size = slice l o k.size := by
      have := congrArg (List.take k.size) h
      unfold slice at this ⊢
      rw [List.take_take, List.take_take, Nat.min_eq_left (by omega)] at this
      exact this
    have h2 : slice l' (o' + k.size) (total ks) = slice l (o + k.size) (total ks) := by
      have := congrArg (List.drop k.size) h
      unfold slice at this ⊢
      rw [List.drop_take, List.drop_take, List.drop_drop, List.drop_drop,
        show k.size + total ks - k.size = total ks by omega] at this
      exact this
    rw [packed, packed, List.map_cons, List.map_cons, packed_map l l' ks _ _ h2, h1]

/-- C138: what is read depends on the bytes of the record alone, not on where they lie. -/
theorem C138_moved (ks : List Kind) (b o b' o' : Nat) (m n : Mem) (h : o + total ks ≤ (m.bytes b).length)
    (h' : o' + total ks ≤ (n.bytes b').length)
    (he : slice (n.bytes b') o' (total ks) = slice (m.bytes b) o (total ks)) :
    ∃ vs, readAll b (packed o ks) m = .ok vs m ∧ readAll b' (packed o' ks) n = .ok vs n := by
  refine ⟨_, readAll_ok b _ m fun s hs => ?_, ?_⟩
  · have := packed_bounds ks o s hs; omega
  · rw [readAll_ok b' _ n (fun s hs => by have := packed_bounds ks o' s hs; omega), packed_map _ _ ks o o' he]

theorem slice_eq_of_packed {l l' : List Byte} : ∀ (ks : List Kind) (o o' : Nat), o + total ks ≤ l.length →
    o' + total ks ≤ l'.length →
    ((packed o' ks).map fun s => s.kind.value (slice l' s.o s.kind.size)) =
      ((packed o ks).map fun s => s.kind.value (slice l s.o s.kind.size)) →
    slice l' o' (total ks) = slice l o (total ks)
  | [], _, _, _, _, _ => by simp [total, slice]
  | k :: ks, o, o', h, h', he => by
    rw [total] at h h' ⊢
    rw [packed, packed, List.map_cons, List.map_cons, List.cons.injEq] at he
    have e1 := kind_inj k (x := slice l' o' k.size) (y := slice l o k.size)
      (by rw [slice_length _ _ _ (by omega), slice_length _ _ _ (by omega)]) he.1
    have e2 := slice_eq_of_packed ks (o + k.size) (o' + k.size) (by omega) (by omega) he.2
    rw [Sort.slice_add, Sort.slice_add, e1, e2]

theorem stored_value (k : Kind) {x : List Byte} (hx : x.length = k.size) :
    (BitVec.ofNat 32 (k.value x)).toNat % 256 ^ k.size = k.value x := by
  have hlt := kind_lt k x
  rw [hx] at hlt
  have : 256 ^ k.size ≤ 2 ^ 32 := by cases k <;> decide
  rw [BitVec.toNat_ofNat, Nat.mod_eq_of_lt (show k.value x < 2 ^ 32 by omega), Nat.mod_eq_of_lt hlt]

theorem fieldsAt_zip : ∀ (ks : List Kind) (vs : List U32) (o : Nat), vs.length = ks.length →
    fieldsAt o (ks.zip vs) = (packed o ks).zip vs
  | [], [], _, _ => rfl
  | k :: ks, v :: vs, o, h => by
    rw [List.zip_cons_cons, fieldsAt_cons, fieldsAt_zip ks vs _ (by simpa using h)]; rfl

/-- C138: reading a record and writing the values elsewhere copies its bytes: no two byte strings stand for the same
record. -/
theorem C138_rewrite (ks : List Kind) (b o b' o' : Nat) (m : Mem) (h : o + total ks ≤ (m.bytes b).length)
    (h' : o' + total ks ≤ (m.bytes b').length) :
    ∃ vs m', readAll b (packed o ks) m = .ok vs m ∧ writeAll b' ((packed o' ks).zip vs) m = .ok () m' ∧
      slice (m'.bytes b') o' (total ks) = slice (m.bytes b) o (total ks) := by
  have hr := readAll_ok b (packed o ks) m (fun s hs => by have := packed_bounds ks o s hs; omega)
  set vs := (packed o ks).map fun s => BitVec.ofNat 32 (s.kind.value (slice (m.bytes b) s.o s.kind.size)) with hvs
  have hvl : vs.length = ks.length := by rw [hvs, List.length_map, packed_length]
  have hz : ((packed o' ks).zip vs).map (·.1) = packed o' ks := by
    rw [List.map_fst_zip (by rw [packed_length, hvl])]
  have hin : ∀ f ∈ (packed o' ks).zip vs, f.1.o + f.1.kind.size ≤ (m.bytes b').length := by
    intro f hf
    have hm : f.1 ∈ packed o' ks := by rw [← hz]; exact List.mem_map_of_mem hf
    have := packed_bounds ks o' f.1 hm
    omega
  have hap : ((packed o' ks).zip vs).Pairwise (fun f g => f.1.Apart g.1) := by
    have := packed_apart ks o'
    rw [← hz, List.pairwise_map] at this
    exact this
  obtain ⟨m', hw, hW⟩ := writeAll_written b' _ m hin hap
  refine ⟨vs, m', hr, hw, ?_⟩
  apply slice_eq_of_packed ks o o' h (by rw [hW.len]; exact h')
  have hval : ((packed o' ks).zip vs).map (fun f => f.1.kind.value (slice (m'.bytes b') f.1.o f.1.kind.size)) =
      ((packed o' ks).zip vs).map (fun f => f.2.toNat % 256 ^ f.1.kind.size) :=
    List.map_congr_left hW.val
  have hl : (packed o' ks).map (fun s => s.kind.value (slice (m'.bytes b') s.o s.kind.size)) =
      ((packed o' ks).zip vs).map (fun f => f.1.kind.value (slice (m'.bytes b') f.1.o f.1.kind.size)) := by
    conv_lhs => rw [← hz]
    rw [List.map_map]; rfl
  rw [hl, hval, hvs]
  clear hl hval hW hw hap hin hz hvl hr hvs
  induction ks generalizing o o' with
  | nil => rfl
  | cons k ks ih =>
    rw [total] at h h'
    rw [packed, packed, List.map_cons, List.zip_cons_cons, List.map_cons, List.map_cons,
      ih (o + k.size) (o' + k.size) (by omega) (by omega)]
    congr 1
    exact stored_value k (slice_length _ _ _ (show o + k.size ≤ _ by omega))

/-! ### A checksum behind the record -/

/-- The receiver: the checksum of `len` bytes is compared with the one behind them. -/
def accept {w : Nat} (f : CrcFn w) (des : Ptr → C (BitVec w)) (b o : Nat) (len : U32) : C Bool := do
  let c ← f (ptr b o) len true none
  let d ← des (ptr b (o + len.toNat))
  return decide (c = d)

theorem accept_spec {w k : Nat} {e : Entry w} {f : CrcFn w} (hf : Shipped w e f) (hk : w = 8 * k) {des : Ptr → C (BitVec w)}
    (hdes : Deserialises des k (if e.params.refin then valueLE else valueBE)) {n : Mem} {b o : Nat} {len : U32}
    (h : o + len.toNat + k ≤ (n.bytes b).length) :
    ∃ r, accept f des b o len n = .ok r n ∧
      (r = true ↔ crc e.params (slice (n.bytes b) o (len.toNat + k)) = residue e.params) := by
  have hi := Crc.shipped_impl hf
  obtain ⟨d, h1, h2⟩ := (hdes b (o + len.toNat) n).1 h
  refine ⟨decide (crc e.params (slice (n.bytes b) o len.toNat) = d), ?_, ?_⟩
  · show (f (ptr b o) len true none >>= fun c => des (ptr b (o + len.toNat)) >>= fun d => pure (decide (c = d))) n = _
    rw [C.bind_ok (C72_published hf (by omega)), C.bind_ok h1]; rfl
  · rw [decide_eq_true_iff, Sort.slice_add, C73_residue e.params hi.odd hi.same _ _ (by
      rw [slice_length _ _ _ h, hk])]
    have h2' : d.toNat = if e.params.refin then valueLE (slice (n.bytes b) (o + len.toNat) k)
        else valueBE (slice (n.bytes b) (o + len.toNat) k) := by
      rw [h2]; split <;> rfl
    rw [← h2']
    exact ⟨fun h => by rw [h], fun h => BitVec.eq_of_toNat_eq h.symm⟩

theorem sealed {w k : Nat} {e : Entry w} {f : CrcFn w} (hf : Shipped w e f) (hk : w = 8 * k)
    {ser : Ptr → BitVec w → C Unit} {des : Ptr → C (BitVec w)}
    (hser : Serialises ser k (if e.params.refin then valueLE else valueBE))
    (hdes : Deserialises des k (if e.params.refin then valueLE else valueBE))
    (r : List (Kind × U32)) {b o : Nat} {m : Mem} {len : U32} (hl : len.toNat = total (r.map (·.1)))
    (h : o + len.toNat + k ≤ (m.bytes b).length) (hlt : len.toNat + k < 2 ^ 32) :
    ∃ m1 c m2, writeAll b (fieldsAt o r) m = .ok () m1 ∧ f (ptr b o) len true none m1 = .ok c m1 ∧
      ser (ptr b (o + len.toNat)) c m1 = .ok () m2 ∧
      ∀ (n : Mem) (b' o' : Nat), o' + len.toNat + k ≤ (n.bytes b').length →
        (slice (n.bytes b') o' (len.toNat + k) = slice (m2.bytes b) o (len.toNat + k) →
          accept f des b' o' len n = .ok true n ∧
          readAll b' (packed o' (r.map (·.1))) n = .ok (r.map fun f => keptBits f.1 f.2) n) ∧
        (Burst w (bits e.params.refin (slice (m2.bytes b) o (len.toNat + k)))
            (bits e.params.refin (slice (n.bytes b') o' (len.toNat + k))) →
          accept f des b' o' len n = .ok false n) := by
  obtain ⟨m1, h1, hch, hrd⟩ := C138_packed b o r m (by omega)
  have hlen1 := hch.2.2.1
  obtain ⟨c, m2, h2, h3, h4⟩ := send hf hk hser (m := m1) (b := b) (o := o) (len := len) (by rw [hlen1]; exact h) hlt
  have hch2 : OnlyChanged m1 m2 b (o + len.toNat) k := by
    obtain ⟨m2', h5, _, h6⟩ := (hser b (o + len.toNat) c m1).1 (by rw [hlen1]; exact h)
    rw [h3] at h5; cases h5; exact h6
  have hlen2 : (m2.bytes b).length = (m.bytes b).length := hch2.2.2.1.trans hlen1
  have hn : (len + BitVec.ofNat 32 k).toNat = len.toNat + k := by
    rw [BitVec.toNat_add, BitVec.toNat_ofNat, Nat.mod_eq_of_lt (show k < 2 ^ 32 by omega), Nat.mod_eq_of_lt hlt]
  have hres : crc e.params (slice (m2.bytes b) o (len.toNat + k)) = residue e.params := by
    rw [C72_published hf (by rw [hn, hlen2]; omega), hn] at h4
    injection h4
  refine ⟨m1, c, m2, h1, h2, h3, fun n b' o' hb => ⟨fun he => ⟨?_, ?_⟩, fun hbu => ?_⟩⟩
  · obtain ⟨a, ha, hiff⟩ := accept_spec hf hk hdes hb
    rw [ha, hiff.mpr (by rw [he, hres])]
  · have he' : slice (n.bytes b') o' (total (r.map (·.1))) = slice (m1.bytes b) o (total (r.map (·.1))) := by
      rw [← hl, ← slice_of_onlyChanged hch2 (Nat.le_refl _)]
      have := congrArg (List.take len.toNat) he
      unfold slice at this ⊢
      rw [List.take_take, List.take_take, Nat.min_eq_left (by omega)] at this
      exact this
    obtain ⟨vs, h5, h6⟩ := C138_moved (r.map (·.1)) b o b' o' m1 n (by rw [hlen1]; omega) (by omega) he'
    rw [h5] at hrd
    injection hrd with hrd
    rw [h6, hrd]
  · obtain ⟨a, ha, hiff⟩ := accept_spec hf hk hdes hb
    rw [ha]
    cases a with
    | false => rfl
    | true =>
      exact absurd (hres.trans (hiff.mp rfl).symm) (C16_burst e.params (Crc.shipped_impl hf).odd hbu)

theorem serialises8_any (r : Bool) : Serialises serialize8 1 (if r then valueLE else valueBE) := by
  cases r
  · exact C04_serialise_layout.1
  · intro b o v m
    have := C04_serialise_layout.1 b o v m
    refine ⟨fun hl => ?_, this.2⟩
    obtain ⟨m', h1, h2, h3⟩ := this.1 hl
    refine ⟨m', h1, ?_, h3⟩
    rw [← h2]
    obtain ⟨a, ha⟩ := Utils.list1 (slice (m'.bytes b) o 1) (slice_length _ _ _ (by rw [h3.2.2.1]; exact hl))
    rw [ha]
    simp [valueLE, valueBE]

theorem deserialises8_any (r : Bool) : Deserialises deserialize8 1 (if r then valueLE else valueBE) := by
  cases r
  · exact C04_deserialise_layout.1
  · intro b o m
    have := C04_deserialise_layout.1 b o m
    refine ⟨fun hl => ?_, this.2⟩
    obtain ⟨v, h1, h2⟩ := this.1 hl
    refine ⟨v, h1, ?_⟩
    rw [h2]
    obtain ⟨a, ha⟩ := Utils.list1 (slice (m.bytes b) o 1) (slice_length _ _ _ hl)
    rw [ha]
    simp [valueLE, valueBE]

/-- What a sender does with a record `r` and a CRC function, and what a receiver of the bytes can rely on: unharmed bytes,
wherever they arrive, are accepted and give the values sent; after an error burst that is no longer than the checksum
and hits the record, the checksum or both they are refused. -/
def Sealed {w : Nat} (e : Entry w) (f : CrcFn w) (k : Nat) (ser : Ptr → BitVec w → C Unit) (des : Ptr → C (BitVec w)) : Prop :=
  ∀ (r : List (Kind × U32)) (b o : Nat) (m : Mem) (len : U32), len.toNat = total (r.map (·.1)) →
    o + len.toNat + k ≤ (m.bytes b).length → len.toNat + k < 2 ^ 32 →
    ∃ m1 c m2, writeAll b (fieldsAt o r) m = .ok () m1 ∧ f (ptr b o) len true none m1 = .ok c m1 ∧
      ser (ptr b (o + len.toNat)) c m1 = .ok () m2 ∧
      ∀ (n : Mem) (b' o' : Nat), o' + len.toNat + k ≤ (n.bytes b').length →
        (slice (n.bytes b') o' (len.toNat + k) = slice (m2.bytes b) o (len.toNat + k) →
          accept f des b' o' len n = .ok true n ∧
          readAll b' (packed o' (r.map (·.1))) n = .ok (r.map fun f => keptBits f.1 f.2) n) ∧
        (Burst w (bits e.params.refin (slice (m2.bytes b) o (len.toNat + k)))
            (bits e.params.refin (slice (n.bytes b') o' (len.toNat + k))) →
          accept f des b' o' len n = .ok false n)

/-- C138: records with a checksum behind them, for all CRC functions. -/
theorem C138_sealed :
    (∀ {e : Entry 8} {f : CrcFn 8}, Shipped 8 e f → Sealed e f 1 serialize8 deserialize8) ∧
    (∀ {e : Entry 16} {f : CrcFn 16}, Shipped 16 e f →
      Sealed e f 2 (if e.params.refin then serialize16LE else serialize16BE)
        (if e.params.refin then deserialize16LE else deserialize16BE)) ∧
    (∀ {e : Entry 32} {f : CrcFn 32}, Shipped 32 e f →
      Sealed e f 4 (if e.params.refin then serialize32LE else serialize32BE)
        (if e.params.refin then deserialize32LE else deserialize32BE)) := by
  obtain ⟨-, s2, -, s4, s5, -, s7⟩ := C04_serialise_layout
  obtain ⟨-, d2, -, d4, d5, -, d7⟩ := C04_deserialise_layout
  refine ⟨?_, ?_, ?_⟩
  · intro e f hf r b o m len hl h hlt
    exact sealed hf rfl (serialises8_any _) (deserialises8_any _) r hl h hlt
  · intro e f hf r b o m len hl h hlt
    exact sealed hf rfl (by cases e.params.refin; exacts [s2, s5]) (by cases e.params.refin; exacts [d2, d5]) r hl h hlt
  · intro e f hf r b o m len hl h hlt
    exact sealed hf rfl (by cases e.params.refin; exacts [s4, s7]) (by cases e.params.refin; exacts [d4, d7]) r hl h hlt

/-! ### Instances -/

/-- A byte, a 24-bit field and two 16-bit fields of different byte orders, written out of order with a gap between them. -/
example : ([(⟨6, .le16⟩, 0x0102#32), (⟨0, .u8⟩, 0x0703#32), (⟨1, .be24⟩, 0xFF0A0B0C#32), (⟨8, .be16⟩, 0x0405#32)] :
      List (Slot × U32)).Pairwise (fun f g => f.1.Apart g.1) ∧
    ∃ m', writeAll 0 [(⟨6, .le16⟩, 0x0102#32), (⟨0, .u8⟩, 0x0703#32), (⟨1, .be24⟩, 0xFF0A0B0C#32), (⟨8, .be16⟩, 0x0405#32)]
      (mem1 (List.replicate 11 9#8)) = .ok () m' ∧
      m'.bytes 0 = [3#8, 10#8, 11#8, 12#8, 9#8, 9#8, 2#8, 1#8, 4#8, 5#8, 9#8] := by
  refine ⟨?_, _, rfl, by decide⟩
  simp [Slot.Apart, Kind.size]

/-- A record of three fields in a buffer of exactly the right size with a CRC-32 behind it. -/
example : total ([(.u8, 1#32), (.le24, 2#32), (.be32, 3#32)].map (·.1)) = 8 ∧
    2 + 8 + 4 ≤ ((mem1 (List.replicate 14 0#8)).bytes 0).length := by decide

end IMU.Props
