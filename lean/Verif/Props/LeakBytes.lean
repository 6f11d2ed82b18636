import Verif.Proofs.LeakBytes
import Verif.Props.LeakSort

/-!
# Property C149: what the serialisers, the exchange of elements and the reflection of bits show

To an observer who sees all addresses and decisions (`Verif/C/Leak.lean`).
-/

namespace IMU.Props
open Spec Utils T

variable {m m' : Mem} {t : List Leak}

/-- C149: what is observed is the code that the other properties are about. -/
theorem C149_same_code (p q : Ptr) (v8 : Byte) (v16 : U16) (v : U32) :
    (erase (serialize8T p v8) = serialize8 p v8 ∧ erase (deserialize8T p) = deserialize8 p) ∧
    (erase (serialize16BET p v16) = serialize16BE p v16 ∧ erase (serialize16LET p v16) = serialize16LE p v16 ∧
      erase (serialize24BET p v) = serialize24BE p v ∧ erase (serialize24LET p v) = serialize24LE p v ∧
      erase (serialize32BET p v) = serialize32BE p v ∧ erase (serialize32LET p v) = serialize32LE p v) ∧
    (erase (deserialize16BET p) = deserialize16BE p ∧ erase (deserialize16LET p) = deserialize16LE p ∧
      erase (deserialize24BET p) = deserialize24BE p ∧ erase (deserialize24LET p) = deserialize24LE p ∧
      erase (deserialize32BET p) = deserialize32BE p ∧ erase (deserialize32LET p) = deserialize32LE p) ∧
    (erase (serializeBlobBET p q v) = serializeBlobBE p q v ∧ erase (deserializeBlobBET p q v) = deserializeBlobBE p q v ∧
      erase (serializeBlobLET p q v) = serializeBlobLE p q v ∧ erase (deserializeBlobLET p q v) = deserializeBlobLE p q v) ∧
    erase (swapElementsT p q v) = swapElements p q v ∧ erase (Crc.reflectT v v8) = Crc.reflect v v8 := by
  refine ⟨⟨?_, ?_⟩, ⟨?_, ?_, ?_, ?_, ?_, ?_⟩, ⟨?_, ?_, ?_, ?_, ?_, ?_⟩, ⟨?_, ?_, ?_, ?_⟩, ?_, Crc.erase_reflect v v8⟩
  · exact erase_store _ _
  · exact erase_load _
  all_goals simp only [serialize16BET, serialize16LET, serialize24BET, serialize24LET, serialize32BET, serialize32LET,
    deserialize16BET, deserialize16LET, deserialize24BET, deserialize24LET, deserialize32BET, deserialize32LET,
    serializeBlobBET, serializeBlobLET, deserializeBlobBET, deserializeBlobLET, swapElementsT,
    serialize16BE, serialize16LE, serialize24BE, serialize24LE, serialize32BE, serialize32LE,
    deserialize16BE, deserialize16LE, deserialize24BE, deserialize24LE, deserialize32BE, deserialize32LE,
    serializeBlobBE, serializeBlobLE, deserializeBlobBE, deserializeBlobLE, swapElements,
    erase_bind, erase_store, erase_load, erase_pure, erase_quiet, erase_forNT, erase_forDownT]

/-- C149: a serialiser shows where it writes, in which order, and nothing of the value. -/
theorem C149_serialize (p : Ptr) (v8 : Byte) (v16 : U16) (v : U32) :
    (serialize8T p v8 m = .ok ((), t) m' → t = writesAt p [0]) ∧
    (serialize16BET p v16 m = .ok ((), t) m' → t = writesAt p [0, 1]) ∧
    (serialize16LET p v16 m = .ok ((), t) m' → t = writesAt p [1, 0]) ∧
    (serialize24BET p v m = .ok ((), t) m' → t = writesAt p [0, 1, 2]) ∧
    (serialize24LET p v m = .ok ((), t) m' → t = writesAt p [2, 1, 0]) ∧
    (serialize32BET p v m = .ok ((), t) m' → t = writesAt p [0, 1, 2, 3]) ∧
    (serialize32LET p v m = .ok ((), t) m' → t = writesAt p [3, 2, 1, 0]) :=
  ⟨fun h => shows_write _ _ _ _ _ _ h,
    fun h => (Shows.bind (shows_write _ _) fun _ => shows_write _ _) _ _ _ _ h,
    fun h => (Shows.bind (shows_write _ _) fun _ => shows_write _ _) _ _ _ _ h,
    fun h => (Shows.bind (shows_write _ _) fun _ => Shows.bind (shows_write _ _) fun _ => shows_write _ _) _ _ _ _ h,
    fun h => (Shows.bind (shows_write _ _) fun _ => Shows.bind (shows_write _ _) fun _ => shows_write _ _) _ _ _ _ h,
    fun h => (Shows.bind (shows_write _ _) fun _ => Shows.bind (shows_write _ _) fun _ =>
      Shows.bind (shows_write _ _) fun _ => shows_write _ _) _ _ _ _ h,
    fun h => (Shows.bind (shows_write _ _) fun _ => Shows.bind (shows_write _ _) fun _ =>
      Shows.bind (shows_write _ _) fun _ => shows_write _ _) _ _ _ _ h⟩

/-- C149: a deserialiser shows where it reads, in which order, and nothing of the bytes. -/
theorem C149_deserialize (p : Ptr) {v8 : Byte} {v16 : U16} {v : U32} :
    (deserialize8T p m = .ok (v8, t) m' → t = readsAt p [0]) ∧
    (deserialize16BET p m = .ok (v16, t) m' → t = readsAt p [0, 1]) ∧
    (deserialize16LET p m = .ok (v16, t) m' → t = readsAt p [1, 0]) ∧
    (deserialize24BET p m = .ok (v, t) m' → t = readsAt p [0, 1, 2]) ∧
    (deserialize24LET p m = .ok (v, t) m' → t = readsAt p [2, 1, 0]) ∧
    (deserialize32BET p m = .ok (v, t) m' → t = readsAt p [0, 1, 2, 3]) ∧
    (deserialize32LET p m = .ok (v, t) m' → t = readsAt p [3, 2, 1, 0]) :=
  ⟨fun h => shows_read _ _ _ _ _ h,
    fun h => (Shows.bind (shows_read _) fun _ => Shows.bind (shows_read _) fun _ => Shows.pure _) _ _ _ _ h,
    fun h => (Shows.bind (shows_read _) fun _ => Shows.bind (shows_read _) fun _ => Shows.pure _) _ _ _ _ h,
    fun h => (Shows.bind (shows_read _) fun _ => Shows.bind (shows_read _) fun _ => Shows.bind (shows_read _) fun _ =>
      Shows.pure _) _ _ _ _ h,
    fun h => (Shows.bind (shows_read _) fun _ => Shows.bind (shows_read _) fun _ => Shows.bind (shows_read _) fun _ =>
      Shows.pure _) _ _ _ _ h,
    fun h => (Shows.bind (shows_read _) fun _ => Shows.bind (shows_read _) fun _ => Shows.bind (shows_read _) fun _ =>
      Shows.bind (shows_read _) fun _ => Shows.pure _) _ _ _ _ h,
    fun h => (Shows.bind (shows_read _) fun _ => Shows.bind (shows_read _) fun _ => Shows.bind (shows_read _) fun _ =>
      Shows.bind (shows_read _) fun _ => Shows.pure _) _ _ _ _ h⟩

/-- C149: the functions for blobs show the number of bytes and in which order they are copied, and nothing of them. -/
theorem C149_blob (p q : Ptr) (size : U32) :
    (serializeBlobBET p q size m = .ok ((), t) m' → t = rounds size.toNat fun i => [.read (q.addN i), .write (p.addN i)]) ∧
    (deserializeBlobBET p q size m = .ok ((), t) m' → t = rounds size.toNat fun i => [.read (p.addN i), .write (q.addN i)]) ∧
    (size.toNat < 2 ^ 31 →
      (serializeBlobLET p q size m = .ok ((), t) m' →
        t = rounds size.toNat fun i => [.read (q.addN (size.toNat - 1 - i)), .write (p.addN i)]) ∧
      (deserializeBlobLET p q size m = .ok ((), t) m' →
        t = rounds size.toNat fun i => [.read (p.addN (size.toNat - 1 - i)), .write (q.addN i)])) :=
  ⟨fun h => shows_copyLoop _ _ _ _ _ _ _ h, fun h => shows_copyLoop _ _ _ _ _ _ _ h,
    fun hs => ⟨fun h => shows_blobLE _ _ _ hs _ _ _ _ h, fun h => shows_blobLE _ _ _ hs _ _ _ _ h⟩⟩

/-- C149: an exchange of two elements shows their size, and nothing of their bytes. -/
theorem C149_swap (p q : Ptr) (size : U32) (h : swapElementsT p q size m = .ok ((), t) m') :
    t = rounds size.toNat fun i => [.read (p.addN (size.toNat - 1 - i)), .read (q.addN (size.toNat - 1 - i)),
      .write (p.addN (size.toNat - 1 - i)), .write (q.addN (size.toNat - 1 - i))] :=
  shows_swap p q size _ _ _ _ h

/-- C149: the reflection of the low `n` bits of a number takes `2 n + 1` steps and shows all of these bits. -/
theorem C149_reflect (d d' : U32) (n : Byte) {r r' : U32} {m1 m1' : Mem} {t' : List Leak}
    (h : Crc.reflectT d n m = .ok (r, t) m') (h' : Crc.reflectT d' n m1 = .ok (r', t') m1') :
    t.length = 2 * n.toNat + 1 ∧ (t = t' ↔ ∀ i, i < n.toNat → d.getLsbD i = d'.getLsbD i) := by
  have e := shows_reflectLoop n n.toNat 0 d 0#32 _ _ _ _ h
  have e' := shows_reflectLoop n n.toNat 0 d' 0#32 _ _ _ _ h'
  have hl : ∀ k, ((List.range k).flatMap fun i => Leak.branch true :: [Leak.branch (d.getLsbD i)]).length = 2 * k := by
    intro k
    induction k with
    | zero => rfl
    | succ k ih => rw [List.range_succ, List.flatMap_append, List.length_append, ih]; rfl
  refine ⟨by rw [e, rounds, List.length_append, hl]; rfl, ?_⟩
  rw [e, e']
  unfold rounds
  rw [List.append_left_inj]
  generalize n.toNat = k
  induction k with
  | zero => simp
  | succ k ih =>
    have hl' : ((List.range k).flatMap fun i => Leak.branch true :: [Leak.branch (d.getLsbD i)]).length =
        ((List.range k).flatMap fun i => Leak.branch true :: [Leak.branch (d'.getLsbD i)]).length := by
      rw [List.length_flatMap, List.length_flatMap]; rfl
    rw [List.range_succ, List.flatMap_append, List.flatMap_append]
    constructor
    · intro h0 i hi
      obtain ⟨h1, h2⟩ := List.append_inj h0 hl'
      rcases Nat.lt_succ_iff_lt_or_eq.1 hi with h | rfl
      · exact ih.1 h1 i h
      · simpa using h2
    · intro h1
      rw [ih.2 fun i hi => h1 i (by omega)]
      simp [h1 k (by omega)]

/-- Non-vacuity: a little-endian number is written, a blob of two bytes is reversed, two elements are exchanged. -/
example : shownOf (serialize16LET (ptr 0 1) 0x1234#16 (mem1 [0, 0, 0])) = [.write (ptr 0 2), .write (ptr 0 1)] ∧
    shownOf (serializeBlobLET (ptr 0 0) (ptr 0 2) 2#32 (mem1 [0, 0, 5, 6])) =
      [.branch true, .read (ptr 0 3), .write (ptr 0 0), .branch true, .read (ptr 0 2), .write (ptr 0 1), .branch false] ∧
    shownOf (swapElementsT (ptr 0 0) (ptr 0 1) 1#32 (mem1 [5, 6])) =
      [.branch true, .read (ptr 0 0), .read (ptr 0 1), .write (ptr 0 0), .write (ptr 0 1), .branch false] := by
  decide +kernel

/-- ... and the three low bits of 5 and of 13 show the same in their reflection, those of 5 and 7 do not. -/
example : ∃ r s u t t' t'' , Crc.reflectT 5#32 3#8 (mem1 []) = .ok (r, t) (mem1 []) ∧ Crc.reflectT 13#32 3#8 (mem1 []) = .ok (s, t') (mem1 []) ∧
    Crc.reflectT 7#32 3#8 (mem1 []) = .ok (u, t'') (mem1 []) ∧ t = t' ∧ t ≠ t'' ∧
    t = [.branch true, .branch true, .branch true, .branch false, .branch true, .branch true, .branch false] :=
  ⟨_, _, _, _, _, _, rfl, rfl, rfl, by decide, by decide, by decide⟩

end IMU.Props
