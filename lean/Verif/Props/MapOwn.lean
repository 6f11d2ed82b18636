import Verif.Proofs.MapOwn
import Verif.Props.Map
import Verif.Spec.Touch

/-!
# Property C114: arguments that lie in the map's own arrays

Src/map.c:78-79, 83-84, 92-93 and 109-110 say that the ranges given to `memcpy` do not overlap.
-/

namespace IMU.Props
open Spec Utils IMU.Map

/-- The map holds the entries `es` in this order, and every later history of valid calls is that of the ideal map after
inserting them. -/
def MapHolds (n ks vs kb ko vb vo : Nat) (map : MapT) (m : Mem) (es : List (Bytes × Bytes)) : Prop :=
  mapEntries ks vs kb ko vb vo map m = es ∧
  ∀ cs : List MapCall, (∀ c ∈ cs, c.Valid kb vb ks vs) →
    ∃ map' m', mapExecAll kb vb vs map m cs = .ok ((mapRun n es (cs.map (·.op ks vs))).1, map', m')

section
variable {n ks vs kb ko vb vo : Nat} {cs : List MapCall} {map : MapT} {m : Mem}

theorem map_holds {es : List (Bytes × Bytes)} (h : Rep n ks vs n kb ko vb vo map m es) :
    MapHolds n ks vs kb ko vb vo map m es := by
  refine ⟨entries_eq h, fun cs hv => ?_⟩
  obtain ⟨map', m', _, h1, -, -⟩ := map_all rfl cs h (tracks_self h.nodup) hv
  exact ⟨map', m', h1⟩

/-- C114: `Map_insert` of a present key, that of entry `j`, with key and value anywhere - in the caller's memory, in the
map's arrays, over one another: if the value overlaps the value of entry `j` the copy is undefined, otherwise it is the
insertion of these bytes. -/
theorem C114_update (hr : MapReach n ks vs kb ko vb vo cs map m) {b o b' o' : Nat}
    (hb : o + ks ≤ (m.bytes b).length) (hb' : o' + vs ≤ (m.bytes b').length) {j : Nat} {e : Bytes × Bytes}
    (he : (mapEntries ks vs kb ko vb vo map m)[j]? = some e) (hek : e.1 = slice (m.bytes b) o ks) :
    (Touch b' o' vs vb (vo + j * vs) vs → IMU.Map.insert (some map) (ptr b o) (ptr b' o') m = .ub .overlap) ∧
    (¬ Touch b' o' vs vb (vo + j * vs) vs → ∃ m',
      IMU.Map.insert (some map) (ptr b o) (ptr b' o') m = .ok (true, some map) m' ∧
      MapHolds n ks vs kb ko vb vo map m' (entryPut n (mapEntries ks vs kb ko vb vo map m) (slice (m.bytes b) o ks)
        (slice (m.bytes b') o' vs)).2 ∧
      OnlyChanged m m' vb (vo + j * vs) vs) := by
  obtain ⟨es, h, -⟩ := hr.rep
  rw [entries_eq h] at he ⊢
  constructor
  · rintro ⟨rfl, h1, h2⟩
    exact update_clash h hb he hek ⟨h2, h1⟩
  · intro hn
    obtain ⟨m', g1, g2, g3⟩ := update_apart h hb hb' he hek (by unfold Touch at hn; omega)
    refine ⟨m', g1, ?_, g3⟩
    rw [← hek, entryPut_set h.nodup he]
    exact map_holds g2

/-- C114: `Map_insert` of a new key into a map with room, key and value anywhere: undefined if one of them overlaps the
place it is copied to; otherwise, unless the value contains a byte of the place of the new key, it is the insertion of
these bytes and changes only the two places behind the last entry. -/
theorem C114_new_key (hr : MapReach n ks vs kb ko vb vo cs map m) {b o b' o' : Nat}
    (hb : o + ks ≤ (m.bytes b).length) (hb' : o' + vs ≤ (m.bytes b').length) {c : Nat}
    (hc : c = (mapEntries ks vs kb ko vb vo map m).length) (hroom : c < n)
    (hnew : ∀ e ∈ mapEntries ks vs kb ko vb vo map m, e.1 ≠ slice (m.bytes b) o ks) :
    (Touch b o ks kb (ko + c * ks) ks ∨ Touch b' o' vs vb (vo + c * vs) vs →
      IMU.Map.insert (some map) (ptr b o) (ptr b' o') m = .ub .overlap) ∧
    (¬ Touch b o ks kb (ko + c * ks) ks → ¬ Touch b' o' vs vb (vo + c * vs) vs →
      ¬ Touch b' o' vs kb (ko + c * ks) ks → ∃ map' m',
        IMU.Map.insert (some map) (ptr b o) (ptr b' o') m = .ok (true, some map') m' ∧
        MapHolds n ks vs kb ko vb vo map' m' (mapEntries ks vs kb ko vb vo map m ++
          [(slice (m.bytes b) o ks, slice (m.bytes b') o' vs)]) ∧
        m'.words = m.words ∧ (∀ x, (m'.bytes x).length = (m.bytes x).length) ∧
        ∀ x i, ¬ (x = kb ∧ ko + c * ks ≤ i ∧ i < ko + c * ks + ks) →
          ¬ (x = vb ∧ vo + c * vs ≤ i ∧ i < vo + c * vs + vs) → (m'.bytes x)[i]? = (m.bytes x)[i]?) := by
  obtain ⟨es, h, -⟩ := hr.rep
  rw [entries_eq h] at hc hnew ⊢
  subst hc
  have hmx : (es.length : Int) ≠ n := by omega
  constructor
  · rintro (⟨rfl, h1, h2⟩ | ⟨rfl, h1, h2⟩)
    · exact new_key_clash h hroom hmx _ hb hnew ⟨h2, h1⟩
    · exact new_value_clash h hroom hmx hb hnew ⟨h2, h1⟩
  · intro hk hv hkv
    obtain ⟨map', m', g1, g2, g3, g4, g5⟩ := new_apart h hroom hmx hb hb' hnew (by unfold Touch at hk; omega)
      (by unfold Touch at hv; omega) rfl
    have hslk := IMU.Queue.slot_le ks hroom
    have hkl := h.klen
    rw [slice_upd_apart (by rw [slice_length _ _ _ hb]; omega)
      (by rw [slice_length _ _ _ hb]; unfold Touch at hkv; omega)] at g2
    exact ⟨map', m', g1, map_holds g2, g3, g4, g5⟩

/-- C114: the value inside the place of the new key, at distance `r`: the key is copied first, so bytes of the key are
stored as its value and those the caller pointed to are lost. -/
theorem C114_value_in_free_key_place (hr : MapReach n ks vs kb ko vb vo cs map m) {b o r : Nat}
    (hb : o + ks ≤ (m.bytes b).length) (hrv : r + vs ≤ ks) {c : Nat}
    (hc : c = (mapEntries ks vs kb ko vb vo map m).length) (hroom : c < n)
    (hnew : ∀ e ∈ mapEntries ks vs kb ko vb vo map m, e.1 ≠ slice (m.bytes b) o ks)
    (hk : ¬ Touch b o ks kb (ko + c * ks) ks) : ∃ map' m',
      IMU.Map.insert (some map) (ptr b o) (ptr kb (ko + c * ks + r)) m = .ok (true, some map') m' ∧
      MapHolds n ks vs kb ko vb vo map' m' (mapEntries ks vs kb ko vb vo map m ++
        [(slice (m.bytes b) o ks, slice (m.bytes b) (o + r) vs)]) := by
  obtain ⟨es, h, -⟩ := hr.rep
  rw [entries_eq h] at hc hnew ⊢
  subst hc
  have hmx : (es.length : Int) ≠ n := by omega
  have hslk := IMU.Queue.slot_le ks hroom
  have hslv := IMU.Queue.slot_le vs hroom
  have hkl := h.klen
  have hap := h.apart
  have hsl := slice_length _ _ _ hb
  obtain ⟨map', m', g1, g2, -⟩ := new_apart h hroom hmx hb (show ko + es.length * ks + r + vs ≤ (m.bytes kb).length by omega)
    hnew (by unfold Touch at hk; omega) (by omega) rfl
  have : slice ((m.upd kb (splice (m.bytes kb) (ko + es.length * ks) (slice (m.bytes b) o ks))).bytes kb)
      (ko + es.length * ks + r) vs = slice (m.bytes b) (o + r) vs := by
    rw [Mem.upd_bytes, if_pos rfl]
    have hK : ∀ i, i < vs → (slice (m.bytes b) o ks)[r + i]? = (m.bytes b)[o + r + i]? := by
      intro i hi
      simp only [slice, List.getElem?_take, List.getElem?_drop]
      rw [if_pos (by omega), show o + (r + i) = o + r + i by omega]
    generalize slice (m.bytes b) o ks = K at hsl hK
    apply List.ext_getElem?; intro i
    simp only [slice, List.getElem?_take, List.getElem?_drop]
    by_cases hi : i < vs
    · rw [if_pos hi, if_pos hi, getElem?_splice _ _ _ (by omega), if_neg (by omega), if_pos (by omega),
        show ko + es.length * ks + r + i - (ko + es.length * ks) = r + i by omega, hK i hi]
    · rw [if_neg hi, if_neg hi]
  rw [this] at g2
  exact ⟨map', m', g1, map_holds g2⟩

/-- C114: the value anywhere in the object of the keys, over the place of the new key or not: in the value stored, the
bytes that lay in that place are bytes of the key. -/
theorem C114_value_over_free_key_place (hr : MapReach n ks vs kb ko vb vo cs map m) {b o o' : Nat}
    (hb : o + ks ≤ (m.bytes b).length) (hb' : o' + vs ≤ (m.bytes kb).length) {c : Nat}
    (hc : c = (mapEntries ks vs kb ko vb vo map m).length) (hroom : c < n)
    (hnew : ∀ e ∈ mapEntries ks vs kb ko vb vo map m, e.1 ≠ slice (m.bytes b) o ks)
    (hk : ¬ Touch b o ks kb (ko + c * ks) ks) (hv : ¬ Touch kb o' vs vb (vo + c * vs) vs) : ∃ map' m' w,
      IMU.Map.insert (some map) (ptr b o) (ptr kb o') m = .ok (true, some map') m' ∧
      MapHolds n ks vs kb ko vb vo map' m' (mapEntries ks vs kb ko vb vo map m ++ [(slice (m.bytes b) o ks, w)]) ∧
      w.length = vs ∧
      ∀ i, i < vs → w[i]? = if ko + c * ks ≤ o' + i ∧ o' + i < ko + c * ks + ks
        then (m.bytes b)[o + (o' + i - (ko + c * ks))]? else (m.bytes kb)[o' + i]? := by
  obtain ⟨es, h, -⟩ := hr.rep
  rw [entries_eq h] at hc hnew ⊢
  subst hc
  have hmx : (es.length : Int) ≠ n := by omega
  have hslk := IMU.Queue.slot_le ks hroom
  have hkl := h.klen
  have hsl := slice_length _ _ _ hb
  obtain ⟨map', m', g1, g2, -⟩ := new_apart h hroom hmx hb hb' hnew (by unfold Touch at hk; omega)
    (by unfold Touch at hv; omega) rfl
  refine ⟨map', m', _, g1, map_holds g2, ?_, ?_⟩
  · rw [Mem.upd_bytes, if_pos rfl]
    exact slice_length _ _ _ (by rw [splice_length _ _ _ (by omega)]; omega)
  · intro i hi
    have hK : ∀ q, q < ks → (slice (m.bytes b) o ks)[q]? = (m.bytes b)[o + q]? := by
      intro q hq
      simp only [slice, List.getElem?_take, List.getElem?_drop]
      rw [if_pos hq]
    rw [Mem.upd_bytes, if_pos rfl]
    generalize slice (m.bytes b) o ks = K at hsl hK
    simp only [slice, List.getElem?_take, List.getElem?_drop]
    rw [if_pos hi, getElem?_splice _ _ _ (by omega)]
    by_cases h1 : o' + i < ko + es.length * ks
    · rw [if_pos h1, if_neg (by omega)]
    · by_cases h2 : o' + i < ko + es.length * ks + ks
      · rw [if_neg h1, if_pos (by omega), if_pos (by omega), hK _ (by omega)]
      · rw [if_neg h1, if_neg (by omega), if_neg (by omega)]

/-- C114: a full map refuses a new key wherever the arguments lie, and nothing changes. -/
theorem C114_full (hr : MapReach n ks vs kb ko vb vo cs map m) {b o : Nat} (p : Ptr)
    (hb : o + ks ≤ (m.bytes b).length) (hfull : (mapEntries ks vs kb ko vb vo map m).length = n)
    (hnew : ∀ e ∈ mapEntries ks vs kb ko vb vo map m, e.1 ≠ slice (m.bytes b) o ks) :
    IMU.Map.insert (some map) (ptr b o) p m = .ok (false, some map) m := by
  obtain ⟨es, h, -⟩ := hr.rep
  rw [entries_eq h] at hfull hnew
  exact insert_full h (by omega) b o p (getIndex_new h hb hnew)

/-- C114: the value pointer is the value of the map's own entry `j`.  Under a new key (room left) the value is copied;
under the key of another entry that entry gets it; under the key of entry `j` itself the copy is undefined. -/
theorem C114_own_value (hr : MapReach n ks vs kb ko vb vo cs map m) {b o : Nat} (hb : o + ks ≤ (m.bytes b).length)
    (hbk : ¬ Touch b o ks kb ko (n * ks))
    {j : Nat} {x : Bytes × Bytes} (hj : (mapEntries ks vs kb ko vb vo map m)[j]? = some x) :
    ((∀ e ∈ mapEntries ks vs kb ko vb vo map m, e.1 ≠ slice (m.bytes b) o ks) →
      (mapEntries ks vs kb ko vb vo map m).length < n → ∃ map' m',
        IMU.Map.insert (some map) (ptr b o) (ptr vb (vo + j * vs)) m = .ok (true, some map') m' ∧
        MapHolds n ks vs kb ko vb vo map' m'
          (mapEntries ks vs kb ko vb vo map m ++ [(slice (m.bytes b) o ks, x.2)])) ∧
    (∀ i e, (mapEntries ks vs kb ko vb vo map m)[i]? = some e → e.1 = slice (m.bytes b) o ks → i ≠ j → ∃ m',
        IMU.Map.insert (some map) (ptr b o) (ptr vb (vo + j * vs)) m = .ok (true, some map) m' ∧
        MapHolds n ks vs kb ko vb vo map m' ((mapEntries ks vs kb ko vb vo map m).set i (e.1, x.2))) ∧
    (x.1 = slice (m.bytes b) o ks →
        IMU.Map.insert (some map) (ptr b o) (ptr vb (vo + j * vs)) m = .ub .overlap) := by
  obtain ⟨es, h, -⟩ := hr.rep
  have hE := entries_eq h
  have hjl : j < es.length := by rw [hE] at hj; exact (List.getElem?_eq_some_iff.1 hj).1
  have hsz := h.size_le
  have hjn : j < n := by omega
  have hsl := IMU.Queue.slot_le vs hjn
  have hvl := h.vlen
  have hap := h.apart
  have hvs := h.vs_pos
  have hcv := h.cv j x (by rw [← hE]; exact hj)
  have hb' : vo + j * vs + vs ≤ (m.bytes vb).length := by omega
  refine ⟨fun hnew hroom => ?_, fun i e hi hek hij => ?_, fun hek => ?_⟩
  · rw [hE] at hroom
    have hslk := IMU.Queue.slot_le ks hroom
    have hd := IMU.Queue.slot_disj vs (show j ≠ es.length by omega)
    obtain ⟨map', m', g1, g2, -⟩ := (C114_new_key hr hb hb' rfl (by rw [hE]; exact hroom) hnew).2
      (by rw [hE]; unfold Touch at hbk ⊢; omega) (by rw [hE]; unfold Touch; omega)
      (by rw [hE]; unfold Touch; omega)
    rw [hcv] at g2
    exact ⟨map', m', g1, g2⟩
  · have hd := IMU.Queue.slot_disj vs hij
    obtain ⟨m', g1, g2, -⟩ := (C114_update hr hb hb' hi hek).2 (by unfold Touch; omega)
    rw [hcv, ← hek, entryPut_set (by rw [hE]; exact h.nodup) hi] at g2
    exact ⟨m', g1, g2⟩
  · exact (C114_update hr hb hb' hj hek).1 (by unfold Touch; omega)

/-- C114: the key pointer is the key of the map's own entry `j`: entry `j` gets the value. -/
theorem C114_own_key (hr : MapReach n ks vs kb ko vb vo cs map m) {b' o' : Nat} (hb' : o' + vs ≤ (m.bytes b').length)
    {j : Nat} {x : Bytes × Bytes} (hj : (mapEntries ks vs kb ko vb vo map m)[j]? = some x)
    (ha : ¬ Touch b' o' vs vb (vo + j * vs) vs) : ∃ m',
      IMU.Map.insert (some map) (ptr kb (ko + j * ks)) (ptr b' o') m = .ok (true, some map) m' ∧
      MapHolds n ks vs kb ko vb vo map m' ((mapEntries ks vs kb ko vb vo map m).set j (x.1, slice (m.bytes b') o' vs)) := by
  obtain ⟨es, h, -⟩ := hr.rep
  have hE := entries_eq h
  have hjl : j < es.length := by rw [hE] at hj; exact (List.getElem?_eq_some_iff.1 hj).1
  have hsz := h.size_le
  have hsl := IMU.Queue.slot_le ks (show j < n by omega)
  have hkl := h.klen
  have hck := h.ck j x (by rw [← hE]; exact hj)
  obtain ⟨m', g1, g2, -⟩ := (C114_update hr (show ko + j * ks + ks ≤ (m.bytes kb).length by omega) hb' hj hck.symm).2 ha
  rw [hck, entryPut_set (by rw [hE]; exact h.nodup) hj] at g2
  exact ⟨m', g1, g2⟩

/-- C114: `Map_getValue` for the key of entry `i`.  A destination overlapping the value of entry `i` is undefined.  A
destination apart from the entries in use - it may contain the key that is looked up - gets the value and the map stays
as it is.  The value of another entry `j` as destination is overwritten as by an insertion. -/
theorem C114_lookup (hr : MapReach n ks vs kb ko vb vo cs map m) {b o b' o' : Nat}
    (hb : o + ks ≤ (m.bytes b).length) (hb' : o' + vs ≤ (m.bytes b').length) {i : Nat} {e : Bytes × Bytes}
    (hi : (mapEntries ks vs kb ko vb vo map m)[i]? = some e) (hek : e.1 = slice (m.bytes b) o ks) :
    (Touch b' o' vs vb (vo + i * vs) vs → getValue (some map) (ptr b o) (ptr b' o') m = .ub .overlap) ∧
    (¬ Touch b' o' vs kb ko ((mapEntries ks vs kb ko vb vo map m).length * ks) →
      ¬ Touch b' o' vs vb vo ((mapEntries ks vs kb ko vb vo map m).length * vs) → ∃ m',
        getValue (some map) (ptr b o) (ptr b' o') m = .ok true m' ∧ slice (m'.bytes b') o' vs = e.2 ∧
        MapHolds n ks vs kb ko vb vo map m' (mapEntries ks vs kb ko vb vo map m) ∧ OnlyChanged m m' b' o' vs) ∧
    (∀ j x, (mapEntries ks vs kb ko vb vo map m)[j]? = some x → i ≠ j → b' = vb → o' = vo + j * vs → ∃ m',
        getValue (some map) (ptr b o) (ptr b' o') m = .ok true m' ∧
        MapHolds n ks vs kb ko vb vo map m' ((mapEntries ks vs kb ko vb vo map m).set j (x.1, e.2)) ∧
        OnlyChanged m m' b' o' vs) := by
  obtain ⟨es, h, -⟩ := hr.rep
  rw [entries_eq h] at hi ⊢
  have hil : i < es.length := (List.getElem?_eq_some_iff.1 hi).1
  have hvs := h.vs_pos
  have hsz := h.size_le
  refine ⟨?_, ?_, ?_⟩
  · rintro ⟨rfl, h1, h2⟩
    exact get_clash h hb hi hek ⟨h1, h2⟩
  · intro hk hv
    have hsl := IMU.Queue.slot_le vs hil
    obtain ⟨g1, g2⟩ := get_apart h hb hb' hi hek (by unfold Touch at hv; omega)
    have hw : o' + e.2.length ≤ (m.bytes b').length := by omega
    refine ⟨_, g1, slice_upd_same hw g2, map_holds ?_, ?_⟩
    · refine { h with klen := ?_, vlen := ?_, ck := ?_, cv := ?_ }
      · rw [length_upd_splice hw]; exact h.klen
      · rw [length_upd_splice hw]; exact h.vlen
      · intro k x hx
        have hkl := (List.getElem?_eq_some_iff.1 hx).1
        have := IMU.Queue.slot_le ks hkl
        rw [slice_upd_apart hw (by unfold Touch at hk; have := h.ks_pos; omega)]
        exact h.ck k x hx
      · intro k x hx
        have hkl := (List.getElem?_eq_some_iff.1 hx).1
        have := IMU.Queue.slot_le vs hkl
        rw [slice_upd_apart hw (by unfold Touch at hv; omega)]
        exact h.cv k x hx
    · have := onlyChanged_splice m b' o' e.2 hw
      rw [g2] at this; exact this
  · rintro j x hj hij rfl rfl
    have hd := IMU.Queue.slot_disj vs hij
    obtain ⟨g1, g2⟩ := get_apart h hb hb' hi hek (by omega)
    refine ⟨_, g1, map_holds (h.setValue hj _ g2), ?_⟩
    have := onlyChanged_splice m b' (vo + j * vs) e.2 (by omega)
    rw [g2] at this; exact this

/-- C114: a lookup that fails changes nothing, wherever key and destination lie. -/
theorem C114_lookup_fails (hr : MapReach n ks vs kb ko vb vo cs map m) {b o : Nat} (p : Ptr)
    (hb : o + ks ≤ (m.bytes b).length)
    (hnew : ∀ e ∈ mapEntries ks vs kb ko vb vo map m, e.1 ≠ slice (m.bytes b) o ks) :
    getValue (some map) (ptr b o) p m = .ok false m := by
  obtain ⟨es, h, -⟩ := hr.rep
  rw [entries_eq h] at hnew
  exact getValue_none b o p (getIndex_new h hb hnew)

end

/-- Non-vacuity of C114: two entries of one-byte keys and values in arrays with three places, all in one object. -/
def exOwnMap (f : MapT → C (Bool × Option MapT)) : Option (Bool × List (Bytes × Bytes)) :=
  match mapExecAll 0 0 1 ⟨ptr 0 0, ptr 0 3, 1, 1, 3, 0⟩ (mem2 [0, 0, 9, 0, 0, 8] []) [exMCall .ins 1 10, exMCall .ins 2 20] with
  | .ok (_, map, m) => match f map m with
    | .ok (r, some map') m' => some (r, mapEntries 1 1 0 0 0 3 map' m')
    | _ => none
  | .error _ => none
def exLook (p q : Ptr) (map : MapT) : C (Bool × Option MapT) := do
  let r ← getValue (some map) p q
  return (r, some map)
example : ∃ map m, MapReach 3 1 1 0 0 0 3 [exMCall .ins 1 10, exMCall .ins 2 20] map m ∧
    mapEntries 1 1 0 0 0 3 map m = [([1], [10]), ([2], [20])] := by
  have hs : MapSetup 3 1 1 0 0 0 3 (mem2 [0, 0, 9, 0, 0, 8] []) := by constructor <;> decide
  have h : (match mapExecAll 0 0 1 ⟨ptr 0 0, ptr 0 3, 1, 1, 3, 0⟩ (mem2 [0, 0, 9, 0, 0, 8] [])
      [exMCall .ins 1 10, exMCall .ins 2 20] with
    | .ok (_, map, m) => decide (mapEntries 1 1 0 0 0 3 map m = [([1], [10]), ([2], [20])])
    | .error _ => false) = true := by decide +kernel
  split at h
  · rename_i os map m hx
    refine ⟨map, m, ⟨?_, exMap0, _, _, _, os, hs, rfl, hx⟩, by simpa using h⟩
    intro c hc
    simp only [List.mem_cons, List.not_mem_nil, or_false] at hc
    rcases hc with rfl | rfl <;> constructor <;> decide
  · simp at h
-- a new key: own value copied; the free value place and the free key place as value; the free key place as key
example : exOwnMap (IMU.Map.insert · (ptr 1 1) (ptr 0 3)) = some (true, [([1], [10]), ([2], [20]), ([20], [10])]) ∧
    exOwnMap (IMU.Map.insert · (ptr 1 1) (ptr 0 5)) = none ∧
    exOwnMap (IMU.Map.insert · (ptr 1 1) (ptr 0 2)) = some (true, [([1], [10]), ([2], [20]), ([20], [20])]) ∧
    exOwnMap (IMU.Map.insert · (ptr 0 2) (ptr 0 3)) = none := by
  refine ⟨?_, ?_, ?_, ?_⟩ <;> decide +kernel
-- a present key: the other entry's value, its own value; the own key
example : exOwnMap (IMU.Map.insert · (ptr 1 0) (ptr 0 3)) = some (true, [([1], [10]), ([2], [10])]) ∧
    exOwnMap (IMU.Map.insert · (ptr 1 0) (ptr 0 4)) = none ∧
    exOwnMap (IMU.Map.insert · (ptr 0 0) (ptr 1 1)) = some (true, [([1], [20]), ([2], [20])]) := by
  refine ⟨?_, ?_, ?_⟩ <;> decide +kernel
-- lookups of the second key into the first value, the own value, over the key itself
example : exOwnMap (exLook (ptr 1 0) (ptr 0 3)) = some (true, [([1], [20]), ([2], [20])]) ∧
    exOwnMap (exLook (ptr 1 0) (ptr 0 4)) = none ∧
    exOwnMap (exLook (ptr 1 0) (ptr 1 0)) = some (true, [([1], [10]), ([2], [20])]) := by
  refine ⟨?_, ?_, ?_⟩ <;> decide +kernel

end IMU.Props
