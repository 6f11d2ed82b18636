import Verif.Proofs.MapHistory
import Verif.Spec.MapInterrupt

/-! # Arguments of the map functions that lie in the map's own arrays -/

namespace IMU.Map
open Spec Utils
open IMU.Queue (slot_le slot_disj)

theorem memcpy_clash {b o o' n : Nat} {m : Mem} (h : o < o' + n ∧ o' < o + n) :
    memcpy (ptr b o) (ptr b o') n m = .ub .overlap := by
  have hov : overlaps (ptr b o) (ptr b o') n = true := by
    unfold overlaps ptr; simp; omega
  unfold memcpy; rw [if_pos hov]; rfl

section
variable {n ks vs kb ko vb vo : Nat} {mx : Int} {map : MapT} {m : Mem} {es : List (Bytes × Bytes)}

theorem entries_eq (h : Rep n ks vs mx kb ko vb vo map m es) : mapEntries ks vs kb ko vb vo map m = es := by
  apply List.ext_getElem?; intro k
  unfold mapEntries
  rw [List.getElem?_map, h.size, Int.toNat_natCast]
  by_cases hk : k < es.length
  · have hg := List.getElem?_eq_getElem hk
    rw [List.getElem?_range hk, Option.map_some, mapSlot, h.ck k _ hg, h.cv k _ hg, hg]
  · rw [List.getElem?_eq_none (by simpa using hk), List.getElem?_eq_none (by omega)]; rfl

theorem tracks_self (hnd : (es.map Prod.fst).Nodup) : Tracks es es := by
  refine ⟨?_, hnd⟩
  induction es using List.reverseRecOn with
  | nil => intro k v; simp [latest]
  | append_singleton es e ih =>
    have h2 := hnd
    rw [List.map_append, List.nodup_append] at h2
    have ht : Tracks es es := ⟨ih h2.1, h2.1⟩
    have hnew : ∀ x ∈ es, x.1 ≠ e.1 := fun x hx he =>
      h2.2.2 x.1 (List.mem_map.2 ⟨x, hx, rfl⟩) e.1 (by simp) he
    exact (ht.append (k := e.1) (v := e.2) hnew hnd).mem

theorem getIndex_at (h : Rep n ks vs mx kb ko vb vo map m es) {b o : Nat} (hb : o + ks ≤ (m.bytes b).length)
    {j : Nat} {e : Bytes × Bytes} (he : es[j]? = some e) (hek : e.1 = slice (m.bytes b) o ks) :
    getIndex map (ptr b o) map.current_size m = .ok (j : Int) m := by
  rcases getIndex_ok h b o hb with ⟨i, x, hx, hxk, hidx⟩ | ⟨hno, -⟩
  · have h1 : (es.map Prod.fst)[i]? = some x.1 := by rw [List.getElem?_map, hx]; rfl
    have h2 : (es.map Prod.fst)[j]? = some e.1 := by rw [List.getElem?_map, he]; rfl
    have : i = j := (List.getElem?_inj (by simpa using (List.getElem?_eq_some_iff.1 hx).1) h.nodup).1
      (by rw [h1, h2, hxk, hek])
    rw [← this]; exact hidx
  · exact absurd hek (hno e (List.mem_of_getElem? he))

theorem getIndex_new (h : Rep n ks vs mx kb ko vb vo map m es) {b o : Nat} (hb : o + ks ≤ (m.bytes b).length)
    (hnew : ∀ e ∈ es, e.1 ≠ slice (m.bytes b) o ks) :
    getIndex map (ptr b o) map.current_size m = .ok (-1) m := by
  rcases getIndex_ok h b o hb with ⟨i, x, hx, hxk, -⟩ | ⟨-, hidx⟩
  · exact absurd hxk (hnew x (List.mem_of_getElem? hx))
  · exact hidx

/-- Insertion of a present key, value apart from the place written. -/
theorem update_apart (h : Rep n ks vs mx kb ko vb vo map m es) {b o b' o' : Nat}
    (hb : o + ks ≤ (m.bytes b).length) (hb' : o' + vs ≤ (m.bytes b').length)
    {j : Nat} {e : Bytes × Bytes} (he : es[j]? = some e) (hek : e.1 = slice (m.bytes b) o ks)
    (ha : vb ≠ b' ∨ vo + j * vs + vs ≤ o' ∨ o' + vs ≤ vo + j * vs) :
    ∃ m', insert (some map) (ptr b o) (ptr b' o') m = .ok (true, some map) m' ∧
      Rep n ks vs mx kb ko vb vo map m' (es.set j (e.1, slice (m.bytes b') o' vs)) ∧
      OnlyChanged m m' vb (vo + j * vs) vs := by
  have hj : j < es.length := (List.getElem?_eq_some_iff.1 he).1
  have hjn : j < n := by have := h.size_le; omega
  have hsl := slot_le vs hjn
  have hvb := h.vlen
  have hsv := slice_length _ _ _ hb'
  have hcpy := memcpy_ok (b := vb) (o := vo + j * vs) (b' := b') (o' := o') (n := vs) (m := m) (by omega) hb' ha
  refine ⟨_, ?_, h.setValue he _ hsv, ?_⟩
  · simp only [insert, C.bind_run, getIndex_at h hb he hek]
    rw [if_neg (by omega)]
    simp only [C.bind_run, h.hvs, i32_mul hjn h.limv, h.hv, ptr_addZ_nat, toSizeT_nat h.vs_lt, hcpy, C.pure_run]
  · have := onlyChanged_splice m vb (vo + j * vs) (slice (m.bytes b') o' vs) (by omega)
    rw [hsv] at this; exact this

/-- Insertion of a present key, value overlapping the place written. -/
theorem update_clash (h : Rep n ks vs mx kb ko vb vo map m es) {b o o' : Nat}
    (hb : o + ks ≤ (m.bytes b).length)
    {j : Nat} {e : Bytes × Bytes} (he : es[j]? = some e) (hek : e.1 = slice (m.bytes b) o ks)
    (ha : vo + j * vs < o' + vs ∧ o' < vo + j * vs + vs) :
    insert (some map) (ptr b o) (ptr vb o') m = .ub .overlap := by
  have hj : j < es.length := (List.getElem?_eq_some_iff.1 he).1
  have hjn : j < n := by have := h.size_le; omega
  simp only [insert, C.bind_run, getIndex_at h hb he hek]
  rw [if_neg (by omega)]
  simp only [C.bind_run, h.hvs, i32_mul hjn h.limv, h.hv, ptr_addZ_nat, toSizeT_nat h.vs_lt, memcpy_clash ha]

/-- Insertion of a new key, both arguments apart from the places they are copied to; the value may contain the place
of the new key. -/
theorem new_apart (h : Rep n ks vs mx kb ko vb vo map m es) (hroom : es.length < n) (hmx : (es.length : Int) ≠ mx)
    {b o b' o' : Nat} (hb : o + ks ≤ (m.bytes b).length) (hb' : o' + vs ≤ (m.bytes b').length)
    (hnew : ∀ e ∈ es, e.1 ≠ slice (m.bytes b) o ks)
    (hk : kb ≠ b ∨ ko + es.length * ks + ks ≤ o ∨ o + ks ≤ ko + es.length * ks)
    (hv : vb ≠ b' ∨ vo + es.length * vs + vs ≤ o' ∨ o' + vs ≤ vo + es.length * vs) {m1 : Mem}
    (hm1 : m1 = m.upd kb (splice (m.bytes kb) (ko + es.length * ks) (slice (m.bytes b) o ks))) :
    ∃ map' m', insert (some map) (ptr b o) (ptr b' o') m = .ok (true, some map') m' ∧
      Rep n ks vs mx kb ko vb vo map' m' (es ++ [(slice (m.bytes b) o ks, slice (m1.bytes b') o' vs)]) ∧
      m'.words = m.words ∧ (∀ x, (m'.bytes x).length = (m.bytes x).length) ∧
      ∀ x i, ¬ (x = kb ∧ ko + es.length * ks ≤ i ∧ i < ko + es.length * ks + ks) →
        ¬ (x = vb ∧ vo + es.length * vs ≤ i ∧ i < vo + es.length * vs + vs) → (m'.bytes x)[i]? = (m.bytes x)[i]? := by
  have hslk := slot_le ks hroom
  have hslv := slot_le vs hroom
  have hkb := h.klen
  have hvb := h.vlen
  have hn := h.n_lt
  have hsk := slice_length _ _ _ hb
  have hw1 : ko + es.length * ks + (slice (m.bytes b) o ks).length ≤ (m.bytes kb).length := by omega
  have hl1 : ∀ x, (m1.bytes x).length = (m.bytes x).length := fun x => by rw [hm1]; exact length_upd_splice hw1 x
  have hb1 : o' + vs ≤ (m1.bytes b').length := by rw [hl1]; omega
  have hsv := slice_length _ _ _ hb1
  have hcpy1 := memcpy_ok (b := kb) (o := ko + es.length * ks) (b' := b) (o' := o) (n := ks) (m := m) (by omega) hb hk
  rw [← hm1] at hcpy1
  obtain ⟨m2, hm2⟩ : ∃ m2, m2 = m1.upd vb (splice (m1.bytes vb) (vo + es.length * vs) (slice (m1.bytes b') o' vs)) :=
    ⟨_, rfl⟩
  have hcpy2 := memcpy_ok (b := vb) (o := vo + es.length * vs) (b' := b') (o' := o') (n := vs) (m := m1)
    (by rw [hl1]; omega) hb1 hv
  rw [← hm2] at hcpy2
  have hw2 : vo + es.length * vs + (slice (m1.bytes b') o' vs).length ≤ (m1.bytes vb).length := by rw [hl1]; omega
  have hi : i32 ((es.length : Int) + 1) m2 = .ok ((es.length : Int) + 1) m2 := i32_succ hroom hn m2
  refine ⟨{ map with current_size := (es.length : Int) + 1 }, m2, ?_, ?_, ?_, ?_, ?_⟩
  · simp only [insert]
    rw [C.bind_ok (getIndex_new h hb hnew), if_pos rfl, h.size, h.hmx, if_pos hmx, h.hks, h.hvs,
      C.bind_ok (i32_mul hroom h.limk m), h.hk, h.hv, ptr_addZ_nat, toSizeT_nat h.ks_lt, C.bind_ok hcpy1,
      C.bind_ok (i32_mul hroom h.limv m1), ptr_addZ_nat, toSizeT_nat h.vs_lt, C.bind_ok hcpy2, C.bind_ok hi]
    rfl
  · exact h.append hroom _ _ hsk hsv hnew hm1 hm2
  · rw [hm2, hm1]; rfl
  · intro x; rw [hm2, length_upd_splice hw2, hl1]
  · intro x i h1 h2
    rw [hm2, get_upd_splice hw2 (by rw [hsv]; exact h2), hm1, get_upd_splice hw1 (by rw [hsk]; exact h1)]

/-- Insertion of a new key that overlaps the place it is copied to. -/
theorem new_key_clash (h : Rep n ks vs mx kb ko vb vo map m es) (hroom : es.length < n) (hmx : (es.length : Int) ≠ mx)
    {o : Nat} (p : Ptr) (hb : o + ks ≤ (m.bytes kb).length)
    (hnew : ∀ e ∈ es, e.1 ≠ slice (m.bytes kb) o ks)
    (hk : ko + es.length * ks < o + ks ∧ o < ko + es.length * ks + ks) :
    insert (some map) (ptr kb o) p m = .ub .overlap := by
  simp only [insert]
  rw [C.bind_ok (getIndex_new h hb hnew), if_pos rfl, h.size, h.hmx, if_pos hmx, h.hks,
    C.bind_ok (i32_mul hroom h.limk m), h.hk, ptr_addZ_nat, toSizeT_nat h.ks_lt, C.bind_run, memcpy_clash hk]

/-- Insertion of a new key with a value that overlaps the place it is copied to. -/
theorem new_value_clash (h : Rep n ks vs mx kb ko vb vo map m es) (hroom : es.length < n) (hmx : (es.length : Int) ≠ mx)
    {b o o' : Nat} (hb : o + ks ≤ (m.bytes b).length)
    (hnew : ∀ e ∈ es, e.1 ≠ slice (m.bytes b) o ks)
    (hv : vo + es.length * vs < o' + vs ∧ o' < vo + es.length * vs + vs) :
    insert (some map) (ptr b o) (ptr vb o') m = .ub .overlap := by
  by_cases hk : kb ≠ b ∨ ko + es.length * ks + ks ≤ o ∨ o + ks ≤ ko + es.length * ks
  · have hslk := slot_le ks hroom
    have hkb := h.klen
    have hcpy1 := memcpy_ok (b := kb) (o := ko + es.length * ks) (b' := b) (o' := o) (n := ks) (m := m) (by omega) hb hk
    simp only [insert]
    rw [C.bind_ok (getIndex_new h hb hnew), if_pos rfl, h.size, h.hmx, if_pos hmx, h.hks, h.hvs,
      C.bind_ok (i32_mul hroom h.limk m), h.hk, h.hv, ptr_addZ_nat, toSizeT_nat h.ks_lt, C.bind_ok hcpy1,
      C.bind_ok (i32_mul hroom h.limv _), ptr_addZ_nat, toSizeT_nat h.vs_lt, C.bind_run, memcpy_clash hv]
  · have hkb : kb = b := by
      by_contra hne; exact hk (.inl hne)
    subst hkb
    exact new_key_clash h hroom hmx _ hb hnew (by omega)

/-- Lookup of a present key with a destination apart from the value found. -/
theorem get_apart (h : Rep n ks vs mx kb ko vb vo map m es) {b o b' o' : Nat}
    (hb : o + ks ≤ (m.bytes b).length) (hb' : o' + vs ≤ (m.bytes b').length)
    {j : Nat} {e : Bytes × Bytes} (he : es[j]? = some e) (hek : e.1 = slice (m.bytes b) o ks)
    (ha : b' ≠ vb ∨ o' + vs ≤ vo + j * vs ∨ vo + j * vs + vs ≤ o') :
    getValue (some map) (ptr b o) (ptr b' o') m = .ok true (m.upd b' (splice (m.bytes b') o' e.2)) ∧ e.2.length = vs := by
  have hj : j < es.length := (List.getElem?_eq_some_iff.1 he).1
  have hjn : j < n := by have := h.size_le; omega
  have hsl := slot_le vs hjn
  have hvb := h.vlen
  have hcpy := memcpy_ok (b := b') (o := o') (b' := vb) (o' := vo + j * vs) (n := vs) (m := m) hb' (by omega) ha
  rw [h.cv j e he] at hcpy
  refine ⟨?_, by rw [← h.cv j e he]; exact slice_length _ _ _ (by omega)⟩
  simp only [getValue, C.bind_run, getIndex_at h hb he hek]
  rw [if_pos (by omega)]
  simp only [C.bind_run, h.hvs, i32_mul hjn h.limv, h.hv, ptr_addZ_nat, toSizeT_nat h.vs_lt, hcpy, C.pure_run]

/-- Lookup of a present key with a destination that overlaps the value found. -/
theorem get_clash (h : Rep n ks vs mx kb ko vb vo map m es) {b o o' : Nat}
    (hb : o + ks ≤ (m.bytes b).length)
    {j : Nat} {e : Bytes × Bytes} (he : es[j]? = some e) (hek : e.1 = slice (m.bytes b) o ks)
    (ha : o' < vo + j * vs + vs ∧ vo + j * vs < o' + vs) :
    getValue (some map) (ptr b o) (ptr vb o') m = .ub .overlap := by
  have hj : j < es.length := (List.getElem?_eq_some_iff.1 he).1
  have hjn : j < n := by have := h.size_le; omega
  simp only [getValue, C.bind_run, getIndex_at h hb he hek]
  rw [if_pos (by omega)]
  simp only [C.bind_run, h.hvs, i32_mul hjn h.limv, h.hv, ptr_addZ_nat, toSizeT_nat h.vs_lt, memcpy_clash ha]

end

/-- `entryPut` of a present key. -/
theorem entryPut_set {n : Nat} {es : List (Bytes × Bytes)} (hnd : (es.map Prod.fst).Nodup) {j : Nat} {e : Bytes × Bytes}
    (he : es[j]? = some e) (v : Bytes) : entryPut n es e.1 v = (true, es.set j (e.1, v)) := by
  unfold entryPut
  rw [if_pos (List.mem_map.2 ⟨e, List.mem_of_getElem? he, rfl⟩)]
  congr 1
  have hj : j < es.length := (List.getElem?_eq_some_iff.1 he).1
  apply List.ext_getElem?; intro k
  rw [List.getElem?_map]
  by_cases hkj : k = j
  · subst hkj
    rw [List.getElem?_set_self hj, he]; simp
  · rw [List.getElem?_set_ne (Ne.symm hkj)]
    cases hk : es[k]? with
    | none => rfl
    | some x =>
      have hne : x.1 ≠ e.1 := by
        intro hx
        have h1 : (es.map Prod.fst)[k]? = some x.1 := by rw [List.getElem?_map, hk]; rfl
        have h2 : (es.map Prod.fst)[j]? = some e.1 := by rw [List.getElem?_map, he]; rfl
        exact hkj ((List.getElem?_inj (by simpa using (List.getElem?_eq_some_iff.1 hk).1) hnd).1 (by rw [h1, h2, hx]))
      simp [hne]

theorem entryPut_append {n : Nat} {es : List (Bytes × Bytes)} {k : Bytes} (hnew : ∀ e ∈ es, e.1 ≠ k)
    (hroom : es.length < n) (v : Bytes) : entryPut n es k v = (true, es ++ [(k, v)]) := by
  unfold entryPut
  rw [if_neg (by rw [List.mem_map]; rintro ⟨e, he, rfl⟩; exact hnew e he rfl), if_pos hroom]

theorem entryPut_full {n : Nat} {es : List (Bytes × Bytes)} {k : Bytes} (hnew : ∀ e ∈ es, e.1 ≠ k)
    (hfull : ¬ es.length < n) (v : Bytes) : entryPut n es k v = (false, es) := by
  unfold entryPut
  rw [if_neg (by rw [List.mem_map]; rintro ⟨e, he, rfl⟩; exact hnew e he rfl), if_neg hfull]

end IMU.Map
