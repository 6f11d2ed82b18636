import Verif.Proofs.Queue
import Verif.Spec.MapCalls
import Mathlib.Tactic.SplitIfs
import Mathlib.Tactic.Set

namespace IMU

/-- Writing one range does not affect another one that is apart from it. -/
theorem slice_upd_apart {m : Mem} {b o b' o' n : Nat} {s : List Byte} (h : o + s.length ≤ (m.bytes b).length)
    (hd : b' ≠ b ∨ o' + n ≤ o ∨ o + s.length ≤ o') :
    slice ((m.upd b (splice (m.bytes b) o s)).bytes b') o' n = slice (m.bytes b') o' n := by
  rw [Mem.upd_bytes]
  by_cases hb : b' = b
  · subst hb
    rw [if_pos rfl, slice_splice_disj _ _ _ _ _ h (by omega)]
  · rw [if_neg hb]

theorem slice_upd_same {m : Mem} {b o n : Nat} {s : List Byte} (h : o + s.length ≤ (m.bytes b).length)
    (hn : s.length = n) : slice ((m.upd b (splice (m.bytes b) o s)).bytes b) o n = s := by
  rw [Mem.upd_bytes, if_pos rfl]
  subst hn
  exact slice_splice_same _ _ _ h

theorem length_upd_splice {m : Mem} {b o : Nat} {s : List Byte} (h : o + s.length ≤ (m.bytes b).length) (x : Nat) :
    ((m.upd b (splice (m.bytes b) o s)).bytes x).length = (m.bytes x).length := by
  rw [Mem.upd_bytes]
  split
  · subst x; exact splice_length _ _ _ h
  · rfl

theorem get_upd_splice {m : Mem} {b o : Nat} {s : List Byte} (h : o + s.length ≤ (m.bytes b).length) {x i : Nat}
    (hx : ¬ (x = b ∧ o ≤ i ∧ i < o + s.length)) :
    ((m.upd b (splice (m.bytes b) o s)).bytes x)[i]? = (m.bytes x)[i]? := by
  rw [Mem.upd_bytes]
  split
  · subst x
    rw [getElem?_splice _ _ _ h]
    split_ifs <;> first | rfl | (exfalso; omega)
  · rfl

end IMU

namespace IMU.Map
open Spec Utils
open IMU.Queue (slot_le slot_disj)

/-- The map with its arrays (room for `n` entries) in `m` stores the entries `es` in this order. -/
structure Rep (n ks vs : Nat) (mx : Int) (kb ko vb vo : Nat) (map : MapT) (m : Mem) (es : List (Bytes × Bytes)) :
    Prop where
  hk : map.keys = ptr kb ko
  hv : map.values = ptr vb vo
  hks : map.key_size = (ks : Int)
  hvs : map.value_size = (vs : Int)
  hmx : map.max_map_size = mx
  ks_pos : 0 < ks
  vs_pos : 0 < vs
  ks_lt : ks < 2 ^ 31
  vs_lt : vs < 2 ^ 31
  n_lt : n < 2 ^ 31
  limk : (n - 1) * ks < 2 ^ 31
  limv : (n - 1) * vs < 2 ^ 31
  klen : ko + n * ks ≤ (m.bytes kb).length
  vlen : vo + n * vs ≤ (m.bytes vb).length
  apart : kb ≠ vb ∨ ko + n * ks ≤ vo ∨ vo + n * vs ≤ ko
  size : map.current_size = (es.length : Int)
  size_le : es.length ≤ n
  ck : ∀ (k : Nat) e, es[k]? = some e → slice (m.bytes kb) (ko + k * ks) ks = e.1
  cv : ∀ (k : Nat) e, es[k]? = some e → slice (m.bytes vb) (vo + k * vs) vs = e.2
  nodup : (es.map Prod.fst).Nodup

section
variable {n ks vs kb ko vb vo : Nat} {mx : Int} {map : MapT} {m : Mem} {es : List (Bytes × Bytes)}

theorem toSizeT_nat {x : Nat} (h : x < 2 ^ 31) : toSizeT (x : Int) = x := by
  unfold toSizeT; omega

theorem i32_ok {x : Int} (h : -2147483648 ≤ x ∧ x ≤ 2147483647) (m : Mem) : i32 x m = .ok x m := by
  simp [i32, h]

theorem idx_lt {i k : Nat} (hi : i < n) (hl : (n - 1) * k < 2 ^ 31) : i * k < 2 ^ 31 :=
  Nat.lt_of_le_of_lt (Nat.mul_le_mul_right _ (by omega)) hl

theorem i32_mul {i k : Nat} (hi : i < n) (hl : (n - 1) * k < 2 ^ 31) (m : Mem) :
    i32 ((i : Int) * (k : Int)) m = .ok ((i * k : Nat) : Int) m := by
  have := idx_lt hi hl
  rw [← Int.natCast_mul]
  exact i32_ok (by omega) m

theorem i32_succ {i : Nat} (hi : i < n) (hn : n < 2 ^ 31) (m : Mem) :
    i32 ((i : Int) + 1) m = .ok ((i : Int) + 1) m := i32_ok (by omega) m

theorem Rep.of_eq (h : Rep n ks vs mx kb ko vb vo map m es) {m' : Mem} (h1 : m'.bytes kb = m.bytes kb)
    (h2 : m'.bytes vb = m.bytes vb) : Rep n ks vs mx kb ko vb vo map m' es :=
  { h with klen := by rw [h1]; exact h.klen, vlen := by rw [h2]; exact h.vlen,
           ck := by rw [h1]; exact h.ck, cv := by rw [h2]; exact h.cv }

theorem getIndexLoop_ok (h : Rep n ks vs mx kb ko vb vo map m es) (b o : Nat)
    (hb : o + ks ≤ (m.bytes b).length) (r : Nat) : ∀ i : Nat, i + r = es.length →
    (∃ (j : Nat) (e : Bytes × Bytes), es[j]? = some e ∧ e.1 = slice (m.bytes b) o ks ∧
      getIndexLoop map (ptr b o) r (i : Int) m = .ok (j : Int) m) ∨
    ((∀ e ∈ es.drop i, e.1 ≠ slice (m.bytes b) o ks) ∧
      getIndexLoop map (ptr b o) r (i : Int) m = .ok (-1) m) := by
  induction r with
  | zero =>
    intro i hi
    refine .inr ⟨?_, rfl⟩
    rw [List.drop_eq_nil_of_le (by omega)]; simp
  | succ r ih =>
    intro i hi
    have hil : i < es.length := by omega
    have hin : i < n := by have := h.size_le; omega
    have hsl := slot_le ks hin
    have hkl := h.klen
    have hg := List.getElem?_eq_getElem hil
    have hcmp := memeq_ok (b := kb) (o := ko + i * ks) (b' := b) (o' := o) (n := ks) (m := m) (by omega) hb
    rw [h.ck i _ hg] at hcmp
    have hrun : getIndexLoop map (ptr b o) (r + 1) (i : Int) m =
        if es[i].1 == slice (m.bytes b) o ks then .ok (i : Int) m
        else getIndexLoop map (ptr b o) r ((i + 1 : Nat) : Int) m := by
      simp only [getIndexLoop, C.bind_run, h.hks, i32_mul hin h.limk, h.hk, ptr_addZ_nat,
        toSizeT_nat h.ks_lt, hcmp]
      rw [C.ite_run]; rfl
    rw [hrun]
    by_cases heq : es[i].1 = slice (m.bytes b) o ks
    · refine .inl ⟨i, es[i], hg, heq, ?_⟩
      rw [if_pos (by simpa using heq)]
    · rw [if_neg (by simpa using heq)]
      rcases ih (i + 1) (by omega) with ⟨j, e, h1, h2, h3⟩ | ⟨h1, h2⟩
      · exact .inl ⟨j, e, h1, h2, h3⟩
      · refine .inr ⟨?_, h2⟩
        intro e he
        rw [← List.getElem_cons_drop hil, List.mem_cons] at he
        rcases he with rfl | he
        · exact heq
        · exact h1 e he

theorem getIndex_ok (h : Rep n ks vs mx kb ko vb vo map m es) (b o : Nat)
    (hb : o + ks ≤ (m.bytes b).length) :
    (∃ (j : Nat) (e : Bytes × Bytes), es[j]? = some e ∧ e.1 = slice (m.bytes b) o ks ∧
      getIndex map (ptr b o) map.current_size m = .ok (j : Int) m) ∨
    ((∀ e ∈ es, e.1 ≠ slice (m.bytes b) o ks) ∧
      getIndex map (ptr b o) map.current_size m = .ok (-1) m) := by
  have := getIndexLoop_ok h b o hb es.length 0 (by omega)
  unfold getIndex
  rw [h.size, Int.toNat_natCast]
  exact this

/-- Overwriting the value of an entry. -/
theorem Rep.setValue (h : Rep n ks vs mx kb ko vb vo map m es) {j : Nat} {e : Bytes × Bytes}
    (he : es[j]? = some e) (v : Bytes) (hvl : v.length = vs) :
    Rep n ks vs mx kb ko vb vo map (m.upd vb (splice (m.bytes vb) (vo + j * vs) v)) (es.set j (e.1, v)) := by
  have hj : j < es.length := (List.getElem?_eq_some_iff.1 he).1
  have hjn : j < n := by have := h.size_le; omega
  have hsl := slot_le vs hjn
  have hvb := h.vlen
  have hw : vo + j * vs + v.length ≤ (m.bytes vb).length := by omega
  have hget : ∀ (k : Nat) (x : Bytes × Bytes), (es.set j (e.1, v))[k]? = some x →
      (k = j ∧ x = (e.1, v)) ∨ (k ≠ j ∧ es[k]? = some x) := by
    intro k x hk
    by_cases hkj : k = j
    · subst hkj
      rw [List.getElem?_set_self hj] at hk
      exact .inl ⟨rfl, (Option.some.inj hk).symm⟩
    · rw [List.getElem?_set_ne (Ne.symm hkj)] at hk
      exact .inr ⟨hkj, hk⟩
  refine { h with klen := ?_, vlen := ?_, size := ?_, size_le := ?_, ck := ?_, cv := ?_, nodup := ?_ }
  · rw [length_upd_splice hw]; exact h.klen
  · rw [length_upd_splice hw]; exact h.vlen
  · rw [List.length_set]; exact h.size
  · rw [List.length_set]; exact h.size_le
  · intro k x hk
    have hkn : k < n := by
      have := (List.getElem?_eq_some_iff.1 hk).1
      rw [List.length_set] at this
      have := h.size_le; omega
    have hslk := slot_le ks hkn
    have hap := h.apart
    rw [slice_upd_apart hw (by omega)]
    rcases hget k x hk with ⟨rfl, rfl⟩ | ⟨_, hk⟩
    · exact h.ck k e he
    · exact h.ck k x hk
  · intro k x hk
    rcases hget k x hk with ⟨rfl, rfl⟩ | ⟨hne, hk⟩
    · exact slice_upd_same hw hvl
    · have hd := slot_disj vs hne
      rw [slice_upd_apart hw (by omega)]
      exact h.cv k x hk
  · have : (es.set j (e.1, v)).map Prod.fst = es.map Prod.fst := by
      apply List.ext_getElem?; intro k
      rw [List.getElem?_map, List.getElem?_map]
      by_cases hkj : k = j
      · subst hkj; rw [List.getElem?_set_self hj, he]; rfl
      · rw [List.getElem?_set_ne (Ne.symm hkj)]
    rw [this]; exact h.nodup

/-- Appending an entry. -/
theorem Rep.append (h : Rep n ks vs mx kb ko vb vo map m es) (hroom : es.length < n) (k v : Bytes)
    (hkl : k.length = ks) (hvl : v.length = vs) (hnew : ∀ e ∈ es, e.1 ≠ k) {m1 m2 : Mem}
    (hm1 : m1 = m.upd kb (splice (m.bytes kb) (ko + es.length * ks) k))
    (hm2 : m2 = m1.upd vb (splice (m1.bytes vb) (vo + es.length * vs) v)) :
    Rep n ks vs mx kb ko vb vo { map with current_size := (es.length : Int) + 1 } m2 (es ++ [(k, v)]) := by
  have hslk := slot_le ks hroom
  have hslv := slot_le vs hroom
  have hkb := h.klen
  have hvb := h.vlen
  have hap := h.apart
  have hw1 : ko + es.length * ks + k.length ≤ (m.bytes kb).length := by omega
  have hl1 : ∀ x, (m1.bytes x).length = (m.bytes x).length := fun x => by rw [hm1]; exact length_upd_splice hw1 x
  have hw2 : vo + es.length * vs + v.length ≤ (m1.bytes vb).length := by rw [hl1]; omega
  have hl2 : ∀ x, (m2.bytes x).length = (m.bytes x).length := fun x => by
    rw [hm2, length_upd_splice hw2 x, hl1]
  have hget : ∀ (j : Nat) (x : Bytes × Bytes), (es ++ [(k, v)])[j]? = some x →
      (j < es.length ∧ es[j]? = some x) ∨ (j = es.length ∧ x = (k, v)) := by
    intro j x hj
    have hjl := (List.getElem?_eq_some_iff.1 hj).1
    simp at hjl
    by_cases hlt : j < es.length
    · rw [List.getElem?_append_left hlt] at hj; exact .inl ⟨hlt, hj⟩
    · have hje : j = es.length := by omega
      subst hje
      rw [List.getElem?_append_right (by omega)] at hj
      simp at hj
      exact .inr ⟨rfl, hj.symm⟩
  have hsn := h.n_lt
  refine { h with klen := ?_, vlen := ?_, size := ?_, size_le := ?_, ck := ?_, cv := ?_, nodup := ?_ }
  · rw [hl2]; exact hkb
  · rw [hl2]; exact hvb
  · rw [List.length_append, List.length_singleton]; rfl
  · rw [List.length_append, List.length_singleton]; omega
  · intro j x hj
    have hjn : j < n := by
      have := (List.getElem?_eq_some_iff.1 hj).1
      simp at this; omega
    have hslj := slot_le ks hjn
    rw [hm2, slice_upd_apart hw2 (by omega), hm1]
    rcases hget j x hj with ⟨hlt, hj⟩ | ⟨rfl, rfl⟩
    · have hd := slot_disj ks (show j ≠ es.length by omega)
      rw [slice_upd_apart hw1 (by omega)]
      exact h.ck j x hj
    · exact slice_upd_same hw1 hkl
  · intro j x hj
    have hjn : j < n := by
      have := (List.getElem?_eq_some_iff.1 hj).1
      simp at this; omega
    have hslj := slot_le vs hjn
    rcases hget j x hj with ⟨hlt, hj⟩ | ⟨rfl, rfl⟩
    · have hd := slot_disj vs (show j ≠ es.length by omega)
      rw [hm2, slice_upd_apart hw2 (by omega), hm1, slice_upd_apart hw1 (by omega)]
      exact h.cv j x hj
    · rw [hm2]; exact slice_upd_same hw2 hvl
  · rw [List.map_append, List.nodup_append]
    refine ⟨h.nodup, by simp, ?_⟩
    intro a ha b hb hab
    simp only [List.map_cons, List.map_nil, List.mem_singleton] at hb
    subst hab; subst hb
    obtain ⟨e, he, rfl⟩ := List.mem_map.1 ha
    exact hnew e he rfl

/-- Insertion of a present key. -/
theorem insert_update (h : Rep n ks vs mx kb ko vb vo map m es) (b o b' o' : Nat)
    (hb : o + ks ≤ (m.bytes b).length) (hb' : o' + vs ≤ (m.bytes b').length) (hne' : b' ≠ vb)
    {j : Nat} {e : Bytes × Bytes} (he : es[j]? = some e)
    (hidx : getIndex map (ptr b o) map.current_size m = .ok (j : Int) m) :
    insert (some map) (ptr b o) (ptr b' o') m =
      .ok (true, some map) (m.upd vb (splice (m.bytes vb) (vo + j * vs) (slice (m.bytes b') o' vs))) := by
  have hj : j < es.length := (List.getElem?_eq_some_iff.1 he).1
  have hjn : j < n := by have := h.size_le; omega
  have hsl := slot_le vs hjn
  have hvb := h.vlen
  have hcpy := memcpy_ok (b := vb) (o := vo + j * vs) (b' := b') (o' := o') (n := vs) (m := m)
    (by omega) hb' (.inl (Ne.symm hne'))
  simp only [insert, C.bind_run, hidx]
  rw [if_neg (by omega)]
  simp only [C.bind_run, h.hvs, i32_mul hjn h.limv, h.hv, ptr_addZ_nat, toSizeT_nat h.vs_lt, hcpy, C.pure_run]

/-- Insertion of a new key with room left. -/
theorem insert_new (h : Rep n ks vs mx kb ko vb vo map m es) (hroom : es.length < n) (hmx : (es.length : Int) ≠ mx)
    (b o b' o' : Nat) (hb : o + ks ≤ (m.bytes b).length) (hb' : o' + vs ≤ (m.bytes b').length)
    (hk : b ≠ kb) (hk' : b' ≠ kb) (hv' : b' ≠ vb)
    (hidx : getIndex map (ptr b o) map.current_size m = .ok (-1) m)
    {m1 m2 : Mem}
    (hm1 : m1 = m.upd kb (splice (m.bytes kb) (ko + es.length * ks) (slice (m.bytes b) o ks)))
    (hm2 : m2 = m1.upd vb (splice (m1.bytes vb) (vo + es.length * vs) (slice (m.bytes b') o' vs))) :
    insert (some map) (ptr b o) (ptr b' o') m =
      .ok (true, some { map with current_size := (es.length : Int) + 1 }) m2 := by
  have hslk := slot_le ks hroom
  have hslv := slot_le vs hroom
  have hkb := h.klen
  have hvb := h.vlen
  have hn := h.n_lt
  have hw1 : ko + es.length * ks + (slice (m.bytes b) o ks).length ≤ (m.bytes kb).length := by
    rw [slice_length _ _ _ hb]; omega
  have hl1 : ∀ x, (m1.bytes x).length = (m.bytes x).length := fun x => by rw [hm1]; exact length_upd_splice hw1 x
  have hcpy1 := memcpy_ok (b := kb) (o := ko + es.length * ks) (b' := b) (o' := o) (n := ks) (m := m)
    (by omega) hb (.inl (Ne.symm hk))
  rw [← hm1] at hcpy1
  have hcpy2 := memcpy_ok (b := vb) (o := vo + es.length * vs) (b' := b') (o' := o') (n := vs) (m := m1)
    (by rw [hl1]; omega) (by rw [hl1]; omega) (.inl (Ne.symm hv'))
  have hb1 : m1.bytes b' = m.bytes b' := by rw [hm1, Mem.upd_bytes, if_neg hk']
  rw [hb1, ← hm2] at hcpy2
  have hi : i32 ((es.length : Int) + 1) m2 = .ok ((es.length : Int) + 1) m2 := i32_succ hroom hn m2
  simp only [insert]
  rw [C.bind_ok hidx, if_pos rfl, h.size, h.hmx, if_pos hmx, h.hks, h.hvs, C.bind_ok (i32_mul hroom h.limk m),
    h.hk, h.hv, ptr_addZ_nat, toSizeT_nat h.ks_lt, C.bind_ok hcpy1, C.bind_ok (i32_mul hroom h.limv m1),
    ptr_addZ_nat, toSizeT_nat h.vs_lt, C.bind_ok hcpy2, C.bind_ok hi]
  rfl

/-- Insertion of a new key into a full map. -/
theorem insert_full (h : Rep n ks vs mx kb ko vb vo map m es) (hmx : (es.length : Int) = mx)
    (b o : Nat) (p : Ptr) (hidx : getIndex map (ptr b o) map.current_size m = .ok (-1) m) :
    insert (some map) (ptr b o) p m = .ok (false, some map) m := by
  simp only [insert, C.bind_run, hidx]
  rw [if_pos trivial, if_neg (by rw [h.size, h.hmx]; simpa using hmx)]
  rfl

/-- Insertion of a new key behind the end of an exactly sized array. -/
theorem insert_oob (h : Rep n ks vs mx kb ko vb vo map m es) (hfull : es.length = n) (hmx : (es.length : Int) ≠ mx)
    (hx : (m.bytes kb).length = ko + n * ks) (hl : n * ks < 2 ^ 31)
    (b o : Nat) (p : Ptr) (hb : o + ks ≤ (m.bytes b).length) (hk : b ≠ kb)
    (hidx : getIndex map (ptr b o) map.current_size m = .ok (-1) m) :
    insert (some map) (ptr b o) p m = .ub .oobWrite := by
  have hksp := h.ks_pos
  have hi := i32_ok (x := ((n * ks : Nat) : Int)) (by omega) m
  have hcpy : memcpy (ptr kb (ko + n * ks)) (ptr b o) ks m = .ub .oobWrite := by
    unfold memcpy
    rw [overlaps_blk _ (show (ptr kb (ko + n * ks)).blk ≠ (ptr b o).blk from Ne.symm hk)]
    simp only [Bool.false_eq_true, if_false, C.bind_run, loadN_ok hb]
    have hsl := slice_length _ _ _ hb
    apply storeN_oob
    · intro h0; rw [h0] at hsl; simp at hsl; omega
    · rw [hsl]; omega
  simp only [insert, C.bind_run, hidx]
  rw [if_pos trivial, h.size, h.hmx, if_pos hmx]
  simp only [C.bind_run, h.hks, hfull, ← Int.natCast_mul, hi, h.hk, ptr_addZ_nat, toSizeT_nat h.ks_lt, hcpy]

theorem getValue_some (h : Rep n ks vs mx kb ko vb vo map m es) (b o b' o' : Nat)
    (hb' : o' + vs ≤ (m.bytes b').length) (hv' : b' ≠ vb)
    {j : Nat} {e : Bytes × Bytes} (he : es[j]? = some e)
    (hidx : getIndex map (ptr b o) map.current_size m = .ok (j : Int) m) :
    getValue (some map) (ptr b o) (ptr b' o') m = .ok true (m.upd b' (splice (m.bytes b') o' e.2)) := by
  have hj : j < es.length := (List.getElem?_eq_some_iff.1 he).1
  have hjn : j < n := by have := h.size_le; omega
  have hsl := slot_le vs hjn
  have hvb := h.vlen
  have hcpy := memcpy_ok (b := b') (o := o') (b' := vb) (o' := vo + j * vs) (n := vs) (m := m)
    hb' (by omega) (.inl hv')
  rw [h.cv j e he] at hcpy
  simp only [getValue, C.bind_run, hidx]
  rw [if_pos (by omega)]
  simp only [C.bind_run, h.hvs, i32_mul hjn h.limv, h.hv, ptr_addZ_nat, toSizeT_nat h.vs_lt, hcpy, C.pure_run]

theorem getValue_none (b o : Nat) (p : Ptr) (hidx : getIndex map (ptr b o) map.current_size m = .ok (-1) m) :
    getValue (some map) (ptr b o) p m = .ok false m := by
  simp only [getValue, C.bind_run, hidx]
  rw [if_neg (by simp)]; rfl

end

/-! ### The log of insertions -/

theorem latest_append (log : List (Bytes × Bytes)) (k v k' : Bytes) :
    latest (log ++ [(k, v)]) k' = if k = k' then some v else latest log k' := by
  unfold latest
  rw [List.reverse_append, List.reverse_singleton, List.singleton_append, List.find?_cons]
  by_cases h : k = k'
  · simp [h]
  · rw [show (k == k') = false by simpa using h, if_neg h]

theorem latest_isSome (log : List (Bytes × Bytes)) (k : Bytes) :
    (latest log k).isSome = true ↔ k ∈ log.map Prod.fst := by
  unfold latest
  rw [Option.isSome_map, List.find?_isSome]
  simp

/-- The entries `es` are the content described by the log. -/
structure Tracks (log es : List (Bytes × Bytes)) : Prop where
  mem : ∀ k v, latest log k = some v ↔ (k, v) ∈ es
  nodup : (es.map Prod.fst).Nodup

theorem Tracks.keys {log es : List (Bytes × Bytes)} (h : Tracks log es) (k : Bytes) :
    k ∈ log.map Prod.fst ↔ k ∈ es.map Prod.fst := by
  rw [← latest_isSome, Option.isSome_iff_exists, List.mem_map]
  constructor
  · rintro ⟨v, hv⟩; exact ⟨(k, v), (h.mem k v).1 hv, rfl⟩
  · rintro ⟨⟨k', v⟩, hv, rfl⟩; exact ⟨v, (h.mem _ v).2 hv⟩

theorem Tracks.count {log es : List (Bytes × Bytes)} (h : Tracks log es) : distinctKeys log = es.length := by
  have : (log.map Prod.fst).toFinset = (es.map Prod.fst).toFinset := by
    ext k; simp only [List.mem_toFinset]; exact h.keys k
  rw [distinctKeys, this, List.toFinset_card_of_nodup h.nodup, List.length_map]

theorem Tracks.append {log es : List (Bytes × Bytes)} (h : Tracks log es) {k v : Bytes}
    (hnew : ∀ e ∈ es, e.1 ≠ k) (hnd : ((es ++ [(k, v)]).map Prod.fst).Nodup) :
    Tracks (log ++ [(k, v)]) (es ++ [(k, v)]) := by
  refine ⟨?_, hnd⟩
  intro k' v'
  rw [latest_append, List.mem_append, List.mem_singleton]
  by_cases hk : k = k'
  · subst hk
    rw [if_pos rfl]
    constructor
    · intro hv; right; rw [Option.some.inj hv]
    · rintro (hm | hm)
      · exact absurd rfl (hnew _ hm)
      · simp at hm; rw [hm]
  · rw [if_neg hk, h.mem]
    constructor
    · exact .inl
    · rintro (hm | hm)
      · exact hm
      · simp at hm; exact absurd hm.1.symm hk

theorem Tracks.set {log es : List (Bytes × Bytes)} (h : Tracks log es) {j : Nat} {e : Bytes × Bytes} {v : Bytes}
    (he : es[j]? = some e) (hnd : ((es.set j (e.1, v)).map Prod.fst).Nodup) :
    Tracks (log ++ [(e.1, v)]) (es.set j (e.1, v)) := by
  refine ⟨?_, hnd⟩
  have hj : j < es.length := (List.getElem?_eq_some_iff.1 he).1
  have hself : (es.set j (e.1, v))[j]? = some (e.1, v) := List.getElem?_set_self hj
  have hinj : ∀ (l : List (Bytes × Bytes)), (l.map Prod.fst).Nodup → ∀ (a b : Nat) (x y : Bytes × Bytes),
      l[a]? = some x → l[b]? = some y → x.1 = y.1 → a = b := by
    intro l hl a b x y ha hb hxy
    have h1 : (l.map Prod.fst)[a]? = some x.1 := by rw [List.getElem?_map, ha]; rfl
    have h2 : (l.map Prod.fst)[b]? = some y.1 := by rw [List.getElem?_map, hb]; rfl
    exact (List.getElem?_inj (by simpa using (List.getElem?_eq_some_iff.1 ha).1) hl).1 (by rw [h1, h2, hxy])
  intro k' v'
  rw [latest_append]
  by_cases hk : e.1 = k'
  · subst hk
    rw [if_pos rfl]
    constructor
    · intro hv; rw [Option.some.inj hv] at hself ⊢; exact List.mem_of_getElem? hself
    · intro hm
      obtain ⟨i, hi⟩ := List.mem_iff_getElem?.1 hm
      have := hinj _ hnd i j _ _ hi hself rfl
      subst this
      rw [hself] at hi
      simp at hi; rw [hi]
  · rw [if_neg hk, h.mem]
    constructor
    · intro hm
      obtain ⟨i, hi⟩ := List.mem_iff_getElem?.1 hm
      have hij : j ≠ i := by
        rintro rfl; rw [he] at hi; simp at hi; rw [hi] at hk; exact hk rfl
      exact List.mem_of_getElem? (i := i) (by rw [List.getElem?_set_ne hij]; exact hi)
    · intro hm
      obtain ⟨i, hi⟩ := List.mem_iff_getElem?.1 hm
      have hij : j ≠ i := by
        rintro rfl; rw [hself] at hi; simp at hi; exact hk hi.1
      rw [List.getElem?_set_ne hij] at hi
      exact List.mem_of_getElem? hi

end IMU.Map
