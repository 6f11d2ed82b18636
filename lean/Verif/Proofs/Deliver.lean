import Verif.Proofs.Aliasing
import Verif.Proofs.MapOwn
import Verif.Spec.Overlay

/-! # Elements delivered into the container's own buffer -/

namespace IMU
open Spec Utils

theorem overlay_length {b a : Nat} {old : List Byte} {b' o : Nat} {x : List Byte} :
    (overlay b a old b' o x).length = old.length := by simp [overlay]

theorem overlay_apart {b a : Nat} {old : List Byte} {b' o : Nat} {x : List Byte}
    (h : b ≠ b' ∨ a + old.length ≤ o ∨ o + x.length ≤ a) : overlay b a old b' o x = old := by
  apply List.ext_getElem?; intro i
  unfold overlay
  rw [List.getElem?_mapIdx]
  cases hg : old[i]? with
  | none => rfl
  | some c =>
    have hi := (List.getElem?_eq_some_iff.1 hg).1
    rw [Option.map_some]
    split
    · rw [List.getElem?_eq_none (by omega)]; rfl
    · rfl

theorem overlay_same {b a : Nat} {old x : List Byte} (h : x.length = old.length) :
    overlay b a old b a x = x := by
  apply List.ext_getElem?; intro i
  unfold overlay
  rw [List.getElem?_mapIdx]
  cases hg : old[i]? with
  | none => 
    rw [List.getElem?_eq_none_iff] at hg
    rw [show x[i]? = none from List.getElem?_eq_none (by omega)]; rfl
  | some c =>
    have hi := (List.getElem?_eq_some_iff.1 hg).1
    rw [Option.map_some, if_pos (by omega), show a + i - a = i by omega, List.getElem?_eq_getElem (by omega)]
    rfl

theorem slice_overlay {m : Mem} {b a n b' o : Nat} {x : List Byte} (ha : a + n ≤ (m.bytes b).length)
    (hx : o + x.length ≤ (m.bytes b').length) :
    slice ((m.upd b' (splice (m.bytes b') o x)).bytes b) a n = overlay b a (slice (m.bytes b) a n) b' o x := by
  apply List.ext_getElem?; intro i
  unfold overlay
  rw [List.getElem?_mapIdx, getElem?_slice, getElem?_slice, Mem.upd_bytes]
  by_cases hi : i < n
  · rw [if_pos hi, if_pos hi, List.getElem?_eq_getElem (show a + i < (m.bytes b).length by omega), Option.map_some]
    by_cases hb : b = b'
    · subst hb
      rw [if_pos rfl, getElem?_splice _ _ _ hx]
      by_cases h1 : a + i < o
      · rw [if_pos h1, if_neg (by omega), List.getElem?_eq_getElem]
      · rw [if_neg h1]
        by_cases h2 : a + i < o + x.length
        · rw [if_pos h2, if_pos (by omega), List.getElem?_eq_getElem (show a + i - o < x.length by omega)]; rfl
        · rw [if_neg h2, if_pos (by omega), List.getElem?_eq_none (show x.length ≤ a + i - o by omega),
            List.getElem?_eq_getElem]; rfl
    · rw [if_neg hb, if_neg (by omega), List.getElem?_eq_getElem]
  · rw [if_neg hi, if_neg hi]; rfl

namespace Queue
open IMU.Map (memcpy_clash)

section
variable {cap esz bb bo : Nat} {q : Queue} {m : Mem} {xs : List (List Byte)}

theorem patch_rep (h : Rep cap esz bb bo q m xs) {eb eo : Nat} {x : List Byte}
    (hx : eo + x.length ≤ (m.bytes eb).length) :
    Rep cap esz bb bo q (m.upd eb (splice (m.bytes eb) eo x)) (ringOverlay cap esz bb bo q.front.toNat xs eb eo x) := by
  have hlen : ∀ b, ((m.upd eb (splice (m.bytes eb) eo x)).bytes b).length = (m.bytes b).length := by
    intro b
    rw [Mem.upd_bytes]; split
    · subst b; rw [splice_length _ _ _ hx]
    · rfl
  have hl : (ringOverlay cap esz bb bo q.front.toNat xs eb eo x).length = xs.length := by simp [ringOverlay]
  refine { h with hlen := by rw [hlen]; exact h.hlen, rear_eq := by rw [hl]; exact h.rear_eq,
                  size_eq := by rw [hl]; exact h.size_eq, size_le := by rw [hl]; exact h.size_le, content := ?_ }
  intro k y hy
  unfold ringOverlay at hy
  rw [List.getElem?_mapIdx] at hy
  cases hg : xs[k]? with
  | none => rw [hg] at hy; simp at hy
  | some e =>
    rw [hg, Option.map_some, Option.some.injEq] at hy
    have hsl := slot_le esz (Nat.mod_lt (q.front.toNat + k) h.cap_pos)
    have hb := h.hlen
    rw [slice_overlay (by omega) hx, h.content k e hg, hy]

theorem elem_length (h : Rep cap esz bb bo q m xs) {k : Nat} {x : List Byte} (hk : xs[k]? = some x) : x.length = esz := by
  have hsl := slot_le esz (Nat.mod_lt (q.front.toNat + k) h.cap_pos)
  have hb := h.hlen
  rw [← h.content k x hk, slice_length _ _ _ (by omega)]

/-- Dropping the oldest element without touching the memory. -/
theorem drop_rep {x : List Byte} (h : Rep cap esz bb bo q m (x :: xs)) :
    Rep cap esz bb bo { q with front := (q.front + 1#32) % q.capacity, size := q.size - 1#32 } m xs := by
  have hcl := h.cap_lt
  have hfl := h.front_lt
  have hcp := h.cap_pos
  have hsl := h.size_le
  have hse := h.size_eq
  rw [List.length_cons] at hsl hse
  have hfront : ((q.front + 1#32) % q.capacity).toNat = (q.front.toNat + 1) % cap := by
    rw [BitVec.toNat_umod, BitVec.toNat_add, h.hcap]
    congr 1
    simp only [BitVec.toNat_ofNat]; omega
  refine { h with front_lt := ?_, rear_eq := ?_, size_eq := ?_, size_le := by omega, content := ?_ }
  · show ((q.front + 1#32) % q.capacity).toNat < cap
    rw [hfront]; exact Nat.mod_lt _ hcp
  · show (q.rear.toNat + 1) % cap = (((q.front + 1#32) % q.capacity).toNat + xs.length) % cap
    rw [hfront, h.rear_eq, List.length_cons, Nat.mod_add_mod]
    congr 1; omega
  · show (q.size - 1#32).toNat = _
    rw [BitVec.toNat_sub, hse]
    simp only [BitVec.toNat_ofNat]; omega
  · intro k y hk
    show slice _ (bo + ((((q.front + 1#32) % q.capacity).toNat + k) % cap) * esz) esz = y
    rw [hfront, Nat.mod_add_mod, show q.front.toNat + 1 + k = q.front.toNat + (k+1) by omega]
    exact h.content (k+1) y (by simpa using hk)

/-- Copying the element at place `i` to a destination apart from it. -/
theorem copy_apart (h : Rep cap esz bb bo q m xs) {a : U32} {i : Nat} (ha : a.toNat = i) (hi : i < cap) {eb eo : Nat}
    (he : eo + esz ≤ (m.bytes eb).length)
    (hne : eb ≠ bb ∨ eo + esz ≤ bo + i * esz ∨ bo + i * esz + esz ≤ eo) :
    memcpy (ptr eb eo) (q.buffer.addN (a * q.element_size).toNat) q.element_size.toNat m =
      .ok () (m.upd eb (splice (m.bytes eb) eo (slice (m.bytes bb) (bo + i * esz) esz))) := by
  have hsl := slot_le esz hi
  have hb := h.hlen
  rw [mul_toNat ha h.hes hi h.lim, h.hes, h.hbuf, ptr_addN]
  exact memcpy_ok he (by omega) (by omega)

theorem copy_clash (h : Rep cap esz bb bo q m xs) {a : U32} {i : Nat} (ha : a.toNat = i) (hi : i < cap) {eo : Nat}
    (hcl : eo < bo + i * esz + esz ∧ bo + i * esz < eo + esz) :
    memcpy (ptr bb eo) (q.buffer.addN (a * q.element_size).toNat) q.element_size.toNat m = .ub .overlap := by
  rw [mul_toNat ha h.hes hi h.lim, h.hes, h.hbuf, ptr_addN]
  exact memcpy_clash hcl

theorem head_content {x : List Byte} (h : Rep cap esz bb bo q m (x :: xs)) :
    slice (m.bytes bb) (bo + q.front.toNat * esz) esz = x := by
  have hx := h.content 0 x rfl
  rwa [Nat.add_zero, Nat.mod_eq_of_lt h.front_lt] at hx

theorem rear_place {x : List Byte} (h : Rep cap esz bb bo q m (xs ++ [x])) :
    (q.front.toNat + xs.length) % cap = q.rear.toNat := by
  have e := h.rear_eq
  have hfl := h.front_lt
  have hrl := h.rear_lt
  have hsl := h.size_le
  rw [List.length_append, List.length_singleton] at e hsl
  rw [mod_cases hrl (by omega), mod_cases hfl (by omega)] at e
  rw [mod_cases hfl (by omega)]
  split at e <;> split at e <;> split <;> omega

theorem deliver_deq {x : List Byte} (h : Rep cap esz bb bo q m (x :: xs)) {eb eo : Nat}
    (he : eo + esz ≤ (m.bytes eb).length)
    (hne : eb ≠ bb ∨ eo + esz ≤ bo + q.front.toNat * esz ∨ bo + q.front.toNat * esz + esz ≤ eo) :
    ∃ q' m', dequeue (some q) (some (ptr eb eo)) m = .ok (true, some q') m' ∧
      Rep cap esz bb bo q' m' (ringOverlay cap esz bb bo (q.front.toNat + 1) xs eb eo x) ∧
      slice (m'.bytes eb) eo esz = x ∧ OnlyChanged m m' eb eo esz := by
  have hcpy := copy_apart h rfl h.front_lt he hne
  rw [head_content h] at hcpy
  have hxl : x.length = esz := elem_length h (k := 0) rfl
  have hrep := patch_rep h (eb := eb) (eo := eo) (x := x) (by omega)
  unfold ringOverlay at hrep
  rw [List.mapIdx_cons] at hrep
  have hd := drop_rep hrep
  refine ⟨{ q with front := (q.front + 1#32) % q.capacity, size := q.size - 1#32 },
    m.upd eb (splice (m.bytes eb) eo x), ?_, ?_, ?_, ?_⟩
  · simp only [dequeue]
    rw [h.empty_iff, decide_eq_false (by simp)]
    simp only [Bool.not_false, if_true, C.bind_run, hcpy, C.require_ok h.cap_ne, C.pure_run]
  · unfold ringOverlay
    simp only [show ∀ k, q.front.toNat + 1 + k = q.front.toNat + (k + 1) by omega]
    exact hd
  · have := slice_splice_same (m.bytes eb) eo x (by omega)
    rw [hxl] at this
    rw [Mem.upd_bytes, if_pos rfl]; exact this
  · have := onlyChanged_splice m eb eo x (by omega)
    rw [hxl] at this; exact this

theorem deliver_front {x : List Byte} (h : Rep cap esz bb bo q m (x :: xs)) {eb eo : Nat}
    (he : eo + esz ≤ (m.bytes eb).length)
    (hne : eb ≠ bb ∨ eo + esz ≤ bo + q.front.toNat * esz ∨ bo + q.front.toNat * esz + esz ≤ eo) :
    ∃ m', front (some q) (some (ptr eb eo)) m = .ok true m' ∧
      Rep cap esz bb bo q m' (ringOverlay cap esz bb bo q.front.toNat (x :: xs) eb eo x) ∧
      slice (m'.bytes eb) eo esz = x ∧ OnlyChanged m m' eb eo esz := by
  have hcpy := copy_apart h rfl h.front_lt he hne
  rw [head_content h] at hcpy
  have hxl : x.length = esz := elem_length h (k := 0) rfl
  refine ⟨_, ?_, patch_rep h (eb := eb) (eo := eo) (x := x) (by omega), ?_, ?_⟩
  · simp only [front]
    rw [h.empty_iff, decide_eq_false (by simp)]
    simp only [Bool.not_false, if_true, C.bind_run, hcpy, C.pure_run]
  · have := slice_splice_same (m.bytes eb) eo x (by omega)
    rw [hxl] at this
    rw [Mem.upd_bytes, if_pos rfl]; exact this
  · have := onlyChanged_splice m eb eo x (by omega)
    rw [hxl] at this; exact this

theorem deliver_rear {x : List Byte} (h : Rep cap esz bb bo q m (xs ++ [x])) {eb eo : Nat}
    (he : eo + esz ≤ (m.bytes eb).length)
    (hne : eb ≠ bb ∨ eo + esz ≤ bo + q.rear.toNat * esz ∨ bo + q.rear.toNat * esz + esz ≤ eo) :
    ∃ m', rear (some q) (some (ptr eb eo)) m = .ok true m' ∧
      Rep cap esz bb bo q m' (ringOverlay cap esz bb bo q.front.toNat (xs ++ [x]) eb eo x) ∧
      slice (m'.bytes eb) eo esz = x ∧ OnlyChanged m m' eb eo esz := by
  have hcpy := copy_apart h rfl h.rear_lt he hne
  have hx := h.content xs.length x (by simp)
  rw [rear_place h] at hx
  rw [hx] at hcpy
  have hxl : x.length = esz := elem_length h (k := xs.length) (by simp)
  refine ⟨_, ?_, patch_rep h (eb := eb) (eo := eo) (x := x) (by omega), ?_, ?_⟩
  · simp only [rear]
    rw [h.empty_iff, decide_eq_false (by simp)]
    simp only [Bool.not_false, if_true, C.bind_run, hcpy, C.pure_run]
  · have := slice_splice_same (m.bytes eb) eo x (by omega)
    rw [hxl] at this
    rw [Mem.upd_bytes, if_pos rfl]; exact this
  · have := onlyChanged_splice m eb eo x (by omega)
    rw [hxl] at this; exact this

theorem clash_front (h : Rep cap esz bb bo q m xs) (hne : xs ≠ []) {eo : Nat}
    (hcl : eo < bo + q.front.toNat * esz + esz ∧ bo + q.front.toNat * esz < eo + esz) :
    dequeue (some q) (some (ptr bb eo)) m = .ub .overlap ∧ front (some q) (some (ptr bb eo)) m = .ub .overlap := by
  have hcpy := copy_clash h rfl h.front_lt hcl
  simp only [dequeue, front]
  rw [h.empty_iff, decide_eq_false hne]
  simp only [Bool.not_false, if_true, C.bind_run, hcpy, and_self]

theorem clash_rear (h : Rep cap esz bb bo q m xs) (hne : xs ≠ []) {eo : Nat}
    (hcl : eo < bo + q.rear.toNat * esz + esz ∧ bo + q.rear.toNat * esz < eo + esz) :
    rear (some q) (some (ptr bb eo)) m = .ub .overlap := by
  have hcpy := copy_clash h rfl h.rear_lt hcl
  simp only [rear]
  rw [h.empty_iff, decide_eq_false hne]
  simp only [Bool.not_false, if_true, C.bind_run, hcpy]

theorem clash_enq (h : Rep cap esz bb bo q m xs) (hroom : xs.length < cap) {eo : Nat}
    (hcl : eo < bo + ((q.front.toNat + xs.length) % cap) * esz + esz ∧
      bo + ((q.front.toNat + xs.length) % cap) * esz < eo + esz) :
    enqueue (some q) (some (ptr bb eo)) m = .ub .overlap := by
  have hi := Nat.mod_lt (q.front.toNat + xs.length) h.cap_pos
  have hmul := mul_toNat (rear_succ h) h.hes hi h.lim
  simp only [enqueue]
  rw [h.full_iff, decide_eq_false (by omega)]
  simp only [Bool.not_false, if_true, C.bind_run, C.require_ok h.cap_ne, C.pure_run, hmul, h.hes, h.hbuf,
    ptr_addN, memcpy_clash (show bo + ((q.front.toNat + xs.length) % cap) * esz < eo + esz ∧
      eo < bo + ((q.front.toNat + xs.length) % cap) * esz + esz from ⟨hcl.2, hcl.1⟩)]

/-- Written over the place of element `k`. -/
theorem ringOverlay_place {f k : Nat} {x : List Byte} (hcap : 0 < cap) (hlen : xs.length ≤ cap)
    (hx : ∀ e ∈ xs, e.length = esz) (hxl : x.length = esz) (hk : k < xs.length) :
    ringOverlay cap esz bb bo f xs bb (bo + ((f + k) % cap) * esz) x = xs.set k x := by
  apply List.ext_getElem?; intro i
  unfold ringOverlay
  rw [List.getElem?_mapIdx]
  by_cases hik : i = k
  · subst hik
    rw [List.getElem?_eq_getElem hk, Option.map_some, List.getElem?_set_self hk,
      overlay_same (by rw [hxl, hx _ (List.getElem_mem hk)])]
  · rw [List.getElem?_set_ne (Ne.symm hik)]
    cases hg : xs[i]? with
    | none => rfl
    | some e =>
      have hi := (List.getElem?_eq_some_iff.1 hg).1
      have hne : (f + i) % cap ≠ (f + k) % cap := by
        rw [Nat.add_mod f i, Nat.add_mod f k]
        have hf := Nat.mod_lt f hcap
        rw [Nat.mod_eq_of_lt (show i < cap by omega), Nat.mod_eq_of_lt (show k < cap by omega),
          mod_cases hf (by omega), mod_cases hf (by omega)]
        split <;> split <;> omega
      have hd := slot_disj esz hne
      rw [Option.map_some, overlay_apart]
      rw [hx e (List.mem_of_getElem? hg), hxl]
      omega

/-- Written where no element lies. -/
theorem ringOverlay_apart {f eb eo : Nat} {x : List Byte}
    (h : ∀ k e, xs[k]? = some e → eb ≠ bb ∨ bo + ((f + k) % cap) * esz + e.length ≤ eo ∨
      eo + x.length ≤ bo + ((f + k) % cap) * esz) :
    ringOverlay cap esz bb bo f xs eb eo x = xs := by
  apply List.ext_getElem?; intro i
  unfold ringOverlay
  rw [List.getElem?_mapIdx]
  cases hg : xs[i]? with
  | none => rfl
  | some e =>
    have := h i e hg
    rw [Option.map_some, overlay_apart (by omega)]

end
end Queue

namespace PQ
open IMU.Queue (slot_le slot_disj slot_lt mul_toNat)
open IMU.Map (memcpy_clash)
open IMU.Props (PQFrame)

section
variable {cap esz bb bo pa : Nat} {q : PQueue} {m : Mem} {xs : List PItem}

theorem patch_rep (h : Rep cap esz bb bo pa q m xs) {eb eo : Nat} {x : List Byte}
    (hx : eo + x.length ≤ (m.bytes eb).length) :
    Rep cap esz bb bo pa q (m.upd eb (splice (m.bytes eb) eo x)) (itemsOverlay esz bb bo 0 xs eb eo x) := by
  have hlen : ∀ b, ((m.upd eb (splice (m.bytes eb) eo x)).bytes b).length = (m.bytes b).length := by
    intro b
    rw [Mem.upd_bytes]; split
    · subst b; rw [splice_length _ _ _ hx]
    · rfl
  have hl : (itemsOverlay esz bb bo 0 xs eb eo x).length = xs.length := by simp [itemsOverlay]
  have hget : ∀ (k : Nat) y, (itemsOverlay esz bb bo 0 xs eb eo x)[k]? = some y → ∃ e, xs[k]? = some e ∧
      y = (e.1, overlay bb (bo + k * esz) e.2 eb eo x) := by
    intro k y hy
    unfold itemsOverlay at hy
    rw [List.getElem?_mapIdx] at hy
    cases hg : xs[k]? with
    | none => rw [hg] at hy; simp at hy
    | some e =>
      rw [hg, Option.map_some, Option.some.injEq] at hy
      exact ⟨e, rfl, by rw [← hy, Nat.zero_add]⟩
  refine { h with hlen := by rw [hlen]; exact h.hlen, hwlen := h.hwlen, size_eq := by rw [hl]; exact h.size_eq,
                  size_le := by rw [hl]; exact h.size_le, prio := ?_, content := ?_ }
  · intro k y hy
    obtain ⟨e, he, rfl⟩ := hget k y hy
    exact h.prio k e he
  · intro k y hy
    obtain ⟨e, he, rfl⟩ := hget k y hy
    have hk : k < cap := by have := (List.getElem?_eq_some_iff.1 he).1; have := h.size_le; omega
    have hsl := slot_le esz hk
    have hb := h.hlen
    rw [slice_overlay (by omega) hx, h.content k e he]

theorem itemsOverlay_place {f k : Nat} {x : List Byte} (hx : ∀ e ∈ xs, e.2.length = esz) (hxl : x.length = esz)
    {y : PItem} (hk : xs[k]? = some y) :
    itemsOverlay esz bb bo f xs bb (bo + (f + k) * esz) x = xs.set k (y.1, x) := by
  have hkl := (List.getElem?_eq_some_iff.1 hk).1
  apply List.ext_getElem?; intro i
  unfold itemsOverlay
  rw [List.getElem?_mapIdx]
  by_cases hik : i = k
  · subst hik
    rw [hk, Option.map_some, List.getElem?_set_self hkl,
      overlay_same (by rw [hxl, hx _ (List.mem_of_getElem? hk)])]
  · rw [List.getElem?_set_ne (Ne.symm hik)]
    cases hg : xs[i]? with
    | none => rfl
    | some e =>
      have hd := slot_disj esz (show f + i ≠ f + k by omega)
      rw [Option.map_some, overlay_apart]
      rw [hx e (List.mem_of_getElem? hg), hxl]
      omega

theorem itemsOverlay_apart {f eb eo : Nat} {x : List Byte}
    (h : ∀ k e, xs[k]? = some e → eb ≠ bb ∨ bo + (f + k) * esz + e.2.length ≤ eo ∨ eo + x.length ≤ bo + (f + k) * esz) :
    itemsOverlay esz bb bo f xs eb eo x = xs := by
  apply List.ext_getElem?; intro i
  unfold itemsOverlay
  rw [List.getElem?_mapIdx]
  cases hg : xs[i]? with
  | none => rfl
  | some e =>
    have := h i e hg
    rw [Option.map_some, overlay_apart (by omega)]

theorem itemsOverlay_split {pre post : List PItem} {x : PItem} {eb eo : Nat} {y : List Byte} :
    itemsOverlay esz bb bo 0 (pre ++ x :: post) eb eo y = itemsOverlay esz bb bo 0 pre eb eo y ++
      (x.1, overlay bb (bo + pre.length * esz) x.2 eb eo y) :: itemsOverlay esz bb bo (pre.length + 1) post eb eo y := by
  unfold itemsOverlay
  rw [List.mapIdx_append, List.mapIdx_cons]
  simp only [show ∀ k, 0 + (k + 1 + pre.length) = pre.length + 1 + k by omega, Nat.zero_add]

theorem split_index {pre post pre' post' : List PItem} {x x' : PItem} (e : pre ++ x :: post = pre' ++ x' :: post')
    (h1 : ∀ y ∈ pre, y.1 < x.1) (h2 : ∀ y ∈ post, y.1 ≤ x.1)
    (h1' : ∀ y ∈ pre', y.1 < x'.1) (h2' : ∀ y ∈ post', y.1 ≤ x'.1) : pre = pre' ∧ x = x' ∧ post = post' := by
  rcases List.append_eq_append_iff.1 e with ⟨zs, e1, e2⟩ | ⟨zs, e1, e2⟩
  · cases zs with
    | nil =>
      simp only [List.append_nil, List.nil_append, List.cons.injEq] at e1 e2
      exact ⟨e1.symm, e2.1, e2.2⟩
    | cons z zs =>
      simp only [List.cons_append, List.cons.injEq] at e2
      have a1 := h1' x (by rw [e1, e2.1]; simp)
      have a2 := h2 x' (by rw [e2.2]; simp)
      simp only [BitVec.lt_def, BitVec.le_def] at *; omega
  · cases zs with
    | nil =>
      simp only [List.append_nil, List.nil_append, List.cons.injEq] at e1 e2
      exact ⟨e1, e2.1.symm, e2.2.symm⟩
    | cons z zs =>
      simp only [List.cons_append, List.cons.injEq] at e2
      have a1 := h1 x' (by rw [e1, e2.1]; simp)
      have a2 := h2' x (by rw [e2.2]; simp)
      simp only [BitVec.lt_def, BitVec.le_def] at *; omega

section
variable {pre post : List PItem} {x : PItem}

theorem highest_at (h : Rep cap esz bb bo pa q m (pre ++ x :: post)) (hpre : ∀ y ∈ pre, y.1 < x.1)
    (hpost : ∀ y ∈ post, y.1 ≤ x.1) : getHighestPriorityIndex q m = .ok (BitVec.ofNat 32 pre.length) m := by
  obtain ⟨pre', x', post', e, a, b, c⟩ := highest_ok h (by simp)
  obtain ⟨rfl, -, -⟩ := split_index e hpre hpost a b
  exact c

theorem deliver_deq (h : Rep cap esz bb bo pa q m (pre ++ x :: post)) (hpre : ∀ y ∈ pre, y.1 < x.1)
    (hpost : ∀ y ∈ post, y.1 ≤ x.1) {eb eo : Nat} (he : eo + esz ≤ (m.bytes eb).length)
    (hne : eb ≠ bb ∨ eo + esz ≤ bo + pre.length * esz ∨ bo + pre.length * esz + esz ≤ eo) :
    ∃ q' m', dequeue q (ptr eb eo) m = .ok (true, q') m' ∧
      Rep cap esz bb bo pa q' m'
        (itemsOverlay esz bb bo 0 pre eb eo x.2 ++ itemsOverlay esz bb bo (pre.length + 1) post eb eo x.2) ∧
      PQFrame m m' bb bo (cap * esz) pa cap eb eo esz ∧
      (∀ j, j < cap → eb = bb → eo = bo + j * esz → slice (m'.bytes bb) eo esz =
        if pre.length < j ∧ j < pre.length + post.length then slice (m.bytes bb) (bo + (j + 1) * esz) esz else x.2) := by
  have hhigh := highest_at h hpre hpost
  have hcl := h.cap_lt
  have hb := h.hlen
  have hle := h.size_le
  have hsz := h.size_eq
  simp only [List.length_append, List.length_cons] at hle hsz
  have hprl : pre.length < cap := by omega
  have hmul : (BitVec.ofNat 32 pre.length * q.element_size).toNat = pre.length * esz :=
    mul_toNat (ofNat_toNat (by omega)) h.hes hprl h.lim
  have hsl := slot_le esz hprl
  have hcpy := memcpy_ok (b := eb) (o := eo) (b' := bb) (o' := bo + pre.length * esz) (n := esz) (m := m)
    he (by omega) (by omega)
  rw [h.content pre.length x (by simp)] at hcpy
  have hxl : x.2.length = esz := by
    rw [← h.content pre.length x (by simp)]; exact slice_length _ _ _ (by omega)
  have hr1 := patch_rep h (eb := eb) (eo := eo) (x := x.2) (by omega)
  rw [itemsOverlay_split] at hr1
  have hpl : (itemsOverlay esz bb bo 0 pre eb eo x.2).length = pre.length := by simp [itemsOverlay]
  set m1 := m.upd eb (splice (m.bytes eb) eo x.2) with hm1
  obtain ⟨m', h1, h2, h3⟩ := shift_rep hr1
  rw [hpl] at h1
  have hs1 : (q.size - 1#32).toNat = pre.length + post.length := by
    rw [BitVec.toNat_sub]; simp only [BitVec.toNat_ofNat]; omega
  have hs2 : q.size - 1#32 = BitVec.ofNat 32 (pre.length + post.length) := by
    apply BitVec.eq_of_toNat_eq; rw [hs1, ofNat_toNat (by omega)]
  obtain ⟨m'', g1, -, -, g4⟩ := shiftDown_ok (q := { q with size := q.size - 1#32 }) h.hbuf h.hpa h.hes
    h.lim hcl hr1.hlen hr1.hwlen pre.length (pre.length + post.length) (by omega) (by omega)
  have : m'' = m' := by
    rw [hs2, ] at h1
    rw [hs2] at g1
    rw [h1] at g1
    simpa using g1.symm
  subst this
  refine ⟨{ q with size := q.size - 1#32 }, m'', ?_, h3, ?_, ?_⟩
  · unfold dequeue
    rw [h.empty_iff, decide_eq_false (by simp)]
    simp only [Bool.not_false, if_true, C.bind_run, hhigh, h.hbuf, ptr_addN, hmul, h.hes, hcpy, C.pure_run]
    simp only [h.hbuf] at h1
    rw [h1]
  · refine frame_trans ?_ (frame_weaken h2)
    refine ⟨fun _ _ => rfl, rfl, fun _ _ => rfl, ?_, ?_⟩
    · intro y
      rw [hm1, Mem.upd_bytes]; split
      · subst y; rw [splice_length _ _ _ (by omega)]
      · rfl
    · intro y i _ hy
      rw [hm1, Mem.upd_bytes]; split
      · subst y
        rw [getElem?_splice _ _ _ (by omega)]
        split_ifs <;> first | rfl | (exfalso; omega)
      · rfl
  · rintro j hj rfl rfl
    rw [g4 j hj]
    have hne' : j ≠ pre.length := by
      rintro rfl
      have := h.esz_pos; omega
    have hsj := slot_le esz hj
    by_cases hj2 : pre.length < j ∧ j < pre.length + post.length
    · rw [if_pos hj2, if_pos (by omega)]
      have hd := slot_disj esz (show j + 1 ≠ j by omega)
      rw [hm1, Mem.upd_bytes, if_pos rfl, slice_splice_disj _ _ _ _ _ (by omega) (by omega)]
    · rw [if_neg hj2, if_neg (by omega), hm1, Mem.upd_bytes, if_pos rfl]
      have := slice_splice_same (m.bytes eb) (bo + j * esz) x.2 (by omega)
      rw [hxl] at this
      exact this

theorem clash_deq (h : Rep cap esz bb bo pa q m (pre ++ x :: post)) (hpre : ∀ y ∈ pre, y.1 < x.1)
    (hpost : ∀ y ∈ post, y.1 ≤ x.1) {eo : Nat}
    (hcl : eo < bo + pre.length * esz + esz ∧ bo + pre.length * esz < eo + esz) :
    dequeue q (ptr bb eo) m = .ub .overlap := by
  have hle := h.size_le
  simp only [List.length_append, List.length_cons] at hle
  have hcl' := h.cap_lt
  have hmul : (BitVec.ofNat 32 pre.length * q.element_size).toNat = pre.length * esz :=
    mul_toNat (ofNat_toNat (by omega)) h.hes (show pre.length < cap by omega) h.lim
  unfold dequeue
  rw [h.empty_iff, decide_eq_false (by simp)]
  simp only [Bool.not_false, if_true, C.bind_run, highest_at h hpre hpost, h.hbuf, ptr_addN, hmul, h.hes,
    memcpy_clash hcl]

end
end
end PQ
end IMU
