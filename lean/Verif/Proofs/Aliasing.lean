import Verif.Proofs.QueueHistory
import Verif.Proofs.PriorityQueueHistory

/-! # Enqueueing an entry from the container's own storage -/

namespace IMU

/-- Copying an object of at least one byte onto itself. -/
theorem memcpy_self {b o n : Nat} {m : Mem} (hn : 0 < n) :
    memcpy (ptr b o) (ptr b o) n m = .ub .overlap := by
  have hov : overlaps (ptr b o) (ptr b o) n = true := by
    unfold overlaps ptr; simp; omega
  unfold memcpy; rw [if_pos hov]; rfl

/-- The computation leaves the `uint32_t` array `pb` alone. -/
def KeepsW {α : Type} (pb : Nat) (c : C α) : Prop :=
  ∀ m v m', c m = .ok v m' → m'.words pb = m.words pb

theorem KeepsW.bind {α β : Type} {pb : Nat} {c : C α} {f : α → C β} (h : KeepsW pb c) (hf : ∀ v, KeepsW pb (f v)) :
    KeepsW pb (c >>= f) := by
  intro m v m' he
  rw [C.bind_run] at he
  cases hc : c m with
  | ub e => rw [hc] at he; simp at he
  | ok u m1 =>
    rw [hc] at he
    exact (hf u m1 v m' he).trans (h m u m1 hc)

theorem KeepsW.pure {α : Type} (pb : Nat) (x : α) : KeepsW pb (pure x : C α) := by
  intro m v m' he
  rw [C.pure_run] at he
  simp only [Res.ok.injEq] at he
  rw [he.2]

theorem KeepsW.forN {σ : Type} {pb : Nat} {body : Nat → σ → C σ} (h : ∀ i s, KeepsW pb (body i s)) (n : Nat) :
    ∀ i s, KeepsW pb (forN n i body s) := by
  induction n with
  | zero => intro i s; exact KeepsW.pure pb s
  | succ n ih => intro i s; exact KeepsW.bind (h i s) (fun v => ih (i + 1) v)

theorem KeepsW.loadW (pb b i : Nat) : KeepsW pb (loadW b i) := by
  intro m v m' he
  unfold IMU.loadW at he
  split at he <;> simp at he
  rw [he.2]

theorem KeepsW.storeW {pb b : Nat} (hb : pb ≠ b) (i : Nat) (v : U32) : KeepsW pb (storeW b i v) := by
  intro m u m' he
  unfold IMU.storeW at he
  split at he <;> simp at he
  rw [← he, Mem.updW_words, if_neg hb]

theorem KeepsW.loadN (pb : Nat) (p : Ptr) (n : Nat) : KeepsW pb (loadN p n) := by
  intro m v m' he
  unfold IMU.loadN at he
  split_ifs at he <;> simp at he <;> rw [he.2]

theorem KeepsW.storeN (pb : Nat) (p : Ptr) (s : List Byte) : KeepsW pb (storeN p s) := by
  intro m v m' he
  unfold IMU.storeN at he
  split_ifs at he <;> simp at he <;> rw [← he]
  rfl

theorem KeepsW.memcpy (pb : Nat) (d s : Ptr) (n : Nat) : KeepsW pb (memcpy d s n) := by
  unfold IMU.memcpy
  split
  · intro m u m' he; simp [C.ub] at he
  · exact KeepsW.bind (KeepsW.loadN _ _ _) fun _ => KeepsW.storeN _ _ _

end IMU

namespace IMU.PQ
open Spec Utils
open IMU.Queue (slot_le slot_disj slot_lt mul_toNat)

section
variable {cap esz bb bo pa : Nat} {q : PQueue} {m : Mem} {xs : List PItem}

/-- One copy, one read through the priority pointer, one store. -/
theorem append_own (h : Rep cap esz bb bo pa q m xs) (hroom : xs.length < cap) {i : Nat} {x : PItem}
    (hx : xs[i]? = some x) :
    ∃ m', (do
        memcpy (q.buffer.addN (q.size * q.element_size).toNat) (ptr bb (bo + i * esz)) q.element_size.toNat
        let priority ← loadW pa i
        storeW q.priority_array q.size.toNat priority : C Unit) m = .ok () m' ∧
      Rep cap esz bb bo pa { q with size := q.size + 1#32 } m' (xs ++ [x]) := by
  have hi : i < xs.length := (List.getElem?_eq_some_iff.1 hx).1
  have hsl := slot_le esz (show i < cap by omega)
  have hb := h.hlen
  have hd := slot_disj esz (show i ≠ xs.length by omega)
  obtain ⟨m', h1, -, h3⟩ := append_rep h hroom x.1 bb (bo + i * esz) (by omega) (by omega)
  rw [h.content i x hx] at h3
  refine ⟨m', ?_, h3⟩
  simp only [C.bind_run] at h1 ⊢
  cases hm : memcpy (q.buffer.addN (q.size * q.element_size).toNat) (ptr bb (bo + i * esz))
      q.element_size.toNat m with
  | ub e => rw [hm] at h1; simp at h1
  | ok v m1 =>
    have hw : m1.words = m.words := by
      rw [h.hbuf, ptr_addN, h.hes, mul_toNat h.size_eq h.hes hroom h.lim] at hm
      rw [memcpy_ok (by have := slot_le esz hroom; omega) (by omega) (by omega)] at hm
      simp only [Res.ok.injEq] at hm
      rw [← hm.2]; rfl
    rw [hm] at h1; simp only at h1 ⊢
    rw [loadW_ok (v := x.1) (by rw [hw]; exact h.prio i x hx)]
    exact h1

theorem own_room (h : Rep cap esz bb bo pa q m xs) (hroom : xs.length < cap) {i : Nat} {x : PItem}
    (hx : xs[i]? = some x) :
    ∃ q' m', enqueueItem q (ptr bb (bo + i * esz)) pa i m = .ok (true, q') m' ∧
      Rep cap esz bb bo pa q' m' (xs ++ [x]) := by
  obtain ⟨m', h1, h2⟩ := append_own h hroom hx
  refine ⟨{ q with size := q.size + 1#32 }, m', ?_, h2⟩
  unfold enqueueItem
  rw [h.full_iff, decide_eq_false (by omega)]
  simp only [Bool.not_false, if_true, C.bind_run, C.pure_run] at h1 ⊢
  cases hm : memcpy (q.buffer.addN (q.size * q.element_size).toNat) (ptr bb (bo + i * esz))
      q.element_size.toNat m with
  | ub e => rw [hm] at h1; simp at h1
  | ok v m1 =>
    rw [hm] at h1; simp only at h1 ⊢
    cases hl : loadW pa i m1 with
    | ub e => rw [hl] at h1; simp at h1
    | ok p m2 => rw [hl] at h1; simp only at h1 ⊢; rw [h1]

theorem own_reject (h : Rep cap esz bb bo pa q m xs) (hfull : xs.length = cap) {i : Nat} {x : PItem}
    (hx : xs[i]? = some x) (hmin : ∀ y ∈ xs, x.1 ≤ y.1) (el : Ptr) :
    enqueueItem q el pa i m = .ok (false, q) m := by
  have hcp := h.cap_pos
  obtain ⟨pre, lo, post, rfl, hpre, hpost, hlow⟩ := lowest_ok h (by intro h0; rw [h0] at hfull; simp at hfull; omega)
  have hld : loadW q.priority_array (BitVec.ofNat 32 pre.length).toNat m = .ok lo.1 m := by
    have := h.cap_lt
    rw [ofNat_toNat (by simp at hfull; omega), h.hpa]
    exact loadW_ok (h.prio _ lo (by simp))
  have hli : loadW pa i m = .ok x.1 m := loadW_ok (h.prio i x hx)
  have hlt : ¬ lo.1 < x.1 := by
    have := hmin lo (by simp)
    simp only [BitVec.le_def, BitVec.lt_def] at *; omega
  unfold enqueueItem
  rw [h.full_iff, decide_eq_true hfull]
  simp only [Bool.not_true, Bool.false_eq_true, if_false, C.bind_run, hlow, hld, hli, if_neg hlt, C.pure_run]

theorem split_unique {pre pre' post post' : List PItem} {x x' : PItem}
    (he : pre ++ x :: post = pre' ++ x' :: post') (h1 : ∀ y ∈ pre, x.1 < y.1) (h2 : ∀ y ∈ post, x.1 ≤ y.1)
    (h1' : ∀ y ∈ pre', x'.1 < y.1) (h2' : ∀ y ∈ post', x'.1 ≤ y.1) : pre = pre' ∧ x = x' ∧ post = post' := by
  have main : ∀ {a b c d : List PItem} {u v : PItem}, a ++ u :: b = c ++ v :: d → (∀ y ∈ c, v.1 < y.1) →
      (∀ y ∈ b, u.1 ≤ y.1) → c.length ≤ a.length := by
    intro a b c d u v e g1 g2
    by_contra hlt
    have hu : (c ++ v :: d)[a.length]? = some u := by rw [← e]; simp
    rw [List.getElem?_append_left (by omega)] at hu
    have hv : (a ++ u :: b)[c.length]? = some v := by rw [e]; simp
    rw [List.getElem?_append_right (by omega), show c.length - a.length = (c.length - a.length - 1) + 1 by omega,
      List.getElem?_cons_succ] at hv
    have a1 := g1 u (List.mem_of_getElem? hu)
    have a2 := g2 v (List.mem_of_getElem? hv)
    simp only [BitVec.le_def, BitVec.lt_def] at *; omega
  have hl : pre.length = pre'.length := Nat.le_antisymm (main he.symm h1 h2') (main he h1' h2)
  obtain ⟨a, b⟩ := List.append_inj he hl
  simp only [List.cons.injEq] at b
  exact ⟨a, b.1, b.2⟩

/-- The three outcomes for a full queue whose oldest lowest entry is below the enqueued one. -/
theorem own_full {pre post : List PItem} {lo : PItem} (h : Rep cap esz bb bo pa q m (pre ++ lo :: post))
    (hfull : (pre ++ lo :: post).length = cap) (hpre : ∀ y ∈ pre, lo.1 < y.1) (hpost : ∀ y ∈ post, lo.1 ≤ y.1)
    {i : Nat} {x : PItem} (hx : (pre ++ lo :: post)[i]? = some x) (hlt : lo.1 < x.1) :
    (∀ y, (pre ++ post)[i]? = some y →
      ∃ q' m', enqueueItem q (ptr bb (bo + i * esz)) pa i m = .ok (true, q') m' ∧
        Rep cap esz bb bo pa q' m' (pre ++ post ++ [y])) ∧
    (i + 1 = cap → enqueueItem q (ptr bb (bo + i * esz)) pa i m = .ub .overlap) := by
  have hcp := h.cap_pos
  have hcl := h.cap_lt
  have hes := h.esz_pos
  obtain ⟨pre', lo', post', he, hpre', hpost', hlow⟩ := lowest_ok h (by simp)
  obtain ⟨rfl, rfl, rfl⟩ := split_unique he hpre hpost hpre' hpost'
  have hld : loadW q.priority_array (BitVec.ofNat 32 pre.length).toNat m = .ok lo.1 m := by
    rw [ofNat_toNat (by simp at hfull; omega), h.hpa]
    exact loadW_ok (h.prio _ lo (by simp))
  have hli : loadW pa i m = .ok x.1 m := loadW_ok (h.prio i x hx)
  obtain ⟨m1, h1, h2, h3⟩ := shift_rep h
  have hroom : (pre ++ post).length < cap := by simp at hfull ⊢; omega
  constructor
  · intro y hy
    obtain ⟨m', g1, g2⟩ := append_own h3 hroom hy
    refine ⟨_, m', ?_, g2⟩
    unfold enqueueItem
    rw [h.full_iff, decide_eq_true hfull]
    simp only [Bool.not_true, Bool.false_eq_true, if_false, C.bind_run, hlow, hld, hli, if_pos hlt, h1, C.pure_run]
    simp only [C.bind_run] at g1
    cases hm : memcpy (q.buffer.addN ((q.size - 1#32) * q.element_size).toNat) (ptr bb (bo + i * esz))
        q.element_size.toNat m1 with
    | ub e => rw [hm] at g1; simp at g1
    | ok v m2 =>
      rw [hm] at g1; simp only at g1 ⊢
      cases hl : loadW pa i m2 with
      | ub e => rw [hl] at g1; simp at g1
      | ok p m3 => rw [hl] at g1; simp only at g1 ⊢; rw [g1]
  · intro hi
    have hil : (pre ++ post).length = i := by simp at hfull ⊢; omega
    have hs := h3.size_eq
    rw [hil] at hs
    have hmul : ((q.size - 1#32) * q.element_size).toNat = i * esz :=
      mul_toNat hs h.hes (show i < cap by omega) h.lim
    have hb := h3.hlen
    have hsl := slot_le esz (show i < cap by omega)
    have hcpy := memcpy_self (b := bb) (o := bo + i * esz) (n := esz) (m := m1) hes
    unfold enqueueItem
    rw [h.full_iff, decide_eq_true hfull]
    simp only [Bool.not_true, Bool.false_eq_true, if_false, C.bind_run, hlow, hld, hli, if_pos hlt, h1]
    simp only [h.hbuf, ptr_addN, hmul, h.hes, hcpy]

end

/-- Reading the priority through a pointer outside the queue's priority array, or with room left, is the same as
passing its value. -/
theorem enqueueItem_eq (q : PQueue) (el : Ptr) (pb pi : Nat) (v : U32) (m : Mem)
    (hv : (m.words pb)[pi]? = some v) (h : pb ≠ q.priority_array ∨ full q = false) :
    enqueueItem q el pb pi m = enqueue q el v m := by
  have hl : ∀ m' : Mem, m'.words pb = m.words pb → loadW pb pi m' = .ok v m' := fun m' he =>
    loadW_ok (by rw [he]; exact hv)
  unfold enqueueItem enqueue
  cases hf : full q with
  | false =>
    simp only [Bool.not_false, if_true, C.bind_run]
    cases hm : memcpy (q.buffer.addN (q.size * q.element_size).toNat) el q.element_size.toNat m with
    | ub e => rfl
    | ok u m1 => simp only; rw [hl m1 (KeepsW.memcpy pb _ _ _ _ _ _ hm)]
  | true =>
    have hne : pb ≠ q.priority_array := by
      rcases h with h | h
      · exact h
      · rw [hf] at h; simp at h
    simp only [Bool.not_true, Bool.false_eq_true, if_false, C.bind_run]
    have hlow : KeepsW pb (getLowestPriorityIndex q) := by
      unfold getLowestPriorityIndex
      refine KeepsW.bind (KeepsW.loadW _ _ _) fun p0 => KeepsW.bind (KeepsW.forN (fun i s => ?_) _ _ _) fun r =>
        KeepsW.pure pb _
      refine KeepsW.bind (KeepsW.loadW _ _ _) fun p => ?_
      split <;> exact KeepsW.pure pb _
    have hsh : ∀ lowest : U32, KeepsW pb (shiftDown { q with size := q.size - 1#32 } lowest (q.size - 1#32)) := by
      intro lowest
      unfold shiftDown
      exact KeepsW.forN (fun i s => KeepsW.bind (KeepsW.memcpy _ _ _ _) fun _ => KeepsW.bind (KeepsW.loadW _ _ _) fun p =>
        KeepsW.storeW hne _ _) _ _ _
    cases h1 : getLowestPriorityIndex q m with
    | ub e => rfl
    | ok lowest m1 =>
      simp only
      have k1 := hlow _ _ _ h1
      cases h2 : loadW q.priority_array lowest.toNat m1 with
      | ub e => rfl
      | ok p m2 =>
        simp only
        have k2 := (KeepsW.loadW pb _ _ _ _ _ h2).trans k1
        rw [hl m2 k2]
        simp only
        by_cases hp : p < v
        · simp only [if_pos hp, C.bind_run]
          cases h3 : shiftDown { q with size := q.size - 1#32 } lowest (q.size - 1#32) m2 with
          | ub e => rfl
          | ok u m3 =>
            simp only
            have k3 := (hsh _ _ _ _ h3).trans k2
            cases h4 : memcpy (q.buffer.addN ((q.size - 1#32) * q.element_size).toNat) el q.element_size.toNat m3 with
            | ub e => rfl
            | ok u m4 => simp only; rw [hl m4 ((KeepsW.memcpy pb _ _ _ _ _ _ h4).trans k3)]
        · simp only [if_neg hp]

end IMU.PQ
