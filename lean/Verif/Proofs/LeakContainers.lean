import Verif.Model.LeakContainers
import Verif.Proofs.LeakVernam
import Verif.Spec.LeakContainers

/-!
# Containers with an observer
-/

namespace IMU
open T

/-! ### Without the observer -/

theorem erase_memcpy (d s : Ptr) (n : Nat) : erase (memcpyT d s n) = memcpy d s n := by
  unfold memcpyT; rw [erase_emit_bind, erase_quiet]

theorem erase_memeq (p q : Ptr) (n : Nat) : erase (memeqT p q n) = memeq p q n := by
  unfold memeqT memeq
  simp only [erase_bind, erase_quiet, erase_pure]
  rfl

theorem commonLen_eq : ∀ s t : List Byte, commonLen s t = Spec.Leak.agree s t
  | [], _ => by simp [commonLen, Spec.Leak.agree]
  | _ :: _, [] => by simp [commonLen, Spec.Leak.agree]
  | a :: s, b :: t => by
    unfold commonLen Spec.Leak.agree
    rw [commonLen_eq s t]

theorem erase_loadW (b i : Nat) : erase (loadWT b i) = loadW b i := by
  unfold loadWT; rw [erase_emit_bind, erase_quiet]

theorem erase_storeW (b i : Nat) (v : U32) : erase (storeWT b i v) = storeW b i v := by
  unfold storeWT; rw [erase_emit_bind, erase_quiet]

namespace Queue

theorem erase_enqueue (q : Option Queue) (el : Option Ptr) : erase (enqueueT q el) = enqueue q el := by
  unfold enqueueT enqueue
  cases q with
  | none => rfl
  | some q => cases el with
    | none => rfl
    | some el =>
      simp only [erase_branch, pure_bind_C, erase_ite, erase_bind, erase_quiet, erase_memcpy, erase_pure]

theorem erase_dequeue (q : Option Queue) (el : Option Ptr) : erase (dequeueT q el) = dequeue q el := by
  unfold dequeueT dequeue
  cases q with
  | none => rfl
  | some q => cases el with
    | none => rfl
    | some el =>
      simp only [erase_branch, pure_bind_C, erase_ite, erase_bind, erase_quiet, erase_memcpy, erase_pure]

theorem erase_front (q : Option Queue) (el : Option Ptr) : erase (frontT q el) = front q el := by
  unfold frontT front
  cases q with
  | none => rfl
  | some q => cases el with
    | none => rfl
    | some el =>
      simp only [erase_branch, pure_bind_C, erase_ite, erase_bind, erase_memcpy, erase_pure]

theorem erase_rear (q : Option Queue) (el : Option Ptr) : erase (rearT q el) = rear q el := by
  unfold rearT rear
  cases q with
  | none => rfl
  | some q => cases el with
    | none => rfl
    | some el =>
      simp only [erase_branch, pure_bind_C, erase_ite, erase_bind, erase_memcpy, erase_pure]

end Queue

namespace PQ

theorem erase_highest (q : PQueue) : erase (getHighestPriorityIndexT q) = getHighestPriorityIndex q := by
  unfold getHighestPriorityIndexT getHighestPriorityIndex
  simp only [erase_branch, pure_bind_C, erase_ite, erase_bind, erase_loadW, erase_pure, erase_forNT, decide_eq_true_eq]

theorem erase_lowest (q : PQueue) : erase (getLowestPriorityIndexT q) = getLowestPriorityIndex q := by
  unfold getLowestPriorityIndexT getLowestPriorityIndex
  simp only [erase_branch, pure_bind_C, erase_ite, erase_bind, erase_loadW, erase_pure, erase_forNT, decide_eq_true_eq]

theorem erase_shift (q : PQueue) (i n : U32) : erase (shiftDownT q i n) = shiftDown q i n := by
  unfold shiftDownT shiftDown
  simp only [erase_bind, erase_loadW, erase_storeW, erase_memcpy, erase_forNT]

theorem erase_enqueue (q : PQueue) (el : Ptr) (p : U32) : erase (enqueueT q el p) = enqueue q el p := by
  unfold enqueueT enqueue
  simp only [erase_branch, pure_bind_C, erase_ite, erase_bind, erase_loadW, erase_storeW, erase_memcpy, erase_pure, erase_lowest,
    erase_shift, decide_eq_true_eq]

theorem erase_dequeue (q : PQueue) (el : Ptr) : erase (dequeueT q el) = dequeue q el := by
  unfold dequeueT dequeue
  simp only [erase_branch, pure_bind_C, erase_ite, erase_bind, erase_memcpy, erase_pure, erase_highest, erase_shift]

end PQ

namespace Map

theorem erase_loop (map : MapT) (key : Ptr) (n : Nat) : ∀ i,
    erase (getIndexLoopT map key n i) = getIndexLoop map key n i := by
  induction n with
  | zero => intro i; rfl
  | succ n ih =>
    intro i
    simp only [getIndexLoopT, getIndexLoop, erase_branch, pure_bind_C, erase_bind, erase_quiet, erase_memeq, erase_ite, erase_pure, ih]

theorem erase_insert (map : Option MapT) (key value : Ptr) : erase (insertT map key value) = insert map key value := by
  cases map with
  | none => rfl
  | some map =>
    simp only [insertT, insert, getIndexT, getIndex, erase_bind, erase_branch, pure_bind_C, erase_ite, erase_quiet, erase_memcpy,
      erase_pure, erase_loop, decide_eq_true_eq]

theorem erase_getValue (map : Option MapT) (key value : Ptr) : erase (getValueT map key value) = getValue map key value := by
  cases map with
  | none => rfl
  | some map =>
    simp only [getValueT, getValue, getIndexT, getIndex, erase_bind, erase_branch, pure_bind_C, erase_ite, erase_quiet, erase_memcpy,
      erase_pure, erase_loop, decide_eq_true_eq]

end Map

/-! ### Two runs side by side -/

/-- Lemma support: two runs fail in the same way, or show the same and end in related states. -/
def Alike {α β : Type} (R : α → β → Mem → Mem → Prop) : Res (α × List Leak) → Res (β × List Leak) → Prop
  | .ok (a, t) m, .ok (b, u) m2 => t = u ∧ R a b m m2
  | .ub e, .ub e2 => e = e2
  | _, _ => False

theorem Alike.bind {α β γ δ : Type} {R : α → β → Mem → Mem → Prop} {R2 : γ → δ → Mem → Mem → Prop} {x : T α} {y : T β}
    {f : α → T γ} {g : β → T δ} {m m2 : Mem} (h : Alike R (x m) (y m2))
    (hf : ∀ a b m m2, R a b m m2 → Alike R2 (f a m) (g b m2)) : Alike R2 ((x >>= f) m) ((y >>= g) m2) := by
  change Alike R2 (T.bind x f m) (T.bind y g m2)
  unfold T.bind
  cases hx : x m with
  | ub e =>
    cases hy : y m2 with
    | ub e2 => rw [hx, hy] at h; exact h
    | ok bu m2' => rw [hx, hy] at h; exact h.elim
  | ok at' m' =>
    cases hy : y m2 with
    | ub e2 => rw [hx, hy] at h; exact h.elim
    | ok bu m2' =>
      obtain ⟨a, t⟩ := at'
      obtain ⟨b, u⟩ := bu
      rw [hx, hy] at h
      obtain ⟨rfl, hr⟩ := h
      have := hf a b m' m2' hr
      simp only
      cases hfa : f a m' with
      | ub e =>
        cases hgb : g b m2' with
        | ub e2 => rw [hfa, hgb] at this; exact this
        | ok bu m3 => rw [hfa, hgb] at this; exact this.elim
      | ok at' m3 =>
        cases hgb : g b m2' with
        | ub e2 => rw [hfa, hgb] at this; exact this.elim
        | ok bu m4 =>
          obtain ⟨c, t2⟩ := at'
          obtain ⟨d, u2⟩ := bu
          rw [hfa, hgb] at this
          obtain ⟨rfl, hr2⟩ := this
          exact ⟨rfl, hr2⟩

theorem Alike.pure {α β : Type} {R : α → β → Mem → Mem → Prop} {a : α} {b : β} {m m2 : Mem} (h : R a b m m2) :
    Alike R ((Pure.pure a : T α) m) ((Pure.pure b : T β) m2) := ⟨rfl, h⟩

theorem Alike.branch {α β : Type} {R : α → β → Mem → Mem → Prop} {c d : Bool} {f : Bool → T α} {g : Bool → T β}
    {m m2 : Mem} (hc : c = d) (h : Alike R (f c m) (g c m2)) : Alike R ((T.branch c >>= f) m) ((T.branch d >>= g) m2) := by
  subst hc
  exact Alike.bind (R := fun a b m' m2' => a = c ∧ b = c ∧ m' = m ∧ m2' = m2) ⟨rfl, rfl, rfl, rfl, rfl⟩
    fun a b m' m2' h' => by obtain ⟨rfl, rfl, rfl, rfl⟩ := h'; exact h

theorem Alike.mono {α β : Type} {R R2 : α → β → Mem → Mem → Prop} {r : Res (α × List Leak)} {s : Res (β × List Leak)}
    (h : Alike R r s) (hm : ∀ a b m m2, R a b m m2 → R2 a b m m2) : Alike R2 r s := by
  cases r with
  | ub e => cases s with
    | ub e2 => exact h
    | ok _ _ => exact h.elim
  | ok at' m => cases s with
    | ub e2 => exact h.elim
    | ok bu m2 => exact ⟨h.1, hm _ _ _ _ h.2⟩

/-- Lemma support: all objects have the same sizes. -/
def Shape (m m2 : Mem) : Prop :=
  (∀ b, (m.bytes b).length = (m2.bytes b).length) ∧ ∀ b, (m.words b).length = (m2.words b).length

theorem splice_len {α : Type} {l s : List α} {i : Nat} (h : i + s.length ≤ l.length) : (splice l i s).length = l.length := by
  unfold splice
  simp only [List.length_append, List.length_take, List.length_drop]
  omega

theorem slice_len {α : Type} {l : List α} {i n : Nat} (h : i + n ≤ l.length) : (slice l i n).length = n := by
  unfold slice
  simp only [List.length_take, List.length_drop]
  omega

/-- What `memcpy` does: it fails, does nothing, or replaces one byte object by one of the same size. -/
theorem memcpy_alike {d s : Ptr} {n : Nat} {m m2 : Mem} (h : Shape m m2) :
    Alike (fun _ _ m' m2' => Shape m' m2' ∧ m'.words = m.words ∧ m2'.words = m2.words) (memcpyT d s n m) (memcpyT d s n m2) := by
  refine Alike.bind (R := fun _ _ m' m2' => m' = m ∧ m2' = m2) ⟨rfl, rfl, rfl⟩ ?_
  rintro _ _ m m2 ⟨rfl, rfl⟩
  unfold T.quiet memcpy
  by_cases ho : overlaps d s n = true
  · rw [if_pos ho]; exact rfl
  rw [if_neg ho, C.bind_run, C.bind_run]
  unfold loadN
  by_cases hn : n = 0
  · simp only [if_pos hn]
    exact ⟨rfl, h, rfl, rfl⟩
  simp only [if_neg hn]
  rw [← h.1 s.blk]
  by_cases hs : 0 ≤ s.off ∧ s.off + n ≤ (m.bytes s.blk).length
  · rw [if_pos hs, if_pos hs]
    simp only
    have l1 : (slice (m.bytes s.blk) s.off.toNat n).length = n := slice_len (by omega)
    have l2 : (slice (m2.bytes s.blk) s.off.toNat n).length = n := slice_len (by rw [← h.1]; omega)
    unfold storeN
    have n1 : ¬ slice (m.bytes s.blk) s.off.toNat n = [] := fun e => hn (by rw [← l1, e]; rfl)
    have n2 : ¬ slice (m2.bytes s.blk) s.off.toNat n = [] := fun e => hn (by rw [← l2, e]; rfl)
    rw [if_neg n1, if_neg n2, l1, l2, ← h.1 d.blk]
    by_cases hd : 0 ≤ d.off ∧ d.off + n ≤ (m.bytes d.blk).length
    · rw [if_pos hd, if_pos hd]
      refine ⟨rfl, ⟨fun b => ?_, h.2⟩, rfl, rfl⟩
      rw [Mem.upd_bytes, Mem.upd_bytes]
      by_cases hb : b = d.blk
      · rw [if_pos hb, if_pos hb, splice_len (by omega), splice_len (by rw [← h.1]; omega)]
        exact h.1 _
      · rw [if_neg hb, if_neg hb]; exact h.1 b
    · rw [if_neg hd, if_neg hd]; exact rfl
  · rw [if_neg hs, if_neg hs]; exact rfl

theorem require_alike {c : Prop} [Decidable c] {e : UB} {m m2 : Mem} :
    Alike (fun _ _ m' m2' => m' = m ∧ m2' = m2) (T.quiet (C.require c e) m) (T.quiet (C.require c e) m2) := by
  unfold C.require
  split
  · exact ⟨rfl, rfl, rfl⟩
  · exact rfl

namespace Queue

/-- Lemma support: the same answers, and memories of the same shape. -/
abbrev Same (α : Type) : α → α → Mem → Mem → Prop := fun a b m m2 => a = b ∧ Shape m m2

theorem enqueue_alike {q : Option Queue} {el : Option Ptr} {m m2 : Mem} (h : Shape m m2) :
    Alike (Same _) (enqueueT q el m) (enqueueT q el m2) := by
  unfold enqueueT
  cases q with
  | none => exact Alike.pure ⟨rfl, h⟩
  | some q => cases el with
    | none => exact Alike.pure ⟨rfl, h⟩
    | some el =>
      refine Alike.branch rfl ?_
      split
      · refine Alike.bind require_alike ?_
        rintro _ _ _ _ ⟨rfl, rfl⟩
        refine Alike.bind (memcpy_alike h) ?_
        rintro _ _ _ _ ⟨h, -⟩
        exact Alike.pure ⟨rfl, h⟩
      · exact Alike.pure ⟨rfl, h⟩

theorem dequeue_alike {q : Option Queue} {el : Option Ptr} {m m2 : Mem} (h : Shape m m2) :
    Alike (Same _) (dequeueT q el m) (dequeueT q el m2) := by
  unfold dequeueT
  cases q with
  | none => exact Alike.pure ⟨rfl, h⟩
  | some q => cases el with
    | none => exact Alike.pure ⟨rfl, h⟩
    | some el =>
      refine Alike.branch rfl ?_
      split
      · refine Alike.bind (memcpy_alike h) ?_
        rintro _ _ _ _ ⟨h, -⟩
        refine Alike.bind require_alike ?_
        rintro _ _ _ _ ⟨rfl, rfl⟩
        exact Alike.pure ⟨rfl, h⟩
      · exact Alike.pure ⟨rfl, h⟩

theorem front_alike {q : Option Queue} {el : Option Ptr} {m m2 : Mem} (h : Shape m m2) :
    Alike (Same _) (frontT q el m) (frontT q el m2) := by
  unfold frontT
  cases q with
  | none => exact Alike.pure ⟨rfl, h⟩
  | some q => cases el with
    | none => exact Alike.pure ⟨rfl, h⟩
    | some el =>
      refine Alike.branch rfl ?_
      split
      · refine Alike.bind (memcpy_alike h) ?_
        rintro _ _ _ _ ⟨h, -⟩
        exact Alike.pure ⟨rfl, h⟩
      · exact Alike.pure ⟨rfl, h⟩

theorem rear_alike {q : Option Queue} {el : Option Ptr} {m m2 : Mem} (h : Shape m m2) :
    Alike (Same _) (rearT q el m) (rearT q el m2) := by
  unfold rearT
  cases q with
  | none => exact Alike.pure ⟨rfl, h⟩
  | some q => cases el with
    | none => exact Alike.pure ⟨rfl, h⟩
    | some el =>
      refine Alike.branch rfl ?_
      split
      · refine Alike.bind (memcpy_alike h) ?_
        rintro _ _ _ _ ⟨h, -⟩
        exact Alike.pure ⟨rfl, h⟩
      · exact Alike.pure ⟨rfl, h⟩

theorem call_alike {q : Option Queue} {c : Call} {m m2 : Mem} (h : Shape m m2) :
    Alike (Same _) (callT q c m) (callT q c m2) := by
  cases c with
  | enqueue el => exact enqueue_alike h
  | dequeue el => exact dequeue_alike h
  | front el =>
    refine Alike.bind (front_alike h) ?_
    rintro _ _ _ _ ⟨rfl, h⟩
    exact Alike.pure ⟨rfl, h⟩
  | rear el =>
    refine Alike.bind (rear_alike h) ?_
    rintro _ _ _ _ ⟨rfl, h⟩
    exact Alike.pure ⟨rfl, h⟩

theorem calls_alike (l : List Call) : ∀ {q : Option Queue} {m m2 : Mem}, Shape m m2 →
    Alike (Same _) (callsT l q m) (callsT l q m2) := by
  induction l with
  | nil => intro q m m2 h; exact Alike.pure ⟨rfl, h⟩
  | cons c l ih =>
    intro q m m2 h
    refine Alike.bind (call_alike h) ?_
    rintro r _ _ _ ⟨rfl, h⟩
    refine Alike.bind (ih h) ?_
    rintro r _ _ _ ⟨rfl, h⟩
    exact Alike.pure ⟨rfl, h⟩

end Queue

namespace PQ
open Spec.Leak

/-- Lemma support: the first `n` priorities of the second run are the images of those of the first. -/
def Rel (S : U32 → Prop) (f : U32 → U32) (b n : Nat) (m m2 : Mem) : Prop :=
  Shape m m2 ∧ ∀ i, i < n → (m2.words b)[i]? = (m.words b)[i]?.map f ∧ ∀ w, (m.words b)[i]? = some w → S w

theorem Rel.le {S : U32 → Prop} {f : U32 → U32} {b n n' : Nat} {m m2 : Mem} (h : Rel S f b n m m2) (hn : n' ≤ n) :
    Rel S f b n' m m2 := ⟨h.1, fun i hi => h.2 i (by omega)⟩

theorem memcpy_rel {S : U32 → Prop} {f : U32 → U32} {b n k : Nat} {d s : Ptr} {m m2 : Mem} (h : Rel S f b n m m2) :
    Alike (fun _ _ m m2 => Rel S f b n m m2) (memcpyT d s k m) (memcpyT d s k m2) := by
  refine (memcpy_alike h.1).mono ?_
  rintro _ _ m' m2' ⟨h1, h2, h3⟩
  refine ⟨h1, ?_⟩
  rw [h2, h3]
  exact h.2

theorem loadW_rel {S : U32 → Prop} {f : U32 → U32} {b n i : Nat} {m m2 : Mem} (h : Rel S f b n m m2) (hi : i < n) :
    Alike (fun w w2 m m2 => w2 = f w ∧ S w ∧ Rel S f b n m m2) (loadWT b i m) (loadWT b i m2) := by
  refine Alike.bind (R := fun _ _ m' m2' => m' = m ∧ m2' = m2) ⟨rfl, rfl, rfl⟩ ?_
  rintro _ _ m m2 ⟨rfl, rfl⟩
  obtain ⟨h1, h2⟩ := h.2 i hi
  unfold T.quiet loadW
  rw [h1]
  cases hw : (m.words b)[i]? with
  | none => exact rfl
  | some w => exact ⟨rfl, rfl, h2 w hw, h⟩

theorem storeW_rel {S : U32 → Prop} {f : U32 → U32} {b n n' i : Nat} {w : U32} {m m2 : Mem} (h : Rel S f b n m m2)
    (hw : S w) (hn : n' ≤ n ∨ i = n ∧ n' = n + 1) :
    Alike (fun _ _ m m2 => Rel S f b n' m m2) (storeWT b i w m) (storeWT b i (f w) m2) := by
  refine Alike.bind (R := fun _ _ m' m2' => m' = m ∧ m2' = m2) ⟨rfl, rfl, rfl⟩ ?_
  rintro _ _ m m2 ⟨rfl, rfl⟩
  unfold T.quiet storeW
  rw [← h.1.2 b]
  by_cases hl : i < (m.words b).length
  · rw [if_pos hl, if_pos hl]
    refine ⟨rfl, ⟨h.1.1, fun x => ?_⟩, fun j hj => ?_⟩
    · show (if x = b then _ else _ : List U32).length = (if x = b then _ else _ : List U32).length
      split
      · rw [List.length_set, List.length_set]; exact h.1.2 b
      · exact h.1.2 x
    · show (if b = b then _ else _ : List U32)[j]? = (if b = b then _ else _ : List U32)[j]?.map f ∧
        ∀ w, (if b = b then _ else _ : List U32)[j]? = some w → S w
      rw [if_pos rfl, if_pos rfl]
      by_cases hji : i = j
      · subst hji
        rw [List.getElem?_set_self hl, List.getElem?_set_self (by rw [← h.1.2]; exact hl)]
        exact ⟨rfl, fun w' e => by cases e; exact hw⟩
      · rw [List.getElem?_set_ne hji, List.getElem?_set_ne hji]
        exact h.2 j (by omega)
  · rw [if_neg hl, if_neg hl]; exact rfl

variable {S : U32 → Prop} {f : U32 → U32}

theorem search_rel (hf : Keeps S f) {b n : Nat} {up : Bool} (k : Nat) : ∀ {i : Nat} {s s2 : U32 × U32} {m m2 : Mem},
    Rel S f b n m m2 → i + k ≤ n → s2.1 = f s.1 → s2.2 = s.2 → S s.1 →
    Alike (fun r r2 m m2 => r2.2 = r.2 ∧ (r.2 = s.2 ∨ r.2.toNat < n ∨ 2 ^ 32 ≤ n) ∧ Rel S f b n m m2)
      (forNT k i (fun i (s : U32 × U32) => do
        let p ← loadWT b i
        let c ← T.branch (if up then decide (s.1 < p) else decide (s.1 > p))
        if c then return (p, BitVec.ofNat 32 i) else return s) s m)
      (forNT k i (fun i (s : U32 × U32) => do
        let p ← loadWT b i
        let c ← T.branch (if up then decide (s.1 < p) else decide (s.1 > p))
        if c then return (p, BitVec.ofNat 32 i) else return s) s2 m2) := by
  induction k with
  | zero =>
    intro i s s2 m m2 h hi h1 h2 h3
    exact Alike.branch rfl (Alike.pure ⟨h2, .inl rfl, h⟩)
  | succ k ih =>
    intro i s s2 m m2 h hi h1 h2 h3
    refine Alike.branch rfl ?_
    refine Alike.bind (R := fun r r2 m m2 => r2.1 = f r.1 ∧ r2.2 = r.2 ∧ S r.1 ∧ (r.2 = s.2 ∨ r.2.toNat < n ∨ 2 ^ 32 ≤ n) ∧ Rel S f b n m m2)
      ?_ ?_
    · refine Alike.bind (loadW_rel h (by omega)) ?_
      rintro w _ m m2 ⟨rfl, hw, h⟩
      have e : (if up then decide (s.1 < w) else decide (s.1 > w)) = (if up then decide (s2.1 < f w) else decide (s2.1 > f w)) := by
        rw [h1]
        cases up
        · simp only [Bool.false_eq_true, if_false, decide_eq_decide]; exact hf w s.1 hw h3
        · simp only [if_true, decide_eq_decide]; exact hf s.1 w h3 hw
      refine Alike.branch e ?_
      generalize (if up then decide (s.1 < w) else decide (s.1 > w)) = c
      cases c
      · exact ⟨rfl, h1, h2, h3, .inl rfl, h⟩
      · refine ⟨rfl, rfl, rfl, hw, ?_, h⟩
        right
        by_cases hn : 2 ^ 32 ≤ n
        · exact .inr hn
        · left
          simp only
          rw [BitVec.toNat_ofNat, Nat.mod_eq_of_lt (by omega)]
          omega
    · rintro r r2 m m2 ⟨e1, e2, e3, e4, h⟩
      refine (ih h (by omega) e1 e2 e3).mono ?_
      rintro a a2 _ _ ⟨g1, g2, g3⟩
      refine ⟨g1, ?_, g3⟩
      rcases g2 with g2 | g2
      · rw [g2]; exact e4
      · exact .inr g2

theorem lowest_rel (hf : Keeps S f) {q : PQueue} {m m2 : Mem} (h : Rel S f q.priority_array q.size.toNat m m2)
    (hs : 0 < q.size.toNat) :
    Alike (fun r r2 m m2 => r2 = r ∧ r.toNat < q.size.toNat ∧ Rel S f q.priority_array q.size.toNat m m2)
      (getLowestPriorityIndexT q m) (getLowestPriorityIndexT q m2) := by
  unfold getLowestPriorityIndexT
  refine Alike.bind (loadW_rel h hs) ?_
  rintro w _ m m2 ⟨rfl, hw, h⟩
  refine Alike.bind (search_rel hf (up := false) q.size.toNat (i := 0) (s := (w, 0#32)) (s2 := (f w, 0#32)) h (by omega) rfl rfl hw) ?_
  rintro r r2 m m2 ⟨e1, e2, h⟩
  refine Alike.pure ⟨e1, ?_, h⟩
  rcases e2 with e | e | e
  · rw [e]; exact hs
  · exact e
  · have := q.size.isLt; omega

theorem highest_rel (hf : Keeps S f) {q : PQueue} {m m2 : Mem} (h : Rel S f q.priority_array q.size.toNat m m2)
    (hs : 0 < q.size.toNat) :
    Alike (fun r r2 m m2 => r2 = r ∧ r.toNat < q.size.toNat ∧ Rel S f q.priority_array q.size.toNat m m2)
      (getHighestPriorityIndexT q m) (getHighestPriorityIndexT q m2) := by
  unfold getHighestPriorityIndexT
  refine Alike.bind (loadW_rel h hs) ?_
  rintro w _ m m2 ⟨rfl, hw, h⟩
  refine Alike.bind (search_rel hf (up := true) q.size.toNat (i := 0) (s := (w, 0#32)) (s2 := (f w, 0#32)) h (by omega) rfl rfl hw) ?_
  rintro r r2 m m2 ⟨e1, e2, h⟩
  refine Alike.pure ⟨e1, ?_, h⟩
  rcases e2 with e | e | e
  · rw [e]; exact hs
  · exact e
  · have := q.size.isLt; omega

theorem shift_loop {q : PQueue} {n : Nat} (hn : n < 2 ^ 32) (k : Nat) : ∀ {i : Nat} {m m2 : Mem}, Rel S f q.priority_array n m m2 → i + k < n →
    Alike (fun _ _ m m2 => Rel S f q.priority_array n m m2)
      (forNT k i (fun i (_ : Unit) => do
        let iw := BitVec.ofNat 32 i
        memcpyT (q.buffer.addN (iw * q.element_size).toNat)
          (q.buffer.addN (iw * q.element_size + q.element_size).toNat) q.element_size.toNat
        let p ← loadWT q.priority_array (iw + 1#32).toNat
        storeWT q.priority_array i p) () m)
      (forNT k i (fun i (_ : Unit) => do
        let iw := BitVec.ofNat 32 i
        memcpyT (q.buffer.addN (iw * q.element_size).toNat)
          (q.buffer.addN (iw * q.element_size + q.element_size).toNat) q.element_size.toNat
        let p ← loadWT q.priority_array (iw + 1#32).toNat
        storeWT q.priority_array i p) () m2) := by
  induction k with
  | zero => intro i m m2 h hi; exact Alike.branch rfl (Alike.pure h)
  | succ k ih =>
    intro i m m2 h hi
    refine Alike.branch rfl ?_
    refine Alike.bind (R := fun _ _ m m2 => Rel S f q.priority_array n m m2) (Alike.bind (memcpy_rel h) ?_) ?_
    · rintro _ _ m m2 h
      refine Alike.bind (loadW_rel h ?_) ?_
      · rw [BitVec.toNat_add, BitVec.toNat_ofNat, show (1#32).toNat = 1 from rfl, Nat.mod_eq_of_lt (a := i) (by omega),
          Nat.mod_eq_of_lt (by omega)]
        omega
      · rintro w _ m m2 ⟨rfl, hw, h⟩
        exact storeW_rel h hw (.inl (Nat.le_refl _))
    · rintro _ _ m m2 h
      exact ih h (by omega)

theorem toNat_sub_one {x : U32} (h : 0 < x.toNat) : (x - 1#32).toNat = x.toNat - 1 := by
  rw [BitVec.toNat_sub, show (1#32).toNat = 1 from rfl]
  have := x.isLt
  omega

theorem shift_rel {q : PQueue} {i : U32} {n : Nat} {m m2 : Mem} (hn : n = q.size.toNat + 1) (hlt : n < 2 ^ 32)
    (h : Rel S f q.priority_array n m m2) (hi : i.toNat < n) :
    Alike (fun _ _ m m2 => Rel S f q.priority_array n m m2) (shiftDownT q i q.size m) (shiftDownT q i q.size m2) :=
  shift_loop hlt _ h (by omega)

/-- Lemma support: the queue is as after `PriorityQueue_init` and any calls. -/
def Sound (q : PQueue) : Prop := 0 < q.capacity.toNat ∧ q.size.toNat ≤ q.capacity.toNat

/-- Lemma support: the two runs agree. -/
abbrev Same (S : U32 → Prop) (f : U32 → U32) : Bool × PQueue → Bool × PQueue → Mem → Mem → Prop := fun r r2 m m2 =>
  r2 = r ∧ Sound r.2 ∧ Rel S f r.2.priority_array r.2.size.toNat m m2

theorem enqueue_rel (hf : Keeps S f) {q : PQueue} {el : Ptr} {p : U32} {m m2 : Mem}
    (h : Rel S f q.priority_array q.size.toNat m m2) (hq : Sound q) (hp : S p) :
    Alike (Same S f) (enqueueT q el p m) (enqueueT q el (f p) m2) := by
  obtain ⟨hc, hsz⟩ := hq
  have hcl := q.capacity.isLt
  unfold enqueueT
  refine Alike.branch rfl ?_
  by_cases hfull : full q = true
  · have e : q.size.toNat = q.capacity.toNat := by
      unfold full at hfull
      rw [eq_of_beq hfull]
    rw [if_neg (by simp [hfull]), if_neg (by simp [hfull])]
    refine Alike.bind (lowest_rel hf h (by omega)) ?_
    rintro i _ m m2 ⟨rfl, hi, h⟩
    refine Alike.bind (loadW_rel h hi) ?_
    rintro w _ m m2 ⟨rfl, hw, h⟩
    refine Alike.branch (by rw [decide_eq_decide]; exact hf w p hw hp) ?_
    split
    · have es : (q.size - 1#32).toNat = q.size.toNat - 1 := toNat_sub_one (by omega)
      have ea : (q.size - 1#32 + 1#32) = q.size := by bv_omega
      refine Alike.bind (shift_rel (q := { q with size := q.size - 1#32 }) (n := q.size.toNat) (by simp only; omega) (by omega) h hi) ?_
      rintro _ _ m m2 h
      refine Alike.bind (memcpy_rel h) ?_
      rintro _ _ m m2 h
      refine Alike.bind (storeW_rel h hp (.inl (Nat.le_refl _))) ?_
      rintro _ _ m m2 h
      refine Alike.pure ⟨rfl, ?_, ?_⟩
      · simp only [ea]; exact ⟨hc, hsz⟩
      · simp only [ea]; exact h
    · exact Alike.pure ⟨rfl, ⟨hc, hsz⟩, h⟩
  · have e : q.size.toNat < q.capacity.toNat := by
      have : q.size ≠ q.capacity := by unfold full at hfull; simpa using hfull
      have : q.size.toNat ≠ q.capacity.toNat := fun e => this (BitVec.eq_of_toNat_eq e)
      omega
    rw [if_pos (by simp [hfull]), if_pos (by simp [hfull])]
    refine Alike.bind (memcpy_rel h) ?_
    rintro _ _ m m2 h
    refine Alike.bind (storeW_rel (n' := q.size.toNat + 1) h hp (.inr ⟨rfl, rfl⟩)) ?_
    rintro _ _ m m2 h
    have ea : (q.size + 1#32).toNat = q.size.toNat + 1 := by
      rw [BitVec.toNat_add, show (1#32).toNat = 1 from rfl, Nat.mod_eq_of_lt (by omega)]
    refine Alike.pure ⟨rfl, ⟨hc, by simp only; omega⟩, ?_⟩
    simp only [ea]; exact h

theorem dequeue_rel (hf : Keeps S f) {q : PQueue} {el : Ptr} {m m2 : Mem}
    (h : Rel S f q.priority_array q.size.toNat m m2) (hq : Sound q) :
    Alike (Same S f) (dequeueT q el m) (dequeueT q el m2) := by
  obtain ⟨hc, hsz⟩ := hq
  have hcl := q.capacity.isLt
  unfold dequeueT
  refine Alike.branch rfl ?_
  by_cases hemp : empty q = true
  · rw [if_neg (by simp [hemp])]
    exact Alike.pure ⟨rfl, ⟨hc, hsz⟩, h⟩
  · have e : 0 < q.size.toNat := by
      have : q.size ≠ 0#32 := by unfold empty at hemp; simpa using hemp
      have : q.size.toNat ≠ 0 := fun e => this (BitVec.eq_of_toNat_eq e)
      omega
    have es : (q.size - 1#32).toNat = q.size.toNat - 1 := toNat_sub_one (by omega)
    rw [if_pos (by simp [hemp])]
    refine Alike.bind (highest_rel hf h e) ?_
    rintro i _ m m2 ⟨rfl, hi, h⟩
    refine Alike.bind (memcpy_rel h) ?_
    rintro _ _ m m2 h
    refine Alike.bind (shift_rel (q := { q with size := q.size - 1#32 }) (n := q.size.toNat) (by simp only; omega) (by omega) h hi) ?_
    rintro _ _ m m2 h
    exact Alike.pure ⟨rfl, ⟨hc, by simp only; omega⟩, h.le (by simp only; omega)⟩

theorem calls_rel (hf : Keeps S f) (l : List Call) (hl : ∀ c ∈ l, ∀ el p, c = .enqueue el p → S p) :
    ∀ {q : PQueue} {m m2 : Mem}, Rel S f q.priority_array q.size.toNat m m2 → Sound q →
      Alike (fun r r2 _ _ => r2 = r) (callsT l q m) (callsT (l.map (Call.map f)) q m2) := by
  induction l with
  | nil => intro q m m2 h hq; exact Alike.pure rfl
  | cons c l ih =>
    intro q m m2 h hq
    refine Alike.bind (R := Same S f) ?_ ?_
    · cases c with
      | enqueue el p => exact enqueue_rel hf h hq (hl _ (List.mem_cons_self ..) el p rfl)
      | dequeue el => exact dequeue_rel hf h hq
    · rintro r _ m m2 ⟨rfl, hq, h⟩
      refine Alike.bind (ih (fun c hc => hl c (List.mem_cons_of_mem _ hc)) h hq) ?_
      rintro r _ m m2 rfl
      exact Alike.pure rfl

end PQ
end IMU
