import Verif.Proofs.QueueSteps

/-!
# A caller that is not interrupted
-/

namespace IMU.Queue
open Spec

/-- The copy loop of the small steps. -/
def copyLoop (dst src : Ptr) (n k : Nat) : C Unit := forN n k (fun i _ => copyByte dst src i) ()

theorem copyLoop_zero (dst src : Ptr) (k : Nat) (m : Mem) : copyLoop dst src 0 k m = .ok () m := rfl

theorem copyLoop_succ (dst src : Ptr) (n k : Nat) (m : Mem) : copyLoop dst src (n + 1) k m =
    match copyByte dst src k m with
    | .ok _ m' => copyLoop dst src n (k + 1) m'
    | .ub e => .ub e := by
  simp only [copyLoop, forN, C.bind_run]
  cases copyByte dst src k m <;> rfl

/-- Is byte `i` of the range at `p` inside the object? -/
def okAt (m : Mem) (p : Ptr) (i : Nat) : Prop := 0 ≤ p.off + i ∧ p.off + i < (m.bytes p.blk).length

theorem load_some {p : Ptr} {m : Mem} {v : Byte} (h0 : 0 ≤ p.off) (h : (m.bytes p.blk)[p.off.toNat]? = some v) :
    load p m = .ok v m := by simp [load, h0, h]

theorem load_none {p : Ptr} {m : Mem} (h : ¬ (0 ≤ p.off ∧ p.off < (m.bytes p.blk).length)) :
    load p m = .ub .oobRead := by
  unfold load
  split
  · rw [List.getElem?_eq_none (by omega)]
  · rfl

theorem store_some {p : Ptr} {m : Mem} (v : Byte) (h : 0 ≤ p.off ∧ p.off < (m.bytes p.blk).length) :
    store p v m = .ok () (m.upd p.blk ((m.bytes p.blk).set p.off.toNat v)) := by
  unfold store; rw [if_pos h]

theorem store_none {p : Ptr} {m : Mem} (v : Byte) (h : ¬ (0 ≤ p.off ∧ p.off < (m.bytes p.blk).length)) :
    store p v m = .ub .oobWrite := by
  unfold store; rw [if_neg h]

theorem copyByte_cases (dst src : Ptr) (k : Nat) (m : Mem) :
    (okAt m src k ∧ okAt m dst k ∧ ∃ v, (m.bytes src.blk)[(src.off + k).toNat]? = some v ∧
      copyByte dst src k m = .ok () (m.upd dst.blk ((m.bytes dst.blk).set (dst.off + k).toNat v))) ∨
    ((¬ okAt m src k ∨ ¬ okAt m dst k) ∧ ∃ e, copyByte dst src k m = .ub e) := by
  by_cases hs : okAt m src k
  · have hl : (src.off + k).toNat < (m.bytes src.blk).length := by have := hs.1; have := hs.2; omega
    have hload : load (src.addN k) m = .ok ((m.bytes src.blk)[(src.off + k).toNat]) m :=
      load_some (p := src.addN k) hs.1 (List.getElem?_eq_getElem hl)
    by_cases hd : okAt m dst k
    · refine .inl ⟨hs, hd, _, List.getElem?_eq_getElem hl, ?_⟩
      simp only [copyByte, C.bind_run, hload, store_some (p := dst.addN k) _ hd]
      rfl
    · refine .inr ⟨.inr hd, .oobWrite, ?_⟩
      simp only [copyByte, C.bind_run, hload, store_none (p := dst.addN k) _ hd]
  · refine .inr ⟨.inl hs, .oobRead, ?_⟩
    simp only [copyByte, C.bind_run, load_none (p := src.addN k) hs]

theorem okAt_upd (m : Mem) (p : Ptr) (i b j : Nat) (v : Byte) :
    okAt (m.upd b ((m.bytes b).set j v)) p i ↔ okAt m p i := by
  unfold okAt; rw [upd_length]

/-- Out of range somewhere: the loop does not get through. -/
theorem copyLoop_ub (dst src : Ptr) (n : Nat) : ∀ (k : Nat) (m : Mem),
    (∃ i, k ≤ i ∧ i < k + n ∧ (¬ okAt m src i ∨ ¬ okAt m dst i)) → ∃ e, copyLoop dst src n k m = .ub e := by
  induction n with
  | zero => intro k m ⟨i, h1, h2, _⟩; omega
  | succ n ih =>
    intro k m ⟨i, h1, h2, h3⟩
    rw [copyLoop_succ]
    rcases copyByte_cases dst src k m with ⟨hs, hd, v, -, h⟩ | ⟨-, e, h⟩
    · rw [h]
      have hik : i ≠ k := by rintro rfl; exact h3.elim (· hs) (· hd)
      exact ih (k + 1) _ ⟨i, by omega, by omega, by simpa only [okAt_upd] using h3⟩
    · exact ⟨e, by rw [h]⟩

/-- In range and disjoint: what the loop has written. -/
theorem copyLoop_ok (dst src : Ptr) (n : Nat) : ∀ (k : Nat) (m : Mem),
    (∀ i, k ≤ i → i < k + n → okAt m src i ∧ okAt m dst i) →
    (∀ i j, k ≤ i → i < k + n → k ≤ j → j < k + n → src.blk = dst.blk → src.off + i ≠ dst.off + j) →
    ∃ m', copyLoop dst src n k m = .ok () m' ∧ m'.words = m.words ∧
      (∀ b, b ≠ dst.blk → m'.bytes b = m.bytes b) ∧ (m'.bytes dst.blk).length = (m.bytes dst.blk).length ∧
      ∀ x : Nat, (m'.bytes dst.blk)[x]? =
        if dst.off + k ≤ x ∧ x < dst.off + k + n then (m.bytes src.blk)[(src.off + (x - dst.off)).toNat]?
        else (m.bytes dst.blk)[x]? := by
  induction n with
  | zero =>
    intro k m _ _
    refine ⟨m, rfl, rfl, fun _ _ => rfl, rfl, fun x => ?_⟩
    rw [if_neg (by omega)]
  | succ n ih =>
    intro k m hr hdj
    rw [copyLoop_succ]
    have hk := hr k (by omega) (by omega)
    rcases copyByte_cases dst src k m with ⟨hs, hd, v, hv, h⟩ | ⟨h', -⟩
    · rw [h]
      simp only
      obtain ⟨m', h1, h2, h3, h4, h5⟩ := ih (k + 1) (m.upd dst.blk ((m.bytes dst.blk).set (dst.off + k).toNat v))
        (fun i a b => by simp only [okAt_upd]; exact hr i (by omega) (by omega))
        (fun i j a b c d => hdj i j (by omega) (by omega) (by omega) (by omega))
      refine ⟨m', h1, h2, fun b hb => by rw [h3 b hb]; simp only [Mem.upd_bytes]; rw [if_neg hb],
        by rw [h4, upd_length], fun x => ?_⟩
      rw [h5]
      have hd0 := hd.1
      have hs0 := hs.1
      by_cases hx1 : dst.off + ((k + 1 : Nat) : Int) ≤ x ∧ (x : Int) < dst.off + ((k + 1 : Nat) : Int) + n
      · rw [if_pos hx1, if_pos (by omega)]
        simp only [Mem.upd_bytes]
        split
        · rename_i hb
          rw [List.getElem?_set_ne]
          · rw [hb]
          · have hne := hdj ((x - dst.off).toNat) k (by omega) (by omega) (by omega) (by omega) hb
            have hin := (hr ((x - dst.off).toNat) (by omega) (by omega)).1.1
            omega
        · rfl
      · rw [if_neg hx1]
        simp only [Mem.upd_bytes, if_true]
        by_cases hx2 : (x : Int) = dst.off + k
        · rw [if_pos (by omega), show x = (dst.off + k).toNat by omega, List.getElem?_set_self (by
            have := hd.2; omega), ← hv]
          congr 1; omega
        · rw [if_neg (by omega), List.getElem?_set_ne (by omega)]
    · exact absurd hk.1 (by tauto)

theorem Mem.ext' {m m' : Mem} (h1 : ∀ b, m.bytes b = m'.bytes b) (h2 : m.words = m'.words) : m = m' := by
  cases m; cases m'
  simp only [Mem.mk.injEq]
  exact ⟨funext h1, h2⟩

/-- The copy loop is `memcpy`. -/
theorem copyLoop_memcpy (dst src : Ptr) (n : Nat) (m : Mem) (h : overlaps dst src n = false) :
    (∃ m', memcpy dst src n m = .ok () m' ∧ copyLoop dst src n 0 m = .ok () m') ∨
    ((∃ e, memcpy dst src n m = .ub e) ∧ ∃ e, copyLoop dst src n 0 m = .ub e) := by
  unfold memcpy
  rw [h]
  simp only [Bool.false_eq_true, if_false, C.bind_run]
  by_cases hn : n = 0
  · subst hn
    exact .inl ⟨m, by simp [loadN, storeN], rfl⟩
  by_cases hs : 0 ≤ src.off ∧ src.off + n ≤ (m.bytes src.blk).length
  · have hsl : (slice (m.bytes src.blk) src.off.toNat n).length = n := slice_length _ _ _ (by omega)
    have hload : loadN src n m = .ok (slice (m.bytes src.blk) src.off.toNat n) m := by
      unfold loadN; rw [if_neg hn, if_pos hs]
    rw [hload]
    simp only
    have hne : slice (m.bytes src.blk) src.off.toNat n ≠ [] := by
      intro h; rw [h] at hsl; simp at hsl; omega
    unfold storeN
    rw [if_neg hne, hsl]
    by_cases hd : 0 ≤ dst.off ∧ dst.off + n ≤ (m.bytes dst.blk).length
    · rw [if_pos hd]
      refine .inl ⟨_, rfl, ?_⟩
      obtain ⟨m', h1, h2, h3, h4, h5⟩ := copyLoop_ok dst src n 0 m
        (fun i a b => ⟨⟨by omega, by omega⟩, ⟨by omega, by omega⟩⟩)
        (fun i j a b c d e f => by
          simp only [overlaps, decide_eq_false_iff_not] at h
          exact h ⟨e.symm, by omega, by omega⟩)
      rw [h1]
      congr 1
      refine Mem.ext' (fun b => ?_) h2
      simp only [Mem.upd_bytes]
      split
      · rename_i hb
        subst hb
        apply List.ext_getElem?; intro x
        rw [h5, getElem?_splice _ _ _ (by omega), hsl]
        split
        · rw [if_neg (by omega), if_pos (by omega), getElem?_slice, if_pos (by omega)]
          congr 1; omega
        · by_cases hx : x < dst.off.toNat
          · rw [if_pos hx]
          · rw [if_neg hx, if_neg (by omega)]
      · rename_i hb; exact h3 b hb
    · rw [if_neg hd]
      refine .inr ⟨⟨_, rfl⟩, copyLoop_ub dst src n 0 m ?_⟩
      by_cases h0 : 0 ≤ dst.off
      · exact ⟨n - 1, by omega, by omega, .inr fun h => by have := h.2; omega⟩
      · exact ⟨0, by omega, by omega, .inr fun h => by have := h.1; omega⟩
  · have hload : loadN src n m = .ub .oobRead := by
      unfold loadN; rw [if_neg hn, if_neg hs]
    rw [hload]
    refine .inr ⟨⟨_, rfl⟩, copyLoop_ub dst src n 0 m ?_⟩
    by_cases h0 : 0 ≤ src.off
    · exact ⟨n - 1, by omega, by omega, .inl fun h => by have := h.2; omega⟩
    · exact ⟨0, by omega, by omega, .inl fun h => by have := h.1; omega⟩

theorem memcpy_overlap {dst src : Ptr} {n : Nat} {m : Mem} (h : overlaps dst src n = true) :
    memcpy dst src n m = .ub .overlap := by
  unfold memcpy; rw [if_pos h]; rfl

/-- Caller `a` alone: one more step. -/
theorem alone_step (atomic : Bool) (a B : Caller) (q : Queue) (m : Mem) (n : Nat) :
    interleave atomic ⟨a, B, q, m⟩ (List.replicate (n + 1) false) =
      match step atomic a q m with
      | none => none
      | some (t, q', m', e) =>
        match interleave atomic ⟨t, B, q', m'⟩ (List.replicate n false) with
        | none => none
        | some (s', es) => some (s', (e.map fun e => (false, e)).toList ++ es) := by
  rw [List.replicate_succ]; rfl

theorem alone_silent {atomic : Bool} {a B t : Caller} {q q' : Queue} {m m' : Mem} (n : Nat)
    (h : step atomic a q m = some (t, q', m', none)) :
    interleave atomic ⟨a, B, q, m⟩ (List.replicate (n + 1) false) =
      interleave atomic ⟨t, B, q', m'⟩ (List.replicate n false) := by
  rw [alone_step, h]
  simp only [Option.map_none, Option.toList_none, List.nil_append]
  cases interleave atomic ⟨t, B, q', m'⟩ (List.replicate n false) <;> rfl

theorem alone_none {atomic : Bool} {a B : Caller} {q : Queue} {m : Mem} (n : Nat) (h : step atomic a q m = none) :
    interleave atomic ⟨a, B, q, m⟩ (List.replicate (n + 1) false) = none := by
  rw [alone_step, h]

theorem alone_rest (atomic : Bool) (B : Caller) (q : Queue) (m : Mem) (n : Nat) :
    interleave atomic ⟨⟨[], .idle⟩, B, q, m⟩ (List.replicate n false) = some (⟨⟨[], .idle⟩, B, q, m⟩, []) := by
  induction n with
  | zero => rfl
  | succ n ih => rw [alone_silent n rfl, ih]

theorem alone_eCopy (atomic : Bool) (todo : List Act) (B : Caller) (q : Queue) (dst p : Ptr) (n j : Nat) :
    ∀ (k : Nat) (m : Mem), k + j = q.element_size.toNat →
    interleave atomic ⟨⟨todo, .eCopy dst p k⟩, B, q, m⟩ (List.replicate (n + 1 + j) false) =
      match copyLoop dst p j k m with
      | .ok _ m' => interleave atomic ⟨⟨todo, .eRear⟩, B, q, m'⟩ (List.replicate n false)
      | .ub _ => none := by
  induction j with
  | zero =>
    intro k m hk
    rw [copyLoop_zero]
    exact alone_silent n (by simp only [step]; rw [if_neg (by omega)])
  | succ j ih =>
    intro k m hk
    rw [copyLoop_succ, show n + 1 + (j + 1) = n + 1 + j + 1 by omega]
    cases hc : copyByte dst p k m with
    | ok u m' =>
      rw [alone_silent (t := ⟨todo, .eCopy dst p (k + 1)⟩) (q' := q) (m' := m') (n + 1 + j)
        (by simp only [step, hc]; rw [if_pos (by omega)])]
      exact ih (k + 1) m' (by omega)
    | ub e =>
      exact alone_none _ (by simp only [step, hc]; rw [if_pos (by omega)])

theorem alone_dCopy (atomic : Bool) (todo : List Act) (B : Caller) (q : Queue) (p src : Ptr) (n j : Nat) :
    ∀ (k : Nat) (m : Mem), k + j = q.element_size.toNat →
    interleave atomic ⟨⟨todo, .dCopy p src k⟩, B, q, m⟩ (List.replicate (n + 1 + j) false) =
      match copyLoop p src j k m with
      | .ok _ m' => interleave atomic ⟨⟨todo, .dFront p⟩, B, q, m'⟩ (List.replicate n false)
      | .ub _ => none := by
  induction j with
  | zero =>
    intro k m hk
    rw [copyLoop_zero]
    exact alone_silent n (by simp only [step]; rw [if_neg (by omega)])
  | succ j ih =>
    intro k m hk
    rw [copyLoop_succ, show n + 1 + (j + 1) = n + 1 + j + 1 by omega]
    cases hc : copyByte p src k m with
    | ok u m' =>
      rw [alone_silent (t := ⟨todo, .dCopy p src (k + 1)⟩) (q' := q) (m' := m') (n + 1 + j)
        (by simp only [step, hc]; rw [if_pos (by omega)])]
      exact ih (k + 1) m' (by omega)
    | ub e =>
      exact alone_none _ (by simp only [step, hc]; rw [if_pos (by omega)])

/-- From after the copy to the answer. -/
theorem alone_eTail (atomic : Bool) (B : Caller) (q : Queue) (m : Mem) (n : Nat) :
    interleave atomic ⟨⟨[], .eRear⟩, B, q, m⟩ (List.replicate (n + 4) false) =
      some (⟨⟨[], .idle⟩, B, { q with rear := (q.rear + 1#32) % q.capacity, size := q.size + 1#32 }, m⟩,
        [(false, .ret true none m)]) := by
  rw [alone_silent (n + 3) rfl]
  cases atomic
  · rw [alone_silent (n + 2) rfl, alone_silent (n + 1) rfl, alone_step]
    simp only [step, alone_rest]
    rfl
  · rw [alone_silent (n + 2) rfl, alone_step]
    simp only [step, alone_rest]
    rfl

theorem alone_dTail (atomic : Bool) (B : Caller) (q : Queue) (p : Ptr) (m : Mem) (n : Nat) :
    interleave atomic ⟨⟨[], .dFront p⟩, B, q, m⟩ (List.replicate (n + 4) false) =
      if q.capacity = 0#32 then none else
      some (⟨⟨[], .idle⟩, B, { q with front := (q.front + 1#32) % q.capacity, size := q.size - 1#32 }, m⟩,
        [(false, .ret true (some p) m)]) := by
  by_cases hc : q.capacity = 0#32
  · rw [if_pos hc]
    exact alone_none (n + 3) (by simp only [step]; rw [if_pos hc])
  rw [if_neg hc]
  rw [alone_silent (t := ⟨[], .dSize p⟩) (q' := { q with front := (q.front + 1#32) % q.capacity }) (m' := m) (n + 3)
    (by simp only [step]; rw [if_neg hc])]
  cases atomic
  · rw [alone_silent (n + 2) rfl, alone_silent (n + 1) rfl, alone_step]
    simp only [step, alone_rest]
    rfl
  · rw [alone_silent (n + 2) rfl, alone_step]
    simp only [step, alone_rest]
    rfl

theorem alone_enqueue (atomic : Bool) (B : Caller) (q : Queue) (p : Ptr) (m : Mem) (n : Nat)
    (hn : q.element_size.toNat + 8 ≤ n) :
    interleave atomic ⟨⟨[.enq p], .idle⟩, B, q, m⟩ (List.replicate n false) =
      match enqueue (some q) (some p) m with
      | .ok (b, q') m' => some (⟨⟨[], .idle⟩, B, q'.getD q, m'⟩, [(false, .call (.enq p) m), (false, .ret b none m')])
      | .ub _ => none := by
  obtain ⟨r, rfl⟩ : ∃ r, n = r + 4 + 1 + q.element_size.toNat + 1 + 1 + 1 := ⟨n - q.element_size.toNat - 8, by omega⟩
  rw [alone_step]
  simp only [step]
  unfold enqueue
  by_cases hf : full q
  · simp only [hf, Bool.not_true, Bool.false_eq_true, if_false, C.pure_run]
    rw [alone_silent (t := ⟨[], .eRet false⟩) (q' := q) (m' := m) _ (by simp only [step, hf, if_true]), alone_step]
    simp only [step, alone_rest]
    rfl
  · simp only [hf, Bool.not_false, if_true, C.bind_run]
    rw [alone_silent (t := ⟨[], .eAddr p⟩) (q' := q) (m' := m) _ (by simp only [step, hf]; rfl)]
    by_cases hc : q.capacity = 0#32
    · rw [alone_none _ (by simp only [step]; rw [if_pos hc])]
      simp [C.require, hc, C.ub]
    · rw [C.require_ok hc]
      by_cases ho : overlaps (q.buffer.addN (((q.rear + 1#32) % q.capacity) * q.element_size).toNat) p
          q.element_size.toNat = true
      · rw [alone_none _ (by simp only [step]; rw [if_neg hc, if_pos ho])]
        simp only [memcpy_overlap ho]
      · rw [alone_silent _ (by simp only [step]; rw [if_neg hc, if_neg ho]), alone_eCopy _ _ _ _ _ _ _ _ _ _ (by omega)]
        rcases copyLoop_memcpy _ _ _ m (Bool.eq_false_iff.2 ho) with ⟨m', h1, h2⟩ | ⟨⟨e1, h1⟩, e2, h2⟩
        · simp only [h1, h2, alone_eTail]
          rfl
        · simp only [h1, h2]

theorem alone_dequeue (atomic : Bool) (B : Caller) (q : Queue) (p : Ptr) (m : Mem) (n : Nat)
    (hn : q.element_size.toNat + 8 ≤ n) :
    interleave atomic ⟨⟨[.deq p], .idle⟩, B, q, m⟩ (List.replicate n false) =
      match dequeue (some q) (some p) m with
      | .ok (b, q') m' => some (⟨⟨[], .idle⟩, B, q'.getD q, m'⟩,
          [(false, .call (.deq p) m), (false, .ret b (if b then some p else none) m')])
      | .ub _ => none := by
  obtain ⟨r, rfl⟩ : ∃ r, n = r + 4 + 1 + q.element_size.toNat + 1 + 1 + 1 := ⟨n - q.element_size.toNat - 8, by omega⟩
  rw [alone_step]
  simp only [step]
  unfold dequeue
  by_cases hf : empty q
  · simp only [hf, Bool.not_true, Bool.false_eq_true, if_false, C.pure_run]
    rw [alone_silent (t := ⟨[], .dRet false p⟩) (q' := q) (m' := m) _ (by simp only [step, hf, if_true]), alone_step]
    simp only [step, alone_rest]
    rfl
  · simp only [hf, Bool.not_false, if_true, C.bind_run]
    rw [alone_silent (t := ⟨[], .dAddr p⟩) (q' := q) (m' := m) _ (by simp only [step, hf]; rfl)]
    by_cases ho : overlaps p (q.buffer.addN (q.front * q.element_size).toNat) q.element_size.toNat = true
    · rw [alone_none _ (by simp only [step]; rw [if_pos ho])]
      simp only [memcpy_overlap ho]
    · rw [alone_silent _ (by simp only [step]; rw [if_neg ho]), alone_dCopy _ _ _ _ _ _ _ _ _ _ (by omega)]
      rcases copyLoop_memcpy _ _ _ m (Bool.eq_false_iff.2 ho) with ⟨m', h1, h2⟩ | ⟨⟨e1, h1⟩, e2, h2⟩
      · rw [h1, h2]
        simp only [alone_dTail]
        by_cases hc : q.capacity = 0#32
        · simp [C.require, hc, C.ub]
        · rw [if_neg hc, C.require_ok hc]
          rfl
      · rw [h1, h2]

end IMU.Queue

namespace IMU.Queue
open Spec

theorem step_todo {atomic : Bool} {a t : Caller} {q q' : Queue} {m m' : Mem} {e : Option Event}
    (h : step atomic a q m = some (t, q', m', e)) :
    (∀ x ∈ t.todo, x ∈ a.todo) ∧ ∀ x m'', e = some (.call x m'') → x ∈ a.todo := by
  obtain ⟨todo, pc⟩ := a
  cases pc with
  | idle =>
    rcases todo with _ | ⟨p | p, rest⟩
    · simp only [step, Option.some.injEq, Prod.mk.injEq] at h
      obtain ⟨rfl, -, -, rfl⟩ := h; simp
    · simp only [step, Option.some.injEq, Prod.mk.injEq] at h
      obtain ⟨rfl, -, -, rfl⟩ := h
      refine ⟨fun x hx => by simp [hx], fun x m'' hx => ?_⟩
      simp only [Option.some.injEq, Event.call.injEq] at hx; simp [hx.1]
    · simp only [step, Option.some.injEq, Prod.mk.injEq] at h
      obtain ⟨rfl, -, -, rfl⟩ := h
      refine ⟨fun x hx => by simp [hx], fun x m'' hx => ?_⟩
      simp only [Option.some.injEq, Event.call.injEq] at hx; simp [hx.1]
  | _ =>
    simp only [step] at h
    repeat' split at h
    all_goals first
      | (simp only [Option.some.injEq, Prod.mk.injEq] at h; obtain ⟨rfl, -, -, rfl⟩ := h; simp)
      | simp at h

/-- Who starts what. -/
theorem calls_todo (atomic : Bool) (sched : List Bool) : ∀ (s s' : Sys) (es : List (Bool × Event)),
    interleave atomic s sched = some (s', es) →
    (∀ x m, (false, .call x m) ∈ es → x ∈ s.a.todo) ∧ (∀ x m, (true, .call x m) ∈ es → x ∈ s.b.todo) := by
  induction sched with
  | nil => intro s s' es h; simp only [interleave, Option.some.injEq, Prod.mk.injEq] at h; simp [← h.2]
  | cons t sched ih =>
    intro s s' es h
    cases t with
    | false =>
      simp only [interleave] at h
      split at h
      · simp at h
      · rename_i t q m e hs
        split at h
        · simp at h
        · rename_i s'' es' hi
          simp only [Option.some.injEq, Prod.mk.injEq] at h
          obtain ⟨-, rfl⟩ := h
          obtain ⟨h1, h2⟩ := ih _ _ _ hi
          obtain ⟨h3, h4⟩ := step_todo hs
          refine ⟨fun x m hx => ?_, fun x m hx => ?_⟩
          · rcases List.mem_append.1 hx with hx | hx
            · cases e with
              | none => simp at hx
              | some e => simp at hx; exact h4 x m (by rw [hx])
            · exact h3 x (h1 x m hx)
          · rcases List.mem_append.1 hx with hx | hx
            · cases e with
              | none => simp at hx
              | some e => simp at hx
            · exact h2 x m hx
    | true =>
      simp only [interleave] at h
      split at h
      · simp at h
      · rename_i t q m e hs
        split at h
        · simp at h
        · rename_i s'' es' hi
          simp only [Option.some.injEq, Prod.mk.injEq] at h
          obtain ⟨-, rfl⟩ := h
          obtain ⟨h1, h2⟩ := ih _ _ _ hi
          obtain ⟨h3, h4⟩ := step_todo hs
          refine ⟨fun x m hx => ?_, fun x m hx => ?_⟩
          · rcases List.mem_append.1 hx with hx | hx
            · cases e with
              | none => simp at hx
              | some e => simp at hx
            · exact h1 x m hx
          · rcases List.mem_append.1 hx with hx | hx
            · cases e with
              | none => simp at hx
              | some e => simp at hx; exact h4 x m (by rw [hx])
            · exact h3 x (h2 x m hx)

theorem mem_eventsOf {esz : Nat} {t : Bool} {es : List (Bool × Event)} {op : QOp}
    (h : .call op ∈ eventsOf t (queueHistory esz es)) :
    ∃ x m, (t, .call x m) ∈ es ∧ queueEvent esz (.call x m) = .call op := by
  simp only [eventsOf, queueHistory, List.mem_filterMap, List.mem_map] at h
  obtain ⟨y, ⟨⟨t', e⟩, he, rfl⟩, hy⟩ := h
  simp only at hy
  split at hy
  · simp only [Option.some.injEq] at hy
    subst_vars
    cases e with
    | call x m => exact ⟨x, m, he, hy⟩
    | ret => simp [queueEvent] at hy
  · simp at hy

/-- How many own steps the current call still takes at most. -/
def rank (esz : Nat) : PC → Nat
  | .idle => 0
  | .eGuard _ => esz + 7
  | .eAddr _ => esz + 6
  | .eCopy _ _ k => esz - k + 5
  | .eRear => 4
  | .eSize => 3
  | .eStore _ => 2
  | .eRet _ => 1
  | .dGuard _ => esz + 7
  | .dAddr _ => esz + 6
  | .dCopy _ _ k => esz - k + 5
  | .dFront _ => 4
  | .dSize _ => 3
  | .dStore _ _ => 2
  | .dRet _ _ => 1

/-- How many own steps a caller still takes at most. -/
def measure (esz : Nat) (t : Caller) : Nat := rank esz t.pc + t.todo.length * (esz + 8)

theorem step_measure {atomic : Bool} {a t : Caller} {q q' : Queue} {m m' : Mem} {e : Option Event}
    (h : step atomic a q m = some (t, q', m', e)) :
    q'.element_size = q.element_size ∧ measure q.element_size.toNat t ≤ measure q.element_size.toNat a - 1 := by
  obtain ⟨todo, pc⟩ := a
  cases pc with
  | idle =>
    rcases todo with _ | ⟨p | p, rest⟩
    all_goals
      simp only [step, Option.some.injEq, Prod.mk.injEq] at h
      obtain ⟨rfl, rfl, -, rfl⟩ := h
      refine ⟨rfl, ?_⟩
      simp only [measure, rank, List.length_nil, List.length_cons, Nat.succ_mul]
      omega
  | _ =>
    simp only [step] at h
    repeat' split at h
    all_goals try (cases h; done)
    all_goals
      simp only [Option.some.injEq, Prod.mk.injEq] at h
      obtain ⟨rfl, rfl, -, rfl⟩ := h
      refine ⟨rfl, ?_⟩
      simp only [measure, rank]
      omega

theorem interleave_measure (atomic : Bool) (sched : List Bool) : ∀ (s s' : Sys) (es : List (Bool × Event)),
    interleave atomic s sched = some (s', es) →
    measure s.q.element_size.toNat s'.a ≤ measure s.q.element_size.toNat s.a - sched.count false ∧
    measure s.q.element_size.toNat s'.b ≤ measure s.q.element_size.toNat s.b - sched.count true := by
  induction sched with
  | nil => intro s s' es h; simp only [interleave, Option.some.injEq, Prod.mk.injEq] at h; simp [← h.1]
  | cons t sched ih =>
    intro s s' es h
    cases t with
    | false =>
      simp only [interleave] at h
      split at h
      · simp at h
      · rename_i t q m e hs
        split at h
        · simp at h
        · rename_i s'' es' hi
          simp only [Option.some.injEq, Prod.mk.injEq] at h
          obtain ⟨rfl, -⟩ := h
          have h1 := ih _ _ _ hi
          obtain ⟨h2, h3⟩ := step_measure hs
          simp only [h2] at h1
          rw [List.count_cons_self, List.count_cons_of_ne (by simp)]
          omega
    | true =>
      simp only [interleave] at h
      split at h
      · simp at h
      · rename_i t q m e hs
        split at h
        · simp at h
        · rename_i s'' es' hi
          simp only [Option.some.injEq, Prod.mk.injEq] at h
          obtain ⟨rfl, -⟩ := h
          have h1 := ih _ _ _ hi
          obtain ⟨h2, h3⟩ := step_measure hs
          simp only [h2] at h1
          rw [List.count_cons_self, List.count_cons_of_ne (by simp)]
          omega

theorem measure_zero {esz : Nat} {t : Caller} (h : measure esz t = 0) : t = ⟨[], .idle⟩ := by
  obtain ⟨todo, pc⟩ := t
  unfold measure at h
  cases todo with
  | cons a l => simp only [List.length_cons, Nat.succ_mul] at h; omega
  | nil => cases pc <;> simp_all [rank]

end IMU.Queue
