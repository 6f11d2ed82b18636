import Verif.C.Mem

/-!
# Lemmas about the C fragment
-/

namespace IMU

@[simp] theorem C.pure_run {α} (a : α) (m : Mem) : (pure a : C α) m = .ok a m := rfl
@[simp] theorem C.bind_run {α β} (x : C α) (f : α → C β) (m : Mem) :
    (x >>= f) m = match x m with
      | .ok a m' => f a m'
      | .ub e => .ub e := rfl
@[simp] theorem C.ub_run {α} (e : UB) (m : Mem) : (C.ub e : C α) m = .ub e := rfl
@[simp] theorem C.map_run {α β} (f : α → β) (x : C α) (m : Mem) :
    (f <$> x) m = match x m with
      | .ok a m' => .ok (f a) m'
      | .ub e => .ub e := rfl
@[simp] theorem C.seqRight_run {α β} (x : C α) (y : C β) (m : Mem) :
    (x *> y) m = match x m with
      | .ok _ m' => y m'
      | .ub e => .ub e := by
  show (C.bind x fun _ => y) m = _
  rfl
theorem C.bind_ok {α β} {x : C α} {f : α → C β} {m m' : Mem} {a : α} (h : x m = .ok a m') :
    (x >>= f) m = f a m' := by rw [C.bind_run, h]
theorem C.bind_ub {α β} {x : C α} {f : α → C β} {m : Mem} {e : UB} (h : x m = .ub e) :
    (x >>= f) m = .ub e := by rw [C.bind_run, h]
theorem C.require_ok {c : Prop} [Decidable c] (h : c) (e : UB) (m : Mem) :
    C.require c e m = .ok () m := by simp [C.require, h]
theorem C.require_ub {c : Prop} [Decidable c] (h : ¬ c) (e : UB) (m : Mem) :
    C.require c e m = .ub e := by simp [C.require, h]
theorem C.ite_run {α} (c : Prop) [Decidable c] (x y : C α) (m : Mem) :
    (if c then x else y) m = if c then x m else y m := by split <;> rfl

@[simp] theorem ptr_addN (b o k : Nat) : (ptr b o).addN k = ptr b (o + k) := by
  simp [Ptr.addN]
@[simp] theorem Ptr.addN_blk (p : Ptr) (k : Nat) : (p.addN k).blk = p.blk := rfl
@[simp] theorem Ptr.addZ_blk (p : Ptr) (k : Int) : (p.addZ k).blk = p.blk := rfl
@[simp] theorem Ptr.addN_off (p : Ptr) (k : Nat) : (p.addN k).off = p.off + k := rfl
@[simp] theorem Ptr.addZ_off (p : Ptr) (k : Int) : (p.addZ k).off = p.off + k := rfl
@[simp] theorem ptr_addZ_nat (b o k : Nat) : (ptr b o).addZ (k : Int) = ptr b (o + k) := by
  simp [Ptr.addZ]

@[simp] theorem Mem.upd_bytes (m : Mem) (b : Nat) (l) (x : Nat) :
    (m.upd b l).bytes x = if x = b then l else m.bytes x := rfl
@[simp] theorem Mem.upd_words (m : Mem) (b : Nat) (l) : (m.upd b l).words = m.words := rfl
@[simp] theorem Mem.updW_bytes (m : Mem) (b : Nat) (l) : (m.updW b l).bytes = m.bytes := rfl
@[simp] theorem Mem.updW_words (m : Mem) (b : Nat) (l) (x : Nat) :
    (m.updW b l).words x = if x = b then l else m.words x := rfl
@[simp] theorem Mem.upd_upd (m : Mem) (b : Nat) (l l') : (m.upd b l).upd b l' = m.upd b l' := by
  unfold Mem.upd; congr; funext x; by_cases h : x = b <;> simp [h]
@[simp] theorem Mem.updW_updW (m : Mem) (b : Nat) (l l') :
    (m.updW b l).updW b l' = m.updW b l' := by
  unfold Mem.updW; congr; funext x; by_cases h : x = b <;> simp [h]
@[simp] theorem Mem.upd_self (m : Mem) (b : Nat) : m.upd b (m.bytes b) = m := by
  cases m; simp only [Mem.upd, Mem.mk.injEq, and_true]; funext x
  by_cases h : x = b <;> simp [h]
theorem Mem.upd_of_eq {m : Mem} {b : Nat} {l} (h : l = m.bytes b) : m.upd b l = m := by
  subst h; simp
theorem Mem.upd_comm (m : Mem) {b b' : Nat} (h : b ≠ b') (l l') :
    (m.upd b l).upd b' l' = (m.upd b' l').upd b l := by
  unfold Mem.upd; congr; funext x
  by_cases h1 : x = b <;> by_cases h2 : x = b' <;> simp_all
@[simp] theorem Mem.upd_updW_comm (m : Mem) (b b' : Nat) (l l') :
    (m.updW b l).upd b' l' = (m.upd b' l').updW b l := rfl
theorem Mem.ext' {m m' : Mem} (h : ∀ b, m.bytes b = m'.bytes b) (h' : ∀ b, m.words b = m'.words b) :
    m = m' := by
  cases m; cases m'; simp at *; exact ⟨funext h, funext h'⟩

theorem load_ok {b o : Nat} {m : Mem} {v : Byte} (h : (m.bytes b)[o]? = some v) :
    load (ptr b o) m = .ok v m := by simp [load, h]
theorem load_lt {b o : Nat} {m : Mem} (h : o < (m.bytes b).length) :
    load (ptr b o) m = .ok ((m.bytes b)[o]) m := load_ok (by simp [h])
theorem load_oob {b o : Nat} {m : Mem} (h : (m.bytes b).length ≤ o) :
    load (ptr b o) m = .ub .oobRead := by simp [load, h]
theorem load_neg {p : Ptr} {m : Mem} (h : p.off < 0) : load p m = .ub .oobRead := by
  have : ¬ 0 ≤ p.off := by omega
  simp [load, this]
theorem store_ok {b o : Nat} {m : Mem} {v : Byte} (h : o < (m.bytes b).length) :
    store (ptr b o) v m = .ok () (m.upd b ((m.bytes b).set o v)) := by
  have : (o : Int) < (m.bytes b).length := by omega
  simp [store, h]
theorem store_oob {b o : Nat} {m : Mem} {v : Byte} (h : (m.bytes b).length ≤ o) :
    store (ptr b o) v m = .ub .oobWrite := by
  have : ¬ o < (m.bytes b).length := by omega
  simp [store, this]
theorem loadN_ok {b o n : Nat} {m : Mem} (h : o + n ≤ (m.bytes b).length) :
    loadN (ptr b o) n m = .ok (slice (m.bytes b) o n) m := by
  have : (o : Int) + n ≤ (m.bytes b).length := by omega
  by_cases hn : n = 0 <;> simp [loadN, hn, this, slice]
theorem loadN_oob {b o n : Nat} {m : Mem} (hn : 0 < n) (h : (m.bytes b).length < o + n) :
    loadN (ptr b o) n m = .ub .oobRead := by
  have h1 : ¬ (o : Int) + n ≤ (m.bytes b).length := by omega
  have h2 : n ≠ 0 := by omega
  simp [loadN, h1, h2]
theorem loadN_neg {p : Ptr} {n : Nat} {m : Mem} (hn : 0 < n) (h : p.off < 0) :
    loadN p n m = .ub .oobRead := by
  have h1 : ¬ (0 ≤ p.off) := by omega
  have h2 : n ≠ 0 := by omega
  simp [loadN, h1, h2]

@[simp] theorem splice_length {α} (l : List α) (i : Nat) (s : List α) (h : i + s.length ≤ l.length) :
    (splice l i s).length = l.length := by
  simp [splice]; omega
theorem splice_nil {α} (l : List α) (i : Nat) : splice l i [] = l := by simp [splice]
@[simp] theorem slice_length {α} (l : List α) (i n : Nat) (h : i + n ≤ l.length) :
    (slice l i n).length = n := by
  simp [slice]; omega
theorem slice_zero {α} (l : List α) (i : Nat) : slice l i 0 = [] := by simp [slice]

theorem getElem?_slice {α} (l : List α) (i n k : Nat) :
    (slice l i n)[k]? = if k < n then l[i + k]? else none := by
  simp only [slice, List.getElem?_take, List.getElem?_drop]

theorem getElem?_splice {α} (l : List α) (i : Nat) (s : List α) (h : i + s.length ≤ l.length)
    (k : Nat) :
    (splice l i s)[k]? = if k < i then l[k]? else if k < i + s.length then s[k - i]? else l[k]? := by
  unfold splice
  have hi : (l.take i).length = i := by simp; omega
  rw [List.append_assoc]
  by_cases h1 : k < i
  · rw [List.getElem?_append_left (by omega)]
    simp [h1]
  · rw [List.getElem?_append_right (by omega), hi]
    simp only [h1, if_false]
    by_cases h2 : k < i + s.length
    · rw [List.getElem?_append_left (by omega)]; simp [h2]
    · rw [List.getElem?_append_right (by omega)]
      simp only [h2, if_false, List.getElem?_drop]
      congr 1; omega

theorem slice_splice_same {α} (l : List α) (i : Nat) (s : List α) (h : i + s.length ≤ l.length) :
    slice (splice l i s) i s.length = s := by
  apply List.ext_getElem?; intro k
  rw [getElem?_slice, getElem?_splice _ _ _ h]
  split
  · rw [if_neg (by omega), if_pos (by omega)]; congr 1; omega
  · rw [List.getElem?_eq_none (by omega)]

theorem slice_splice_disj {α} (l : List α) (i j n : Nat) (s : List α)
    (h : j + s.length ≤ l.length) (hd : i + n ≤ j ∨ j + s.length ≤ i) :
    slice (splice l j s) i n = slice l i n := by
  apply List.ext_getElem?; intro k
  rw [getElem?_slice, getElem?_splice _ _ _ h, getElem?_slice]
  split
  · by_cases h1 : i + k < j
    · rw [if_pos h1]
    · rw [if_neg h1, if_neg (by omega)]
  · rfl

theorem storeN_ok {b o : Nat} {m : Mem} {s : List Byte} (h : o + s.length ≤ (m.bytes b).length) :
    storeN (ptr b o) s m = .ok () (m.upd b (splice (m.bytes b) o s)) := by
  have : (o : Int) + s.length ≤ (m.bytes b).length := by omega
  by_cases hs : s = []
  · subst hs; simp [storeN, splice_nil]
  · simp [storeN, hs, this]
theorem storeN_oob {b o : Nat} {m : Mem} {s : List Byte} (hs : s ≠ [])
    (h : (m.bytes b).length < o + s.length) :
    storeN (ptr b o) s m = .ub .oobWrite := by
  have h1 : ¬ (o : Int) + s.length ≤ (m.bytes b).length := by omega
  simp [storeN, hs, h1]

theorem overlaps_blk {p q : Ptr} (n : Nat) (h : p.blk ≠ q.blk) : overlaps p q n = false := by
  simp [overlaps, h]
theorem overlaps_ptr (b o o' n : Nat) :
    overlaps (ptr b o) (ptr b o') n = decide (o < o' + n ∧ o' < o + n) := by
  simp only [overlaps, true_and]
  congr 1
  apply propext; omega

/-- `memcpy` between valid, non-overlapping ranges. -/
theorem memcpy_ok {b o b' o' n : Nat} {m : Mem}
    (hd : o + n ≤ (m.bytes b).length) (hs : o' + n ≤ (m.bytes b').length)
    (hno : b ≠ b' ∨ o + n ≤ o' ∨ o' + n ≤ o) :
    memcpy (ptr b o) (ptr b' o') n m =
      .ok () (m.upd b (splice (m.bytes b) o (slice (m.bytes b') o' n))) := by
  have hov : overlaps (ptr b o) (ptr b' o') n = false := by
    by_cases hb : b = b'
    · subst hb; rw [overlaps_ptr]; simp; omega
    · exact overlaps_blk _ hb
  have hl : (slice (m.bytes b') o' n).length = n := slice_length _ _ _ hs
  unfold memcpy
  rw [hov]
  simp only [Bool.false_eq_true, if_false, C.bind_run, loadN_ok hs]
  exact storeN_ok (by omega)

theorem memeq_ok {b o b' o' n : Nat} {m : Mem}
    (hd : o + n ≤ (m.bytes b).length) (hs : o' + n ≤ (m.bytes b').length) :
    memeq (ptr b o) (ptr b' o') n m =
      .ok (slice (m.bytes b) o n == slice (m.bytes b') o' n) m := by
  simp [memeq, loadN_ok hd, loadN_ok hs]

theorem loadW_ok {b i : Nat} {m : Mem} {v : U32} (h : (m.words b)[i]? = some v) :
    loadW b i m = .ok v m := by simp [loadW, h]
theorem storeW_ok {b i : Nat} {m : Mem} {v : U32} (h : i < (m.words b).length) :
    storeW b i v m = .ok () (m.updW b ((m.words b).set i v)) := by simp [storeW, h]

@[simp] theorem forN_zero {σ} (i : Nat) (body : Nat → σ → C σ) (s : σ) (m : Mem) :
    forN 0 i body s m = .ok s m := rfl
theorem forN_succ {σ} (n i : Nat) (body : Nat → σ → C σ) (s : σ) (m : Mem) :
    forN (n+1) i body s m = match body i s m with
      | .ok s' m' => forN n (i+1) body s' m'
      | .ub e => .ub e := rfl
@[simp] theorem forDown_zero {σ} (body : Nat → σ → C σ) (s : σ) (m : Mem) :
    forDown 0 body s m = .ok s m := rfl
theorem forDown_succ {σ} (n : Nat) (body : Nat → σ → C σ) (s : σ) (m : Mem) :
    forDown (n+1) body s m = match body n s m with
      | .ok s' m' => forDown n body s' m'
      | .ub e => .ub e := rfl

theorem forN_add {σ} (n k i : Nat) (body : Nat → σ → C σ) (s : σ) (m : Mem) :
    forN (n+k) i body s m = match forN n i body s m with
      | .ok s' m' => forN k (i+n) body s' m'
      | .ub e => .ub e := by
  induction n generalizing i s m with
  | zero => simp
  | succ n ih =>
    rw [show n + 1 + k = (n + k) + 1 by omega, forN_succ, forN_succ]
    cases h : body i s m with
    | ub e => rfl
    | ok s' m' => simp only [ih]; rw [show i + 1 + n = i + (n + 1) by omega]

/-- Last-iteration unfolding of a counting loop. -/
theorem forN_snoc {σ} (n i : Nat) (body : Nat → σ → C σ) (s : σ) (m : Mem) :
    forN (n+1) i body s m = match forN n i body s m with
      | .ok s' m' => body (i+n) s' m'
      | .ub e => .ub e := by
  rw [forN_add]
  cases forN n i body s m with
  | ub e => rfl
  | ok s' m' =>
    simp only [forN_succ]
    cases body (i+n) s' m' <;> rfl

/-- Invariant rule for counting loops that cannot go wrong. -/
theorem forN_inv {σ} (I : Nat → σ → Mem → Prop) (n i : Nat) (body : Nat → σ → C σ) (s : σ) (m : Mem)
    (h0 : I i s m)
    (hs : ∀ k s m, i ≤ k → k < i + n → I k s m → ∃ s' m', body k s m = .ok s' m' ∧ I (k+1) s' m') :
    ∃ s' m', forN n i body s m = .ok s' m' ∧ I (i+n) s' m' := by
  induction n with
  | zero => exact ⟨s, m, rfl, h0⟩
  | succ n ih =>
    obtain ⟨s', m', h1, h2⟩ := ih (fun k s m hk hk' => hs k s m hk (by omega))
    obtain ⟨s'', m'', h3, h4⟩ := hs (i+n) s' m' (by omega) (by omega) h2
    refine ⟨s'', m'', ?_, h4⟩
    rw [forN_snoc, h1]; exact h3

/-- Invariant rule for downward loops: `I k` holds when `k` iterations are left. -/
theorem forDown_inv {σ} (I : Nat → σ → Mem → Prop) (n : Nat) (body : Nat → σ → C σ) (s : σ) (m : Mem)
    (h0 : I n s m)
    (hs : ∀ k s m, k < n → I (k+1) s m → ∃ s' m', body k s m = .ok s' m' ∧ I k s' m') :
    ∃ s' m', forDown n body s m = .ok s' m' ∧ I 0 s' m' := by
  induction n generalizing s m with
  | zero => exact ⟨s, m, rfl, h0⟩
  | succ n ih =>
    obtain ⟨s', m', h1, h2⟩ := hs n s m (by omega) h0
    obtain ⟨s'', m'', h3, h4⟩ := ih s' m' h2 (fun k s m hk => hs k s m (by omega))
    exact ⟨s'', m'', by rw [forDown_succ, h1]; exact h3, h4⟩

end IMU
