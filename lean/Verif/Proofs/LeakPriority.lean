import Verif.Proofs.LeakSearch

/-!
# What the searches of the priority queue show
-/

namespace IMU.PQ
open T Spec.Leak

variable (lt : U32 → U32 → Bool)

/-- Lemma support: which items replace the best one so far. -/
def rises : U32 → List U32 → List Bool
  | _, [] => []
  | best, w :: l => lt best w :: rises (if lt best w then w else best) l

/-- Lemma support: the best item. -/
def bestOf : U32 → List U32 → U32
  | best, [] => best
  | best, w :: l => bestOf (if lt best w then w else best) l

/-- Lemma support: the index of the last replacement. -/
def lastOf (d : U32) : Nat → List Bool → U32
  | _, [] => d
  | i, c :: l => lastOf (if c then BitVec.ofNat 32 i else d) (i + 1) l

/-- Lemma support: what the loop shows. -/
def searchTr (b : Nat) : Nat → List Bool → List Leak
  | _, [] => [.branch false]
  | i, c :: l => .branch true :: .read (ptr b i) :: .branch c :: searchTr b (i + 1) l

variable {lt}

theorem loadWT_exact {b i : Nat} {m m' : Mem} {w : U32} {t : List Leak} (h : loadWT b i m = .ok (w, t) m') :
    (m.words b)[i]? = some w ∧ m' = m ∧ t = [.read (ptr b i)] := by
  obtain ⟨_, u1, m1, u2, h1, h2, rfl⟩ := bind_cases h
  cases h1
  obtain ⟨g, rfl⟩ := quiet_cases h2
  unfold loadW at g
  cases hw : (m.words b)[i]? with
  | none => rw [hw] at g; cases g
  | some v => rw [hw] at g; cases g; exact ⟨rfl, rfl, rfl⟩

theorem search_cases {b : Nat} (l : List U32) : ∀ {i : Nat} {s r : U32 × U32} {m m' : Mem} {t : List Leak},
    (∀ j : Nat, j < l.length → (m.words b)[i + j]? = l[j]?) → i + l.length ≤ 2 ^ 32 →
    forNT l.length i (fun i (s : U32 × U32) => do
        let p ← loadWT b i
        let c ← T.branch (lt s.1 p)
        if c then return (p, BitVec.ofNat 32 i) else return s) s m = .ok (r, t) m' →
    m' = m ∧ t = searchTr b i (rises lt s.1 l) ∧ r.1 = bestOf lt s.1 l ∧ r.2 = lastOf s.2 i (rises lt s.1 l) ∧
      ((m.words b)[s.2.toNat]? = some s.1 → (m.words b)[r.2.toNat]? = some r.1) := by
  induction l with
  | nil =>
    intro i s r m m' t hl hi h
    obtain ⟨u, g, rfl⟩ := Vernam.branch_exact h
    obtain ⟨rfl, rfl, rfl⟩ := pure_cases g
    exact ⟨rfl, rfl, rfl, rfl, id⟩
  | cons w l ih =>
    intro i s r m m' t hl hi h
    obtain ⟨u, g, rfl⟩ := Vernam.branch_exact h
    obtain ⟨s', t1, m1, r1, h1, x1, rfl⟩ := bind_cases g
    obtain ⟨w', t2, m2, r2, h2, x2, rfl⟩ := bind_cases h1
    obtain ⟨hw, rfl, rfl⟩ := loadWT_exact h2
    obtain ⟨u2, x3, rfl⟩ := Vernam.branch_exact x2
    have e := hl 0 (by simp)
    rw [Nat.add_zero, hw] at e
    simp only [List.getElem?_cons_zero, Option.some.injEq] at e
    subst e
    have hl' : ∀ j : Nat, j < l.length → (m2.words b)[i + 1 + j]? = l[j]? := by
      intro j hj
      have e := hl (j + 1) (by simpa using hj)
      rw [List.getElem?_cons_succ] at e
      rw [← e]; congr 1; omega
    rw [List.length_cons] at hi
    have hw2 : (m2.words b)[(BitVec.ofNat 32 i).toNat]? = some w' := by
      rw [BitVec.toNat_ofNat, Nat.mod_eq_of_lt (by omega)]; exact hw
    simp only [rises, bestOf, lastOf, searchTr]
    by_cases hc : lt s.1 w' = true
    · rw [if_pos hc] at x3
      obtain ⟨rfl, rfl, rfl⟩ := pure_cases x3
      obtain ⟨e1, rfl, e3, e4, e5⟩ := ih hl' (by omega) x1
      rw [if_pos hc, if_pos hc, e1]
      exact ⟨rfl, rfl, e3, e4, fun _ => e5 hw2⟩
    · rw [if_neg hc] at x3
      obtain ⟨rfl, rfl, rfl⟩ := pure_cases x3
      obtain ⟨e1, rfl, e3, e4, e5⟩ := ih hl' (by omega) x1
      rw [if_neg hc, if_neg hc, e1]
      exact ⟨rfl, rfl, e3, e4, e5⟩

theorem searchTr_inj {b : Nat} : ∀ {i : Nat} {l l2 : List Bool} {x x2 : List Leak}, l.length = l2.length →
    searchTr b i l ++ x = searchTr b i l2 ++ x2 → l = l2 ∧ x = x2
  | _, [], [], _, _, _, h => by simpa [searchTr] using h
  | _, [], _ :: _, _, _, h, _ => by simp at h
  | _, _ :: _, [], _, _, h, _ => by simp at h
  | i, c :: l, c2 :: l2, x, x2, hl, h => by
    simp only [searchTr, List.cons_append, List.cons.injEq, true_and, Leak.branch.injEq] at h
    obtain ⟨e1, e2⟩ := searchTr_inj (by simpa using hl) h.2
    exact ⟨by rw [h.1, e1], e2⟩

theorem rises_length : ∀ (w : U32) (l : List U32), (rises lt w l).length = l.length
  | _, [] => rfl
  | w, v :: l => by simp only [rises, List.length_cons, rises_length]

theorem rises_get (htr : ∀ a b c, lt a b = true → lt b c = true → lt a c = true)
    (hneg : ∀ a b c, ¬ lt a b = true → lt a c = true → lt b c = true) :
    ∀ (best : U32) (l : List U32) (i : Nat), i < l.length →
      ((rises lt best l)[i]? = some true ↔ lt best (l.getD i 0) = true ∧ ∀ j, j < i → lt (l.getD j 0) (l.getD i 0) = true)
  | _, [], _, h => by simp at h
  | best, w :: l, 0, _ => by simp [rises]
  | best, w :: l, i + 1, h => by
    simp only [rises, List.getElem?_cons_succ, List.getD_cons_succ]
    rw [rises_get htr hneg _ l i (by simpa using h)]
    constructor
    · rintro ⟨h1, h2⟩
      by_cases hc : lt best w = true
      · rw [if_pos hc] at h1
        refine ⟨htr _ _ _ hc h1, fun j hj => ?_⟩
        cases j with
        | zero => exact h1
        | succ j => rw [List.getD_cons_succ]; exact h2 j (by omega)
      · rw [if_neg hc] at h1
        refine ⟨h1, fun j hj => ?_⟩
        cases j with
        | zero => exact hneg _ _ _ hc h1
        | succ j => rw [List.getD_cons_succ]; exact h2 j (by omega)
    · rintro ⟨h1, h2⟩
      refine ⟨?_, fun j hj => ?_⟩
      · by_cases hc : lt best w = true
        · rw [if_pos hc]; exact h2 0 (by omega)
        · rw [if_neg hc]; exact h1
      · have := h2 (j + 1) (by omega)
        rwa [List.getD_cons_succ] at this

/-- Started with the first item, the replacements are the places where an item beats all before it. -/
theorem rises_eq_iff (hirr : ∀ a, ¬ lt a a = true) (htr : ∀ a b c, lt a b = true → lt b c = true → lt a c = true)
    (hneg : ∀ a b c, ¬ lt a b = true → lt a c = true → lt b c = true) {l l2 : List U32} (hl : l.length = l2.length) :
    rises lt (l.getD 0 0) l = rises lt (l2.getD 0 0) l2 ↔ ∀ i, 0 < i → i < l.length →
      ((∀ j, j < i → lt (l.getD j 0) (l.getD i 0) = true) ↔ ∀ j, j < i → lt (l2.getD j 0) (l2.getD i 0) = true) := by
  have key : ∀ (l : List U32) (i : Nat), 0 < i → i < l.length → ((rises lt (l.getD 0 0) l)[i]? = some true ↔
      ∀ j, j < i → lt (l.getD j 0) (l.getD i 0) = true) := by
    intro l i h0 hi
    rw [rises_get htr hneg _ l i hi]
    exact ⟨fun h => h.2, fun h => ⟨h 0 h0, h⟩⟩
  have key0 : ∀ (l : List U32), 0 < l.length → ¬ (rises lt (l.getD 0 0) l)[0]? = some true := by
    intro l h0 h
    exact hirr _ ((rises_get htr hneg _ l 0 h0).mp h).1
  constructor
  · intro e i h0 hi
    rw [← key l i h0 hi, ← key l2 i h0 (by omega), e]
  · intro h
    apply List.ext_getElem?
    intro i
    by_cases hi : i < l.length
    · have hb : ∀ (x y : Option Bool), x.isSome → y.isSome → (x = some true ↔ y = some true) → x = y := by
        intro x y hx hy h
        obtain ⟨x, rfl⟩ := Option.isSome_iff_exists.mp hx
        obtain ⟨y, rfl⟩ := Option.isSome_iff_exists.mp hy
        cases x <;> cases y <;> simp_all
      apply hb
      · rw [List.getElem?_eq_getElem (by rw [rises_length]; exact hi)]; rfl
      · rw [List.getElem?_eq_getElem (by rw [rises_length]; omega)]; rfl
      · by_cases h0 : 0 < i
        · rw [key l i h0 hi, key l2 i h0 (by omega)]
          exact h i h0 hi
        · have : i = 0 := by omega
          subst this
          exact iff_of_false (key0 l hi) (key0 l2 (by omega))
    · rw [List.getElem?_eq_none_iff.mpr (by rw [rises_length]; omega), List.getElem?_eq_none_iff.mpr (by rw [rises_length]; omega)]

theorem bestOf_lt (p : U32) : ∀ (best : U32) (l : List U32),
    (bestOf (fun a b => decide (a > b)) best l < p ↔ best < p ∨ ∃ x ∈ l, x < p)
  | best, [] => by simp [bestOf]
  | best, w :: l => by
    unfold bestOf
    rw [bestOf_lt p _ l]
    simp only [decide_eq_true_eq, List.mem_cons, exists_eq_or_imp]
    rw [← or_assoc]
    apply or_congr_left
    by_cases h : best > w
    · rw [if_pos h]
      constructor
      · exact fun h => .inr h
      · rintro (h1 | h1)
        · bv_omega
        · exact h1
    · rw [if_neg h]
      constructor
      · exact fun h => .inl h
      · rintro (h1 | h1)
        · exact h1
        · bv_omega

/-! ### The functions -/

theorem fixed_shift (q : PQueue) (i n : U32) : Fixed (shiftDownT q i n) := by
  have hb : ∀ i : Nat, ∃ tr, ∀ _ : Unit, Shows (do
      let iw := BitVec.ofNat 32 i
      memcpyT (q.buffer.addN (iw * q.element_size).toNat)
        (q.buffer.addN (iw * q.element_size + q.element_size).toNat) q.element_size.toNat
      let p ← loadWT q.priority_array (iw + 1#32).toNat
      storeWT q.priority_array i p) tr := by
    intro i
    exact ⟨_, fun _ => Shows.bind (Shows.bind (Shows.emit _) fun _ => Shows.quiet _) fun _ =>
      Shows.bind (Shows.bind (Shows.emit _) fun _ => Shows.quiet _) fun _ => Shows.bind (Shows.emit _) fun _ => Shows.quiet _⟩
  choose tr htr using hb
  exact ⟨_, Shows.forNT (tr := tr) htr _ _ _⟩

theorem Fixed.seq {β : Type} {x : T Unit} {f : Unit → T β} (hx : Fixed x) (h : Fixed (f ())) : Fixed (x >>= f) :=
  let ⟨_, hx⟩ := hx; let ⟨_, h⟩ := h; ⟨_, Shows.bind hx fun _ => h⟩

variable {q : PQueue} {m m' : Mem}

theorem slice_words {b n : Nat} (hn : n ≤ (m.words b).length) :
    (slice (m.words b) 0 n).length = n ∧ (∀ j : Nat, j < n → (m.words b)[0 + j]? = (slice (m.words b) 0 n)[j]?) := by
  refine ⟨slice_len (by omega), fun j hj => ?_⟩
  unfold slice
  rw [List.drop_zero, List.getElem?_take, if_pos hj, Nat.zero_add]

theorem getD_zero {l : List U32} {w : U32} (h : l[0]? = some w) : l.getD 0 0 = w := by
  rw [List.getD_eq_getElem?_getD, h]; rfl

theorem highest_cases {r : U32} {t : List Leak} (h0 : 0 < q.size.toNat) (hn : q.size.toNat ≤ (m.words q.priority_array).length)
    (h : getHighestPriorityIndexT q m = .ok (r, t) m') :
    ∀ l, l = slice (m.words q.priority_array) 0 q.size.toNat →
    m' = m ∧ t = .read (ptr q.priority_array 0) :: searchTr q.priority_array 0 (rises (fun a b => decide (a < b)) (l.getD 0 0) l) ∧
      r = lastOf 0#32 0 (rises (fun a b => decide (a < b)) (l.getD 0 0) l) := by
  rintro l rfl
  obtain ⟨sl, sg⟩ := slice_words hn
  generalize slice (m.words q.priority_array) 0 q.size.toNat = l at sl sg ⊢
  unfold getHighestPriorityIndexT at h
  obtain ⟨w, t1, m1, r1, h1, x1, rfl⟩ := bind_cases h
  obtain ⟨hw, rfl, rfl⟩ := loadWT_exact h1
  obtain ⟨s, t2, m2, r2, h2, x2, rfl⟩ := bind_cases x1
  rw [← sl] at h2 sg
  obtain ⟨rfl, rfl, e3, e4, -⟩ := search_cases (lt := fun a b => decide (a < b)) l sg (by have := q.size.isLt; omega) h2
  obtain ⟨rfl, rfl, rfl⟩ := pure_cases x2
  have e0 : l.getD 0 0 = w := getD_zero (by rw [← sg 0 (by omega)]; exact hw)
  rw [e0]
  refine ⟨rfl, by simp, e4⟩

theorem lowest_cases {r : U32} {t : List Leak} (h0 : 0 < q.size.toNat) (hn : q.size.toNat ≤ (m.words q.priority_array).length)
    (h : getLowestPriorityIndexT q m = .ok (r, t) m') :
    ∀ l, l = slice (m.words q.priority_array) 0 q.size.toNat →
    m' = m ∧ t = .read (ptr q.priority_array 0) :: searchTr q.priority_array 0 (rises (fun a b => decide (a > b)) (l.getD 0 0) l) ∧
      r = lastOf 0#32 0 (rises (fun a b => decide (a > b)) (l.getD 0 0) l) ∧
      (m.words q.priority_array)[r.toNat]? = some (bestOf (fun a b => decide (a > b)) (l.getD 0 0) l) := by
  rintro l rfl
  obtain ⟨sl, sg⟩ := slice_words hn
  generalize slice (m.words q.priority_array) 0 q.size.toNat = l at sl sg ⊢
  unfold getLowestPriorityIndexT at h
  obtain ⟨w, t1, m1, r1, h1, x1, rfl⟩ := bind_cases h
  obtain ⟨hw, rfl, rfl⟩ := loadWT_exact h1
  obtain ⟨s, t2, m2, r2, h2, x2, rfl⟩ := bind_cases x1
  rw [← sl] at h2 sg
  obtain ⟨rfl, rfl, e3, e4, e5⟩ := search_cases (lt := fun a b => decide (a > b)) l sg (by have := q.size.isLt; omega) h2
  obtain ⟨rfl, rfl, rfl⟩ := pure_cases x2
  have e0 : l.getD 0 0 = w := getD_zero (by rw [← sg 0 (by omega)]; exact hw)
  rw [e0]
  refine ⟨rfl, by simp, e4, ?_⟩
  rw [e5 hw, e3]

theorem dequeue_rest (q : PQueue) (el : Ptr) (h0 : empty q = false) : ∃ f : U32 → List Leak,
    ∀ {m m' : Mem} {r : Bool × PQueue} {t : List Leak}, dequeueT q el m = .ok (r, t) m' →
    ∃ i u m1, getHighestPriorityIndexT q m = .ok (i, u) m1 ∧ t = .branch true :: (u ++ f i) := by
  have : ∀ highest : U32, Fixed (do
      memcpyT el (q.buffer.addN (highest * q.element_size).toNat) q.element_size.toNat
      let q := { q with size := q.size - 1#32 }
      shiftDownT q highest q.size
      return (true, q)) := fun _ => .memcpy (Fixed.seq (fixed_shift _ _ _) (.pure _))
  choose f hf using this
  refine ⟨f, fun {m m' r t} h => ?_⟩
  unfold dequeueT at h
  rw [h0] at h
  obtain ⟨u0, g, rfl⟩ := Vernam.branch_exact h
  rw [if_pos (by decide)] at g
  obtain ⟨i, u, m1, u2, h1, h2, rfl⟩ := bind_cases g
  exact ⟨i, u, m1, h1, by rw [hf i _ _ _ _ h2]; rfl⟩

theorem enqueue_rest (q : PQueue) (el : Ptr) (h0 : full q = true) : ∃ f : Bool → U32 → List Leak,
    ∀ {m m' : Mem} {p : U32} {r : Bool × PQueue} {t : List Leak}, enqueueT q el p m = .ok (r, t) m' →
    ∃ i u m1 w, getLowestPriorityIndexT q m = .ok (i, u) m1 ∧ (m1.words q.priority_array)[i.toNat]? = some w ∧
      t = .branch false :: (u ++ (.read (ptr q.priority_array i.toNat) :: .branch (decide (w < p)) :: f (decide (w < p)) i)) := by
  have : ∀ (c : Bool) (lowest : U32), ∃ tr, ∀ priority, Shows (if c then do
      let q := { q with size := q.size - 1#32 }
      shiftDownT q lowest q.size
      memcpyT (q.buffer.addN (q.size * q.element_size).toNat) el q.element_size.toNat
      storeWT q.priority_array q.size.toNat priority
      return (true, { q with size := q.size + 1#32 })
    else return (false, q)) tr := by
    intro c lowest
    cases c with
    | false => exact ⟨_, fun _ => Shows.pure _⟩
    | true =>
      obtain ⟨tr, htr⟩ := fixed_shift { q with size := q.size - 1#32 } lowest (q.size - 1#32)
      exact ⟨_, fun _ => Shows.bind htr fun _ => Shows.bind (Shows.bind (Shows.emit _) fun _ => Shows.quiet _) fun _ =>
        Shows.bind (Shows.bind (Shows.emit _) fun _ => Shows.quiet _) fun _ => Shows.pure _⟩
  choose f hf using this
  refine ⟨f, fun {m m' p r t} h => ?_⟩
  unfold enqueueT at h
  rw [h0] at h
  obtain ⟨u0, g, rfl⟩ := Vernam.branch_exact h
  rw [if_neg (by decide)] at g
  obtain ⟨i, u, m1, u2, h1, h2, rfl⟩ := bind_cases g
  obtain ⟨w, t3, m3, u3, h3, h4, rfl⟩ := bind_cases h2
  obtain ⟨hw, rfl, rfl⟩ := loadWT_exact h3
  obtain ⟨u5, h5, rfl⟩ := Vernam.branch_exact h4
  exact ⟨i, u, m3, w, h1, hw, by rw [hf _ i p _ _ _ _ h5]; rfl⟩

end IMU.PQ
