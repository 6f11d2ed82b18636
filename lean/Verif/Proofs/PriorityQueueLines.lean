import Verif.Proofs.PriorityQueueOrder
import Verif.Spec.PriorityQueueLines

/-!
# Lemmas: what a priority queue keeps
-/

namespace IMU.PQ
open Spec Props

theorem _root_.IMU.Spec.SameLines.symm {xs ys : List PItem} (h : SameLines xs ys) : SameLines ys xs := fun p => (h p).symm

theorem _root_.IMU.Spec.SameLines.perm {xs ys : List PItem} (h : SameLines xs ys) : xs.Perm ys := by
  rw [List.perm_iff_count]
  intro a
  have key : ∀ l : List PItem, l.count a = (l.filter fun y => decide (y.1 = a.1)).count a := fun l => by
    rw [List.count_filter (by simp)]
  rw [key xs, key ys, h a.1]

theorem _root_.IMU.Spec.SameLines.mem {xs ys : List PItem} (h : SameLines xs ys) {y : PItem} : y ∈ xs ↔ y ∈ ys := h.perm.mem_iff

theorem _root_.IMU.Spec.SameLines.append {xs ys us vs : List PItem} (h : SameLines xs ys) (h' : SameLines us vs) :
    SameLines (xs ++ us) (ys ++ vs) := fun p => by rw [List.filter_append, List.filter_append, h p, h' p]

/-- Taking the first item of a priority out of either list. -/
theorem _root_.IMU.Spec.SameLines.drop {pre post pre' post' : List PItem} {x x' : PItem} (h : SameLines (pre ++ x :: post) (pre' ++ x' :: post'))
    (hx : x.1 = x'.1) (h1 : ∀ y ∈ pre, y.1 ≠ x.1) (h2 : ∀ y ∈ pre', y.1 ≠ x'.1) :
    x = x' ∧ SameLines (pre ++ post) (pre' ++ post') := by
  have e1 : pre.filter (fun y => decide (y.1 = x.1)) = [] := by
    rw [List.filter_eq_nil_iff]; intro y hy; simpa using h1 y hy
  have e2 : pre'.filter (fun y => decide (y.1 = x.1)) = [] := by
    rw [List.filter_eq_nil_iff, hx]; intro y hy; simpa using h2 y hy
  have hh := h x.1
  rw [List.filter_append, List.filter_append, e1, e2, List.nil_append, List.nil_append, List.filter_cons_of_pos (by simp),
    List.filter_cons_of_pos (by simp [hx]), List.cons.injEq] at hh
  refine ⟨hh.1, fun p => ?_⟩
  rw [List.filter_append, List.filter_append]
  by_cases hp : x.1 = p
  · subst hp
    rw [e1, e2, hh.2]
  · have := h p
    rw [List.filter_append, List.filter_append, List.filter_cons_of_neg (by simpa using hp),
      List.filter_cons_of_neg (by rw [← hx]; simpa using hp)] at this
    exact this

theorem lines_step {cap : Nat} {xs ys xs' ys' out out' : List PItem} {op : PQOp} {o o' : PQObs} (hl : SameLines xs ys)
    (h : PQStep cap xs op o out xs') (h' : PQStep cap ys op o' out' ys') : o = o' ∧ out = out' ∧ SameLines xs' ys' := by
  have hlen := hl.perm.length_eq
  cases op with
  | enq p e =>
    generalize hop : PQOp.enq p e = op at h h'
    cases h with
    | enq hr =>
      cases hop
      cases h' with
      | enq => exact ⟨rfl, rfl, hl.append fun _ => rfl⟩
      | evict hf => omega
      | reject hf => omega
    | @evict pre x post _ _ hf ha hb hc =>
      cases hop
      generalize hy : ys = ys1 at h'
      cases h' with
      | enq hr => subst hy; omega
      | @evict pre' x' post' _ _ hf' ha' hb' hc' =>
        subst hy
        have hle : ∀ y ∈ pre ++ x :: post, x.1.toNat ≤ y.1.toNat := by
          intro y hy
          simp only [List.mem_append, List.mem_cons] at hy
          rcases hy with g | rfl | g
          · have := ha y g; simp only [BitVec.lt_def] at this; omega
          · exact Nat.le_refl _
          · have := hb y g; simpa only [BitVec.le_def] using this
        have hle' : ∀ y ∈ pre' ++ x' :: post', x'.1.toNat ≤ y.1.toNat := by
          intro y hy
          simp only [List.mem_append, List.mem_cons] at hy
          rcases hy with g | rfl | g
          · have := ha' y g; simp only [BitVec.lt_def] at this; omega
          · exact Nat.le_refl _
          · have := hb' y g; simpa only [BitVec.le_def] using this
        have hx : x.1 = x'.1 := BitVec.eq_of_toNat_eq
          (Nat.le_antisymm (hle x' (hl.mem.2 (by simp))) (hle' x (hl.mem.1 (by simp))))
        obtain ⟨rfl, hs⟩ := SameLines.drop hl hx
          (fun y hy e => by have := ha y hy; rw [e] at this; exact BitVec.lt_irrefl _ this)
          (fun y hy e => by have := ha' y hy; rw [e] at this; exact BitVec.lt_irrefl _ this)
        exact ⟨rfl, rfl, hs.append fun _ => rfl⟩
      | reject hf' hr =>
        subst hy
        exfalso
        have := hr x (hl.mem.1 (by simp))
        simp only [BitVec.lt_def, BitVec.le_def] at *; omega
    | reject hf hr =>
      cases hop
      cases h' with
      | enq hr => omega
      | @evict pre' x' post' _ _ hf' ha' hb' hc' =>
        exfalso
        have := hr x' (hl.mem.2 (by simp))
        simp only [BitVec.lt_def, BitVec.le_def] at *; omega
      | reject => exact ⟨rfl, rfl, hl⟩
    | deq | deqEmpty | empty => cases hop
  | deq =>
    generalize hop : PQOp.deq = op at h h'
    cases h with
    | enq | evict | reject | empty => cases hop
    | @deq pre x post ha hb =>
      generalize hy : ys = ys1 at h'
      cases h' with
      | @deq pre' x' post' ha' hb' =>
        subst hy
        have hle : ∀ y ∈ pre ++ x :: post, y.1.toNat ≤ x.1.toNat := by
          intro y hy
          simp only [List.mem_append, List.mem_cons] at hy
          rcases hy with g | rfl | g
          · have := ha y g; simp only [BitVec.lt_def] at this; omega
          · exact Nat.le_refl _
          · have := hb y g; simpa only [BitVec.le_def] using this
        have hle' : ∀ y ∈ pre' ++ x' :: post', y.1.toNat ≤ x'.1.toNat := by
          intro y hy
          simp only [List.mem_append, List.mem_cons] at hy
          rcases hy with g | rfl | g
          · have := ha' y g; simp only [BitVec.lt_def] at this; omega
          · exact Nat.le_refl _
          · have := hb' y g; simpa only [BitVec.le_def] using this
        have hx : x.1 = x'.1 := BitVec.eq_of_toNat_eq
          (Nat.le_antisymm (hle' x (hl.mem.1 (by simp))) (hle x' (hl.mem.2 (by simp))))
        obtain ⟨rfl, hs⟩ := SameLines.drop hl hx
          (fun y hy e => by have := ha y hy; rw [e] at this; exact BitVec.lt_irrefl _ this)
          (fun y hy e => by have := ha' y hy; rw [e] at this; exact BitVec.lt_irrefl _ this)
        exact ⟨rfl, rfl, hs⟩
      | deqEmpty => subst hy; simp at hlen
    | deqEmpty =>
      generalize hy : ys = ys1 at h'
      cases h' with
      | deq => subst hy; simp at hlen
      | deqEmpty => exact ⟨rfl, rfl, fun _ => rfl⟩
  | empty =>
    cases h; cases h'
    refine ⟨?_, rfl, hl⟩
    have : xs = [] ↔ ys = [] := by rw [← List.length_eq_zero_iff, ← List.length_eq_zero_iff, hlen]
    simp only [this]

theorem lines_run {cap : Nat} {ops : List PQOp} : ∀ {xs ys xs' ys' out out' : List PItem} {o o' : List PQObs}, SameLines xs ys →
    PQRun cap xs ops o out xs' → PQRun cap ys ops o' out' ys' → o = o' ∧ out = out' ∧ SameLines xs' ys' := by
  induction ops with
  | nil => intro xs ys xs' ys' out out' o o' hl h h'; cases h; cases h'; exact ⟨rfl, rfl, hl⟩
  | cons op ops ih =>
    intro xs ys xs' ys' out out' o o' hl h h'
    cases h with
    | cons h1 h2 =>
      cases h' with
      | cons h1' h2' =>
        obtain ⟨rfl, rfl, hl1⟩ := lines_step hl h1 h1'
        obtain ⟨rfl, rfl, hl2⟩ := ih hl1 h2 h2'
        exact ⟨rfl, rfl, hl2⟩

/-! ### Telling two queues apart -/

theorem deq_count {cap : Nat} : ∀ (k : Nat) {xs zs out : List PItem} {os : List PQObs},
    PQRun cap xs (List.replicate k .deq) os out zs → os.countP (·.1) = min k xs.length := by
  intro k
  induction k with
  | zero => intro xs zs out os h; cases h; simp
  | succ k ih =>
    intro xs zs out os h
    cases h with
    | cons h1 h2 =>
      have := ih h2
      cases h1 with
      | @deq pre x post =>
        rw [List.countP_cons_of_pos rfl, this]
        simp only [List.length_append, List.length_cons]
        omega
      | deqEmpty =>
        rw [List.countP_cons_of_neg (by simp), this]
        simp

theorem evict_count {cap : Nat} {p : U32} {e : List Byte} : ∀ (k : Nat) {xs zs out : List PItem} {os : List PQObs},
    xs.length = cap → PQRun cap xs (List.replicate k (.enq p e)) os out zs →
    os.countP (·.1) = min k (xs.countP fun y => y.1 < p) := by
  intro k
  induction k with
  | zero => intro xs zs out os hx h; cases h; simp
  | succ k ih =>
    intro xs zs out os hx h
    cases h with
    | cons h1 h2 =>
      cases h1 with
      | enq hr => omega
      | @evict pre x post _ _ hf ha hb hc =>
        rw [List.countP_cons_of_pos rfl, ih (by simp only [List.length_append, List.length_cons, List.length_nil] at hf ⊢; omega) h2]
        simp only [List.countP_append, List.countP_cons, List.countP_nil, BitVec.lt_irrefl, decide_false, hc, decide_true]
        simp only [Bool.false_eq_true, if_false, if_true]
        omega
      | reject hf hr =>
        rw [List.countP_cons_of_neg (by simp), ih hx h2]
        have : xs.countP (fun y => decide (y.1 < p)) = 0 := by
          rw [List.countP_eq_zero]
          intro y hy
          have := hr y hy
          simp only [decide_eq_true_eq, BitVec.lt_def, BitVec.le_def] at *; omega
        omega

theorem fill_count {cap : Nat} {p M : U32} {e : List Byte} (hM : p ≤ M) (k : Nat) : ∀ (j : Nat) {xs zs out : List PItem} {os : List PQObs},
    j + xs.length = cap → PQRun cap xs (List.replicate j (.enq M e) ++ List.replicate k (.enq p e)) os out zs →
    os.countP (·.1) = j + min k (xs.countP fun y => y.1 < p) := by
  intro j
  induction j with
  | zero =>
    intro xs zs out os hx h
    rw [evict_count k (by omega) h]; omega
  | succ j ih =>
    intro xs zs out os hx h
    cases h with
    | cons h1 h2 =>
      cases h1 with
      | enq hr =>
        rw [List.countP_cons_of_pos rfl, ih (by simp only [List.length_append, List.length_cons, List.length_nil]; omega) h2]
        have : ¬ M < p := by simp only [BitVec.lt_def, BitVec.le_def] at *; omega
        simp only [List.countP_append, List.countP_cons, List.countP_nil, this, decide_false, Bool.false_eq_true, if_false]
        omega
      | evict hf => omega
      | reject hf => omega

theorem countP_split (l : List PItem) (p : U32) :
    l.countP (fun y => decide (y.1.toNat < p.toNat + 1)) = l.countP (fun y => decide (y.1.toNat < p.toNat)) + (l.map (·.1)).count p := by
  induction l with
  | nil => rfl
  | cons a t ih =>
    rw [List.countP_cons, List.countP_cons, List.map_cons, List.count_cons, ih]
    by_cases h : a.1 = p
    · simp only [h, Nat.lt_succ_self, decide_true, Nat.lt_irrefl, decide_false, beq_self_eq_true]
      simp only [Bool.false_eq_true, if_false, if_true]; omega
    · have hn : a.1.toNat ≠ p.toNat := fun e => h (BitVec.eq_of_toNat_eq e)
      have : (a.1.toNat < p.toNat + 1) ↔ a.1.toNat < p.toNat := by omega
      simp only [this, beq_eq_false_iff_ne.2 h, Bool.false_eq_true, if_false]
      omega

theorem count_fst {xs ys : List PItem} (hlen : xs.length = ys.length)
    (h : ∀ p : U32, xs.countP (fun y => decide (y.1 < p)) = ys.countP fun y => decide (y.1 < p)) :
    (xs.map (·.1)).Perm (ys.map (·.1)) := by
  rw [List.perm_iff_count]
  intro p
  have e : ∀ n : Nat, n ≤ 2 ^ 32 → xs.countP (fun y => decide (y.1.toNat < n)) = ys.countP fun y => decide (y.1.toNat < n) := by
    intro n hn
    by_cases hn' : n < 2 ^ 32
    · have := h (BitVec.ofNat 32 n)
      simpa only [BitVec.lt_def, BitVec.toNat_ofNat, Nat.mod_eq_of_lt hn'] using this
    · have : n = 2 ^ 32 := by omega
      subst this
      rw [List.countP_eq_length.2 (fun y _ => by simpa using y.1.isLt),
        List.countP_eq_length.2 (fun y _ => by simpa using y.1.isLt), hlen]
  have h1 := e (p.toNat + 1) p.isLt
  have h2 := e p.toNat (Nat.le_of_lt p.isLt)
  rw [countP_split, countP_split] at h1
  omega

theorem pairs_ext : ∀ {X Y : List PItem}, X.map (·.1) = Y.map (·.1) → X.map (·.2) = Y.map (·.2) → X = Y := by
  intro X
  induction X with
  | nil => intro Y h _; cases Y with | nil => rfl | cons b t => simp at h
  | cons a s ih =>
    intro Y h h'
    cases Y with
    | nil => simp at h
    | cons b t =>
      simp only [List.map_cons, List.cons.injEq] at h h'
      rw [ih h.2 h'.2, Prod.ext h.1 h'.1]

theorem lines_of_sorted {xs ys X Y : List PItem} (hX : ByPriority xs X) (hY : ByPriority ys Y)
    (hc : (xs.map (·.1)).Perm (ys.map (·.1))) (hs : X.map (·.2) = Y.map (·.2)) : SameLines xs ys := by
  have h1 : X.map (·.1) = Y.map (·.1) := by
    refine List.Perm.eq_of_pairwise (le := fun a b : U32 => b ≤ a) ?_ ?_ ?_ (((hX.perm.map _).trans hc).trans (hY.perm.map _).symm)
    · intro a b _ _ h1 h2; exact BitVec.le_antisymm h2 h1
    · exact List.pairwise_map.2 hX.descending
    · exact List.pairwise_map.2 hY.descending
  have := pairs_ext h1 hs
  subst this
  exact fun p => by rw [← hX.fifo p, ← hY.fifo p]

/-! ### Offers of pairwise different priorities -/

theorem lines_of_perm {xs ys : List PItem} (h : xs.Perm ys) (hn : (xs.map (·.1)).Nodup) : SameLines xs ys := by
  intro p
  have h1 := h.filter fun y => decide (y.1 = p)
  have hl : (xs.filter fun y => decide (y.1 = p)).length ≤ 1 := by
    have hc := List.nodup_iff_count_le_one.1 hn p
    rw [List.count, List.countP_map, List.countP_eq_length_filter] at hc
    have e : ((fun x => x == p) ∘ fun x : PItem => x.1) = fun y => decide (y.1 = p) := by
      funext y; simp only [Function.comp]; rw [Bool.eq_iff_iff]; simp
    rwa [e] at hc
  generalize xs.filter (fun y => decide (y.1 = p)) = l at h1 hl ⊢
  rcases l with _ | ⟨a, _ | ⟨b, t⟩⟩
  · exact List.nil_perm.1 h1 |>.symm ▸ rfl
  · exact List.singleton_perm.1 h1 |>.symm ▸ rfl
  · simp at hl

end IMU.PQ
