import Verif.Proofs.PriorityQueueHistory
import Verif.Spec.PriorityQueueOrder
import Mathlib.Data.List.Sort

/-!
# Lemmas: emptying, overloading and waiting in the priority queue
-/

namespace IMU.PQ
open Spec Props

theorem drain {cap : Nat} : ∀ (n : Nat) {xs : List PItem} {os : List PQObs} {out zs : List PItem}, xs.length = n →
    PQRun cap xs (List.replicate n .deq) os out zs →
    zs = [] ∧ os = out.map (fun y => (true, some y.2)) ∧ ByPriority xs out := by
  intro n
  induction n with
  | zero =>
    intro xs os out zs hn h
    cases h
    rw [List.length_eq_zero_iff] at hn
    subst hn
    exact ⟨rfl, rfl, ⟨.refl _, .nil, fun _ => rfl⟩⟩
  | succ n ih =>
    intro xs os out zs hn h
    cases h with
    | cons h1 h2 =>
      cases h1 with
      | deqEmpty => simp at hn
      | @deq pre x post ha hb =>
        obtain ⟨a, b, c⟩ := ih (by simp only [List.length_append, List.length_cons] at hn ⊢; omega) h2
        refine ⟨a, by rw [b]; rfl, ⟨?_, ?_, ?_⟩⟩
        · exact (c.perm.cons x).trans List.perm_middle.symm
        · refine List.pairwise_cons.2 ⟨fun y hy => ?_, c.descending⟩
          rcases List.mem_append.1 (c.perm.mem_iff.1 hy) with h | h
          · exact BitVec.le_of_lt (ha y h)
          · exact hb y h
        · intro p
          have hc := c.fifo p
          rw [List.filter_append] at hc
          rw [List.singleton_append, List.filter_append]
          by_cases hp : x.1 = p
          · rw [List.filter_cons_of_pos (by simpa using hp), List.filter_cons_of_pos (by simpa using hp), hc]
            have : pre.filter (fun y => decide (y.1 = p)) = [] := by
              rw [List.filter_eq_nil_iff]
              intro y hy
              have := ha y hy
              rw [← hp]
              intro h
              have h : y.1 = x.1 := by simpa using h
              rw [h] at this
              exact absurd this (BitVec.lt_irrefl _)
            rw [this, List.nil_append, List.nil_append]
          · rw [List.filter_cons_of_neg (by simpa using hp), List.filter_cons_of_neg (by simpa using hp), hc]

/-- Lemma support: what is left, `ys`, and what was dropped, `dr`, out of `all`. -/
structure Best (cap : Nat) (all ys dr : List PItem) : Prop where
  perm : (ys ++ dr).Perm all
  sub : ys.Sublist all
  above : ∀ a ∈ ys, ∀ b ∈ dr, b.1 ≤ a.1
  full : dr ≠ [] → ys.length = cap
  le : ys.length ≤ cap

theorem best_step {cap : Nat} {all xs dr ys : List PItem} {p : U32} {e : List Byte} {o : PQObs} {out : List PItem}
    (hb : Best cap all xs dr) (h : PQStep cap xs (.enq p e) o out ys) : ∃ dr', Best cap (all ++ [(p, e)]) ys dr' := by
  cases h with
  | enq hl =>
    have hd : dr = [] := by
      cases dr with
      | nil => rfl
      | cons y t => have := hb.full (by simp); omega
    subst hd
    refine ⟨[], ?_, hb.sub.append (.refl _), by simp, by simp, by simp; omega⟩
    have := hb.perm
    rw [List.append_nil] at this ⊢
    exact this.append_right _
  | @evict pre x post _ _ hf ha hp hlt =>
    refine ⟨x :: dr, ?_, ?_, ?_, fun _ => ?_, ?_⟩
    · refine List.Perm.trans ?_ (hb.perm.append_right [(p, e)])
      simp only [List.append_assoc, List.cons_append, List.nil_append]
      refine List.Perm.append_left pre ?_
      have : (post ++ (p, e) :: x :: dr).Perm (x :: (post ++ (p, e) :: dr)) :=
        (List.Perm.append_left post (List.Perm.swap _ _ _)).trans List.perm_middle
      refine this.trans (.cons _ ?_)
      refine List.perm_middle.trans ?_
      rw [← List.append_assoc]
      exact (List.perm_append_singleton _ _).symm
    · refine List.Sublist.append (List.Sublist.trans ?_ hb.sub) (.refl _)
      exact List.Sublist.append (.refl _) (List.sublist_cons_self _ _)
    · intro a haa b hbb
      have hx : ∀ b ∈ x :: dr, b.1 ≤ x.1 := by
        intro b hb'
        rcases List.mem_cons.1 hb' with h | h
        · rw [h]; exact BitVec.le_refl _
        · exact hb.above x (by simp) b h
      have hax : x.1 ≤ a.1 := by
        rcases List.mem_append.1 haa with h | h
        · rcases List.mem_append.1 h with h | h
          · exact BitVec.le_of_lt (ha a h)
          · exact hp a h
        · rw [List.mem_singleton.1 h]; exact BitVec.le_of_lt hlt
      exact BitVec.le_trans (hx b hbb) hax
    · simp only [List.length_append, List.length_cons, List.length_nil] at hf ⊢; omega
    · simp only [List.length_append, List.length_cons, List.length_nil] at hf ⊢; omega
  | reject hf hr =>
    refine ⟨dr ++ [(p, e)], ?_, hb.sub.trans (List.sublist_append_left _ _), ?_, fun _ => hf, by omega⟩
    · rw [← List.append_assoc]
      exact hb.perm.append_right _
    · intro a ha b hb'
      rcases List.mem_append.1 hb' with h | h
      · exact hb.above a ha b h
      · rw [List.mem_singleton.1 h]; exact hr a ha

theorem best_run {cap : Nat} : ∀ {ops : List PQOp} {all xs dr ys : List PItem} {os : List PQObs} {out : List PItem},
    Best cap all xs dr → PQRun cap xs ops os out ys → (∀ op ∈ ops, op ≠ .deq) →
    ∃ dr', Best cap (all ++ offered ops) ys dr' := by
  intro ops
  induction ops with
  | nil =>
    intro all xs dr ys os out hb h _
    cases h
    exact ⟨dr, by rw [offered, List.append_nil]; exact hb⟩
  | cons op ops ih =>
    intro all xs dr ys os out hb h hd
    cases h with
    | cons h1 h2 =>
      have hd' := fun o ho => hd o (List.mem_cons_of_mem _ ho)
      cases op with
      | deq => exact absurd rfl (hd .deq (by simp))
      | empty => cases h1; exact ih hb h2 hd'
      | enq p e =>
        obtain ⟨dr1, hb1⟩ := best_step hb h1
        obtain ⟨dr', hb'⟩ := ih hb1 h2 hd'
        rw [List.append_assoc] at hb'
        exact ⟨dr', hb'⟩

theorem sort_desc (ps : List U32) : (ps.mergeSort fun a b => decide (b ≤ a)).Pairwise fun a b => b ≤ a := by
  have h := List.pairwise_mergeSort (le := fun a b : U32 => decide (b ≤ a))
    (by intro a b c h1 h2; simp only [decide_eq_true_eq] at *; exact BitVec.le_trans h2 h1)
    (by intro a b; simp only [Bool.or_eq_true, decide_eq_true_eq]; exact BitVec.le_total _ _) ps
  exact h.imp (by intro a b h; simpa using h)

theorem sort_eq {ps qs : List U32} (hp : qs.Perm ps) (hs : qs.Pairwise fun a b => b ≤ a) :
    ps.mergeSort (fun a b => decide (b ≤ a)) = qs := by
  refine List.Perm.eq_of_pairwise (le := fun a b : U32 => b ≤ a) ?_ (sort_desc ps) hs ?_
  · intro a b _ _ h1 h2; exact BitVec.le_antisymm h2 h1
  · exact (List.mergeSort_perm _ _).trans hp.symm

theorem best_greatest {cap : Nat} {all ys dr : List PItem} (hb : Best cap all ys dr) :
    (ys.map (·.1)).mergeSort (fun a b => decide (b ≤ a)) = greatest cap (all.map (·.1)) := by
  unfold greatest
  have h : (all.map (·.1)).mergeSort (fun a b => decide (b ≤ a)) =
      (ys.map (·.1)).mergeSort (fun a b => decide (b ≤ a)) ++ (dr.map (·.1)).mergeSort (fun a b => decide (b ≤ a)) := by
    apply sort_eq
    · refine ((List.mergeSort_perm _ _).append (List.mergeSort_perm _ _)).trans ?_
      rw [← List.map_append]
      exact hb.perm.map _
    · refine List.pairwise_append.2 ⟨sort_desc _, sort_desc _, ?_⟩
      intro a ha b hb'
      rw [(List.mergeSort_perm _ _).mem_iff] at ha hb'
      obtain ⟨x, hx, rfl⟩ := List.mem_map.1 ha
      obtain ⟨y, hy, rfl⟩ := List.mem_map.1 hb'
      exact hb.above x hx y hy
  rw [h]
  have hl : ((ys.map (·.1)).mergeSort fun a b => decide (b ≤ a)).length = ys.length := by
    rw [List.length_mergeSort, List.length_map]
  by_cases hd : dr = []
  · subst hd
    rw [List.map_nil, List.mergeSort_nil, List.append_nil, List.take_of_length_le]
    rw [hl]; exact hb.le
  · rw [List.take_append_of_le_length (by rw [hl, hb.full hd]), List.take_of_length_le]
    rw [hl]; exact hb.le

theorem best_kept {cap : Nat} {all ys dr : List PItem} (hb : Best cap all ys dr) {p : U32} (hp : ∃ y ∈ ys, y.1 < p) :
    ys.filter (fun y => p ≤ y.1) = all.filter fun y => p ≤ y.1 := by
  obtain ⟨y, hy, hlt⟩ := hp
  refine (hb.sub.filter _).eq_of_length ?_
  have h := (hb.perm.filter (fun y => decide (p ≤ y.1))).length_eq
  rw [List.filter_append, List.length_append] at h
  have hd : dr.filter (fun y => decide (p ≤ y.1)) = [] := by
    rw [List.filter_eq_nil_iff]
    intro b hb'
    have := hb.above y hy b hb'
    simp only [decide_eq_true_eq, BitVec.le_def, BitVec.lt_def] at *
    omega
  rw [hd, List.length_nil] at h
  omega

theorem absent_run {cap : Nat} {v : List Byte} : ∀ {ops : List PQOp} {xs ys : List PItem} {os : List PQObs} {out : List PItem},
    PQRun cap xs ops os out ys → (∀ z ∈ xs ++ offered ops, z.2 ≠ v) → (∀ o ∈ os, o.2 ≠ some v) ∧ ∀ z ∈ ys, z.2 ≠ v := by
  intro ops
  induction ops with
  | nil => intro xs ys os out h hx; cases h; exact ⟨by simp, by simpa [offered] using hx⟩
  | cons op ops ih =>
    intro xs ys os out h hx
    cases h with
    | cons h1 h2 =>
      cases h1 with
      | enq hl =>
        obtain ⟨a, b⟩ := ih h2 (fun z hz => hx z (by simpa [offered, or_assoc] using hz))
        exact ⟨by simpa using a, b⟩
      | evict hf ha hp hlt =>
        obtain ⟨a, b⟩ := ih h2 (fun z hz => hx z (by
          simp only [offered, List.mem_append, List.mem_cons, List.not_mem_nil, or_false] at hz ⊢
          rcases hz with ((h | h) | h) | h
          · exact .inl (.inl h)
          · exact .inl (.inr (.inr h))
          · exact .inr (.inl h)
          · exact .inr (.inr h)))
        exact ⟨by simpa using a, b⟩
      | reject hf hr =>
        obtain ⟨a, b⟩ := ih h2 (fun z hz => hx z (by
          simp only [offered, List.mem_append, List.mem_cons] at hz ⊢
          rcases hz with h | h
          · exact .inl h
          · exact .inr (.inr h)))
        exact ⟨by simpa using a, b⟩
      | @deq pre x post ha hb =>
        obtain ⟨a, b⟩ := ih h2 (fun z hz => hx z (by
          simp only [offered, List.mem_append, List.mem_cons] at hz ⊢
          rcases hz with (h | h) | h
          · exact .inl (.inl h)
          · exact .inl (.inr (.inr h))
          · exact .inr h))
        have := hx x (by simp)
        refine ⟨?_, b⟩
        intro o ho
        rcases List.mem_cons.1 ho with h | h
        · rw [h]; simpa using this
        · exact a o h
      | deqEmpty =>
        obtain ⟨a, b⟩ := ih h2 (fun z hz => hx z (by simpa [offered] using hz))
        exact ⟨by simpa using a, b⟩
      | empty =>
        obtain ⟨a, b⟩ := ih h2 (fun z hz => hx z (by simpa [offered] using hz))
        exact ⟨by simpa using a, b⟩

/-- Lemma support: how many items come before `x` if nothing changes. -/
def before (pre : List PItem) (x : PItem) (post : List PItem) : Nat :=
  pre.countP (fun y => x.1 ≤ y.1) + post.countP fun y => x.1 < y.1

/-- Lemma support: how many items have a higher priority than `x`. -/
def higher (pre : List PItem) (x : PItem) (post : List PItem) : Nat := (pre ++ post).countP fun y => x.1 < y.1

theorem split_cases {α : Type} {pre pre' post post' : List α} {x y : α} (h : pre ++ x :: post = pre' ++ y :: post') :
    (pre = pre' ∧ x = y ∧ post = post') ∨ (∃ l, pre = pre' ++ y :: l ∧ post' = l ++ x :: post) ∨
      ∃ l, pre' = pre ++ x :: l ∧ post = l ++ y :: post' := by
  rcases List.append_eq_append_iff.1 h with ⟨l, a, b⟩ | ⟨l, a, b⟩
  · cases l with
    | nil =>
      rw [List.nil_append] at b
      injection b with b1 b2
      exact .inl ⟨by simpa using a.symm, b1, b2⟩
    | cons z l =>
      injection b with b1 b2
      subst b1
      exact .inr (.inr ⟨l, a, b2⟩)
  · cases l with
    | nil =>
      rw [List.nil_append] at b
      injection b with b1 b2
      exact .inl ⟨by simpa using a, b1.symm, b2.symm⟩
    | cons z l =>
      injection b with b1 b2
      subst b1
      exact .inr (.inl ⟨l, a, b2⟩)

/-- Lemma support: what one operation means to the item `x`. -/
theorem wait_step {cap : Nat} {pre post ys out : List PItem} {x : PItem} {op : PQOp} {o : PQObs}
    (h : PQStep cap (pre ++ x :: post) op o out ys) :
    ((op = .deq → higher pre x post = 0 ∧ o = (true, some x.2)) ∧ (op ≠ .deq → o.2 = none) ∧
      ∀ z ∈ ys, z ∈ pre ++ post ++ offered [op]) ∨
    ∃ pre' post', ys = pre' ++ x :: post' ∧
      before pre' x post' + dequeues [op] ≤ before pre x post + overtaking x.1 [op] ∧
      higher pre x post ≤ higher pre' x post' + dequeues [op] ∧
      (∀ z ∈ pre' ++ post', z ∈ pre ++ post ++ offered [op]) ∧
      ∀ v, o.2 = some v → ∃ y ∈ pre ++ post, v = y.2 := by
  generalize hxs : pre ++ x :: post = xs at h
  cases h with
  | @enq _ p e hl =>
    subst hxs
    refine .inr ⟨pre, post ++ [(p, e)], by simp, ?_, ?_, ?_, by simp⟩
    · simp [before, dequeues, overtaking, offered, Nat.add_assoc]
    · simp only [higher, dequeues, List.countP_append]; omega
    · intro z hz; simpa [offered, or_assoc] using hz
  | reject hf hr =>
    subst hxs
    exact .inr ⟨pre, post, rfl, by simp [dequeues], by simp, by intro z hz; simp only [List.mem_append] at hz ⊢; exact .inl hz, by simp⟩
  | empty =>
    subst hxs
    exact .inr ⟨pre, post, rfl, by simp [dequeues], by simp, by intro z hz; simp only [List.mem_append] at hz ⊢; exact .inl hz, by simp⟩
  | deqEmpty => simp at hxs
  | @evict pre1 y post1 p e hf ha hp hlt =>
    rcases split_cases hxs with ⟨rfl, rfl, rfl⟩ | ⟨l, rfl, rfl⟩ | ⟨l, rfl, rfl⟩
    · refine .inl ⟨by simp, by simp, ?_⟩
      intro z hz; simpa [offered, or_assoc] using hz
    · refine .inr ⟨pre1 ++ l, post ++ [(p, e)], by simp, ?_, ?_, ?_, by simp⟩
      · have hyx : y.1 ≤ x.1 := hp x (by simp)
        simp only [before, dequeues, overtaking, offered, List.countP_append, List.countP_cons, List.countP_nil]
        split <;> simp <;> omega
      · simp only [higher, dequeues, List.countP_append, List.countP_cons, List.countP_nil]
        have hyx : ¬ x.1 < y.1 := by
          have : y.1 ≤ x.1 := hp x (by simp)
          simp only [BitVec.le_def, BitVec.lt_def] at *; omega
        rw [if_neg (by simpa using hyx)]
        omega
      · intro z hz
        simp only [offered, List.mem_append, List.mem_cons, List.not_mem_nil, or_false] at hz ⊢
        rcases hz with (h | h) | h | h
        · exact .inl (.inl (.inl h))
        · exact .inl (.inl (.inr (.inr h)))
        · exact .inl (.inr h)
        · exact .inr h
    · refine .inr ⟨pre, l ++ post1 ++ [(p, e)], by simp, ?_, ?_, ?_, by simp⟩
      · simp only [before, dequeues, overtaking, offered, List.countP_append, List.countP_cons, List.countP_nil]
        simp; omega
      · simp only [higher, dequeues, List.countP_append, List.countP_cons, List.countP_nil]
        have hyx : ¬ x.1 < y.1 := by
          have : y.1 < x.1 := ha x (by simp)
          simp only [BitVec.lt_def] at *; omega
        rw [if_neg (by simpa using hyx)]
        omega
      · intro z hz
        simp only [offered, List.mem_append, List.mem_cons, List.not_mem_nil, or_false] at hz ⊢
        rcases hz with h | (h | h) | h
        · exact .inl (.inl h)
        · exact .inl (.inr (.inl h))
        · exact .inl (.inr (.inr (.inr h)))
        · exact .inr h
  | @deq pre1 y post1 ha hb =>
    rcases split_cases hxs with ⟨rfl, rfl, rfl⟩ | ⟨l, rfl, rfl⟩ | ⟨l, rfl, rfl⟩
    · refine .inl ⟨fun _ => ⟨?_, rfl⟩, by simp, ?_⟩
      · rw [higher, List.countP_eq_zero]
        intro z hz
        simp only [decide_eq_true_eq]
        rcases List.mem_append.1 hz with h | h
        · have := ha z h; simp only [BitVec.lt_def] at *; omega
        · have := hb z h; simp only [BitVec.lt_def, BitVec.le_def] at *; omega
      · intro z hz; simpa [offered] using hz
    · refine .inr ⟨pre1 ++ l, post, by simp, ?_, ?_, ?_, fun v hv => ⟨y, by simp, by simpa using hv.symm⟩⟩
      · have hyx : x.1 ≤ y.1 := hb x (by simp)
        rw [show dequeues [.deq] = 1 from rfl, show overtaking x.1 [.deq] = 0 from rfl]
        simp only [before, List.countP_append, List.countP_cons]
        rw [if_pos (by simpa using hyx)]
        omega
      · simp only [higher, dequeues, List.countP_append, List.countP_cons, List.countP_nil]
        simp only [if_true]
        split <;> omega
      · intro z hz
        simp only [offered, List.mem_append, List.mem_cons, List.not_mem_nil, or_false] at hz ⊢
        rcases hz with (h | h) | h
        · exact .inl (.inl h)
        · exact .inl (.inr (.inr h))
        · exact .inr h
    · refine .inr ⟨pre, l ++ post1, by simp, ?_, ?_, ?_, fun v hv => ⟨y, by simp, by simpa using hv.symm⟩⟩
      · have hyx : x.1 < y.1 := ha x (by simp)
        rw [show dequeues [.deq] = 1 from rfl, show overtaking x.1 [.deq] = 0 from rfl]
        simp only [before, List.countP_append, List.countP_cons]
        rw [if_pos (by simpa using hyx)]
        omega
      · simp only [higher, dequeues, List.countP_append, List.countP_cons, List.countP_nil]
        simp only [if_true]
        split <;> omega
      · intro z hz
        simp only [offered, List.mem_append, List.mem_cons, List.not_mem_nil, or_false] at hz ⊢
        rcases hz with h | h | h
        · exact .inl h
        · exact .inr (.inl h)
        · exact .inr (.inr (.inr h))

theorem dequeues_cons (op : PQOp) (ops : List PQOp) : dequeues (op :: ops) = dequeues [op] + dequeues ops := by
  unfold dequeues
  rw [← List.countP_append, List.singleton_append]

theorem offered_cons (op : PQOp) (ops : List PQOp) : offered (op :: ops) = offered [op] ++ offered ops := by
  cases op <;> rfl

theorem overtaking_cons (p : U32) (op : PQOp) (ops : List PQOp) :
    overtaking p (op :: ops) = overtaking p [op] + overtaking p ops := by
  unfold overtaking
  rw [offered_cons, List.countP_append]

theorem wait_run {cap : Nat} : ∀ {ops : List PQOp} {pre post ys out : List PItem} {x : PItem} {os : List PQObs},
    PQRun cap (pre ++ x :: post) ops os out ys → (∀ z ∈ pre ++ post ++ offered ops, z.2 ≠ x.2) →
    (before pre x post + overtaking x.1 ops < dequeues ops → ∀ z ∈ ys, z.2 ≠ x.2) ∧
    (dequeues ops ≤ higher pre x post → ∀ o ∈ os, o.2 ≠ some x.2) := by
  intro ops
  induction ops with
  | nil =>
    intro pre post ys out x os h _
    cases h
    exact ⟨fun h => by simp [dequeues] at h, by simp⟩
  | cons op ops ih =>
    intro pre post ys out x os h hx
    rw [offered_cons] at hx
    rw [dequeues_cons, overtaking_cons]
    cases h with
    | cons h1 h2 =>
      rcases wait_step h1 with ⟨a, b, c⟩ | ⟨pre', post', rfl, a, b, c, d⟩
      · have hz := absent_run h2 (v := x.2) (fun z hz => hx z (by
          rcases List.mem_append.1 hz with h | h
          · have := c z h
            rw [← List.append_assoc]
            exact List.mem_append_left _ this
          · rw [← List.append_assoc]
            exact List.mem_append_right _ h))
        refine ⟨fun _ => hz.2, fun hd o ho => ?_⟩
        rcases List.mem_cons.1 ho with h | h
        · subst h
          cases op with
          | deq =>
            have := (a rfl).1
            rw [this] at hd
            simp [dequeues] at hd
          | enq p e => rw [b (by simp)]; simp
          | empty => rw [b (by simp)]; simp
        · exact hz.1 o h
      · obtain ⟨e, f⟩ := ih h2 (fun z hz => hx z (by
          rcases List.mem_append.1 hz with h | h
          · have := c z h
            rw [← List.append_assoc]
            exact List.mem_append_left _ this
          · rw [← List.append_assoc]
            exact List.mem_append_right _ h))
        refine ⟨fun h => e (by omega), fun hd o ho => ?_⟩
        rcases List.mem_cons.1 ho with h | h
        · subst h
          intro hv
          obtain ⟨y, hy, hyx⟩ := d _ hv
          exact hx y (List.mem_append_left _ hy) hyx.symm
        · exact f (by omega) o h

end IMU.PQ
