import Verif.Spec.Linearizable

/-!
# What linearizability means for one producer and one consumer
-/

namespace IMU.Spec

/-- The visible part of the events of one caller. -/
def visOf (l : List (XEv QOp QObs)) : List (HEv QOp QObs) :=
  l.filterMap fun
    | .vis e => some e
    | .lin .. => none

def linEnq : QOp × QObs → Option (List Byte)
  | (.enq e, (true, _)) => some e
  | _ => none

def linDeq : QOp × QObs → Option (List Byte)
  | (.deq, (_, x)) => x
  | _ => none

def insOf (l : List (XEv QOp QObs)) : List (QOp × QObs) :=
  l.filterMap fun
    | .vis _ => none
    | .lin op r => some (op, r)

/-- The instants of a caller that only enqueues. -/
theorem producer_instants : ∀ (n : Nat) (l : List (XEv QOp QObs)), l.length ≤ n → Follows .idle l → OnlyEnq (visOf l) →
    (insOf l).filterMap linEnq <+: accepted (visOf l) ∧ (insOf l).filterMap linDeq = [] ∧
      ∀ x ∈ insOf l, ∃ e, x.1 = .enq e := by
  intro n
  induction n using Nat.strongRecOn with
  | ind n ih =>
    intro l hl hf ho
    match l, hf with
    | [], _ => exact ⟨by simp [insOf], rfl, by simp [insOf]⟩
    | [.vis (.call op)], _ =>
      exact ⟨by simp [insOf], rfl, by simp [insOf]⟩
    | [.vis (.call op), .lin op' r], hf =>
      obtain ⟨rfl, -⟩ := hf
      obtain ⟨e, rfl⟩ := ho op' (by simp [visOf])
      obtain ⟨b, x⟩ := r
      refine ⟨?_, by simp [insOf, linDeq], by simp [insOf]⟩
      cases b <;> simp [insOf, linEnq, visOf, accepted, List.filterMap_cons]
    | .vis (.call op) :: .lin op' r :: .vis (.ret r') :: l, hf =>
      obtain ⟨rfl, rfl, hf⟩ := hf
      obtain ⟨e, rfl⟩ := ho op' (by simp [visOf])
      obtain ⟨b, x⟩ := r'
      obtain ⟨h1, h2, h3⟩ := ih l.length (by simp at hl; omega) l (by omega) hf (fun op h => ho op (by
        simp only [visOf, List.filterMap_cons] at h ⊢; simp [h]))
      have e1 : insOf (.vis (.call (.enq e)) :: .lin (.enq e) (b, x) :: .vis (.ret (b, x)) :: l) =
        (.enq e, (b, x)) :: insOf l := rfl
      have e2 : visOf (.vis (.call (.enq e)) :: .lin (.enq e) (b, x) :: .vis (.ret (b, x)) :: l) =
        .call (.enq e) :: .ret (b, x) :: visOf l := rfl
      rw [e1, e2]
      refine ⟨?_, ?_, ?_⟩
      · cases b
        · simpa [linEnq, accepted, List.filterMap_cons] using h1
        · simpa [linEnq, accepted, List.filterMap_cons] using h1
      · simpa [linDeq] using h2
      · intro x hx
        rcases List.mem_cons.1 hx with rfl | hx
        · exact ⟨e, rfl⟩
        · exact h3 x hx

/-- The instants of a caller that only dequeues. -/
theorem consumer_instants : ∀ (n : Nat) (l : List (XEv QOp QObs)), l.length ≤ n → Follows .idle l → OnlyDeq (visOf l) →
    delivered (visOf l) <+: (insOf l).filterMap linDeq ∧ (insOf l).filterMap linEnq = [] ∧
      ∀ x ∈ insOf l, x.1 = .deq := by
  intro n
  induction n using Nat.strongRecOn with
  | ind n ih =>
    intro l hl hf ho
    match l, hf with
    | [], _ => exact ⟨by simp [visOf, delivered], rfl, by simp [insOf]⟩
    | [.vis (.call op)], _ =>
      exact ⟨by simp [visOf, delivered], rfl, by simp [insOf]⟩
    | [.vis (.call op), .lin op' r], hf =>
      obtain ⟨rfl, -⟩ := hf
      obtain rfl := ho op' (by simp [visOf])
      refine ⟨by simp [visOf, delivered], by simp [insOf, linEnq], by simp [insOf]⟩
    | .vis (.call op) :: .lin op' r :: .vis (.ret r') :: l, hf =>
      obtain ⟨rfl, rfl, hf⟩ := hf
      obtain rfl := ho op' (by simp [visOf])
      obtain ⟨b, x⟩ := r'
      obtain ⟨h1, h2, h3⟩ := ih l.length (by simp at hl; omega) l (by omega) hf (fun op h => ho op (by
        simp only [visOf, List.filterMap_cons] at h ⊢; simp [h]))
      have e1 : insOf (.vis (.call .deq) :: .lin .deq (b, x) :: .vis (.ret (b, x)) :: l) =
        (.deq, (b, x)) :: insOf l := rfl
      have e2 : visOf (.vis (.call .deq) :: .lin .deq (b, x) :: .vis (.ret (b, x)) :: l) =
        .call .deq :: .ret (b, x) :: visOf l := rfl
      rw [e1, e2]
      refine ⟨?_, ?_, ?_⟩
      · cases x
        · simpa [linDeq, delivered, List.filterMap_cons] using h1
        · simpa [linDeq, delivered, List.filterMap_cons] using h1
      · simpa [linEnq] using h2
      · intro x hx
        rcases List.mem_cons.1 hx with rfl | hx
        · rfl
        · exact h3 x hx

/-- Of the ideal FIFO. -/
theorem legal_prefix (cap : Nat) (l : List (QOp × QObs)) : ∀ xs, Legal (fifoStep cap) xs l →
    (∀ x ∈ l, x.1 = .deq ∨ ∃ e, x.1 = .enq e) → l.filterMap linDeq <+: xs ++ l.filterMap linEnq := by
  induction l with
  | nil => intro xs _ _; simp
  | cons a l ih =>
    intro xs hl ho
    obtain ⟨op, r⟩ := a
    obtain ⟨hr, hl⟩ := hl
    have ho' := fun x hx => ho x (List.mem_cons_of_mem _ hx)
    rcases ho (op, r) (by simp) with h | ⟨e, h⟩
    · simp only at h; subst h
      cases xs with
      | nil =>
        simp only [fifoStep] at hr hl
        subst hr
        simpa [linDeq, linEnq, List.filterMap_cons] using ih [] hl ho'
      | cons x xs =>
        simp only [fifoStep] at hr hl
        subst hr
        simpa [linDeq, linEnq, List.filterMap_cons] using ih xs hl ho'
    · simp only at h; subst h
      simp only [fifoStep] at hr hl
      split at hr
      · subst hr
        rw [if_pos ‹_›] at hl
        have := ih _ hl ho'
        simpa [linDeq, linEnq, List.filterMap_cons] using this
      · subst hr
        rw [if_neg ‹_›] at hl
        have := ih _ hl ho'
        simpa [linDeq, linEnq, List.filterMap_cons] using this

theorem filterMap_two {α : Type} (f : QOp × QObs → Option α) (l : List (Bool × XEv QOp QObs))
    (t : Bool) (h : (insOf (l.filterMap (ofCaller (!t)))).filterMap f = []) :
    (l.filterMap instant).filterMap f = (insOf (l.filterMap (ofCaller t))).filterMap f := by
  induction l with
  | nil => rfl
  | cons a l ih =>
    obtain ⟨t', x⟩ := a
    by_cases ht : t' = t
    · subst ht
      have e1 : ofCaller t' (t', x) = some x := by simp [ofCaller]
      have e2 : ofCaller (!t') (t', x) = none := by cases t' <;> simp [ofCaller]
      rw [List.filterMap_cons_none e2] at h
      rw [List.filterMap_cons_some e1]
      cases x with
      | vis e => exact ih h
      | lin op r =>
        have e3 : ((t', XEv.lin op r) :: l).filterMap instant = (op, r) :: l.filterMap instant := rfl
        have e4 : insOf (XEv.lin op r :: l.filterMap (ofCaller t')) = (op, r) :: insOf (l.filterMap (ofCaller t')) := rfl
        rw [e3, e4, List.filterMap_cons, List.filterMap_cons, ih h]
    · have ht' : t' = !t := by cases t <;> cases t' <;> simp_all
      subst ht'
      have e1 : ofCaller t (!t, x) = none := by cases t <;> simp [ofCaller]
      have e2 : ofCaller (!t) (!t, x) = some x := by cases t <;> simp [ofCaller]
      rw [List.filterMap_cons_some e2] at h
      rw [List.filterMap_cons_none e1]
      cases x with
      | vis e => exact ih h
      | lin op r =>
        have e3 : ((!t, XEv.lin op r) :: l).filterMap instant = (op, r) :: l.filterMap instant := rfl
        have e4 : insOf (XEv.lin op r :: l.filterMap (ofCaller (!t))) = (op, r) :: insOf (l.filterMap (ofCaller (!t))) := rfl
        rw [e4, List.filterMap_cons] at h
        cases hf : f (op, r) with
        | none => rw [hf] at h; rw [e3, List.filterMap_cons_none hf]; exact ih h
        | some y => rw [hf] at h; simp at h

theorem visOf_ofCaller (t : Bool) (l : List (Bool × XEv QOp QObs)) :
    visOf (l.filterMap (ofCaller t)) = eventsOf t (l.filterMap visible) := by
  induction l with
  | nil => rfl
  | cons a l ih =>
    obtain ⟨t', x⟩ := a
    by_cases ht : t' = t
    · have e1 : ofCaller t (t', x) = some x := by simp [ofCaller, ht]
      rw [List.filterMap_cons_some e1]
      cases x with
      | vis e =>
        have e2 : visible (t', XEv.vis e) = some (t', e) := rfl
        rw [List.filterMap_cons_some e2]
        simp only [visOf, eventsOf] at ih ⊢
        simp [ih, ht]
      | lin op r => exact ih
    · have e1 : ofCaller t (t', x) = none := by simp [ofCaller, ht]
      rw [List.filterMap_cons_none e1]
      cases x with
      | vis e =>
        have e2 : visible (t', XEv.vis e) = some (t', e) := rfl
        rw [List.filterMap_cons_some e2]
        simp only [visOf, eventsOf] at ih ⊢
        simp [ih, ht]
      | lin op r => exact ih

theorem mem_instant (l : List (Bool × XEv QOp QObs)) (x : QOp × QObs) (hx : x ∈ l.filterMap instant) :
    x ∈ insOf (l.filterMap (ofCaller false)) ∨ x ∈ insOf (l.filterMap (ofCaller true)) := by
  obtain ⟨⟨t, y⟩, hy, hi⟩ := List.mem_filterMap.1 hx
  cases y with
  | vis e => simp [instant] at hi
  | lin op r =>
    simp only [instant, Option.some.injEq] at hi
    subst hi
    have hm : XEv.lin op r ∈ l.filterMap (ofCaller t) := List.mem_filterMap.2 ⟨_, hy, by simp [ofCaller]⟩
    have : (op, r) ∈ insOf (l.filterMap (ofCaller t)) := List.mem_filterMap.2 ⟨_, hm, rfl⟩
    cases t
    · exact .inl this
    · exact .inr this

/-- One producer and one consumer: what is delivered is what was accepted, in this order, each element once. -/
theorem fifo_of_linearizable {cap : Nat} {h : List (Bool × HEv QOp QObs)} (hl : Linearizable (fifoStep cap) [] h)
    (hp : OnlyEnq (eventsOf false h)) (hc : OnlyDeq (eventsOf true h)) :
    delivered (eventsOf true h) <+: accepted (eventsOf false h) := by
  obtain ⟨l, rfl, hf, hleg⟩ := hl
  rw [← visOf_ofCaller] at hp hc ⊢
  rw [← visOf_ofCaller]
  obtain ⟨a1, a2, a3⟩ := producer_instants _ _ (Nat.le_refl _) (hf false) hp
  obtain ⟨b1, b2, b3⟩ := consumer_instants _ _ (Nat.le_refl _) (hf true) hc
  have := legal_prefix cap _ _ hleg (fun x hx => (mem_instant l x hx).elim (fun h => .inr (a3 x h)) (fun h => .inl (b3 x h)))
  rw [filterMap_two linDeq l true a2, filterMap_two linEnq l false b2, List.nil_append] at this
  exact b1.trans (this.trans a1)

end IMU.Spec
