import Verif.Spec.Json

/-! # The texts and the lookup, without memory -/

namespace IMU.Spec.Json

theorem sep_eq_nil {t : List Byte} (h : t.getLast? ≠ some 34#8) : sep t = [] := by simp [sep, h]
theorem sep_quote (t : List Byte) : sep (t ++ [34#8]) = [44#8] := by simp [sep]

theorem member_quote (k v : List Byte) : ∃ u, member k v = u ++ [34#8] :=
  ⟨str k ++ [58#8] ++ ([34#8] ++ v), by simp [member, str]⟩

theorem members_quote : ∀ (x : List Byte × List Byte) (l : List (List Byte × List Byte)), ∃ u, members (x :: l) = u ++ [34#8] := by
  intro x l
  induction l generalizing x with
  | nil => exact member_quote _ _
  | cons y l ih =>
    obtain ⟨u, hu⟩ := ih y
    exact ⟨member x.1 x.2 ++ [44#8] ++ u, by rw [members, hu]; simp⟩

theorem members_snoc : ∀ (l : List (List Byte × List Byte)) (x : List Byte × List Byte), l ≠ [] →
    members (l ++ [x]) = members l ++ [44#8] ++ member x.1 x.2 := by
  intro l x
  induction l with
  | nil => intro h; exact absurd rfl h
  | cons y l ih =>
    intro _
    cases l with
    | nil => rfl
    | cons z l =>
      rw [List.cons_append, List.cons_append, members, ← List.cons_append, ih (by simp), members]
      simp only [List.append_assoc]

theorem open_snoc (l : List (List Byte × List Byte)) (x : List Byte × List Byte) :
    [123#8] ++ members l ++ sep ([123#8] ++ members l) ++ member x.1 x.2 = [123#8] ++ members (l ++ [x]) := by
  cases l with
  | nil => simp [members, sep]
  | cons y l =>
    obtain ⟨u, hu⟩ := members_quote y l
    rw [members_snoc _ _ (by simp), hu, show [123#8] ++ (u ++ [34#8]) = ([123#8] ++ u) ++ [34#8] by simp, sep_quote]
    simp

/-- A document does not end in `,}`. -/
theorem document_ne (l : List (List Byte × List Byte)) (t : List Byte) : document l ≠ t ++ [44#8, 125#8] := by
  intro h
  unfold document at h
  rw [show t ++ [44#8, 125#8] = (t ++ [44#8]) ++ [125#8] by simp] at h
  have h := List.append_cancel_right h
  cases l with
  | nil =>
    rw [members] at h
    cases t with
    | nil => cases h
    | cons c t => simp at h
  | cons y l =>
    obtain ⟨u, hu⟩ := members_quote y l
    rw [hu, ← List.append_assoc] at h
    have := congrArg List.getLast? h
    rw [List.getLast?_append, List.getLast?_append] at this
    simp at this

theorem afterKey_iff (k : List Byte) : ∀ (t r : List Byte), afterKey k t = some r ↔
    ∃ pre, t = pre ++ k ++ 34#8 :: r ∧ ∀ p s, t = p ++ k ++ s → pre.length ≤ p.length := by
  intro t
  induction t with
  | nil =>
    intro r
    constructor
    · intro h; cases h
    · rintro ⟨pre, h, _⟩; simp at h
  | cons c t ih =>
    intro r
    rw [afterKey]
    by_cases hp : k <+: c :: t ∧ k.length < (c :: t).length
    · rw [if_pos hp]
      obtain ⟨⟨s, hs⟩, hl⟩ := hp
      rw [← hs] at hl
      have hs0 : s ≠ [] := by rintro rfl; simp at hl
      obtain ⟨x, s, rfl⟩ := List.exists_cons_of_ne_nil hs0
      rw [← hs, List.getElem?_append_right (by omega), Nat.sub_self, List.getElem?_cons_zero, ← List.drop_drop,
        List.drop_left, List.drop_succ_cons, List.drop_zero]
      constructor
      · intro h
        by_cases hx : x = 34#8
        · rw [if_pos (by rw [hx])] at h
          injection h with h
          subst h hx
          exact ⟨[], by simp, fun _ _ _ => Nat.zero_le _⟩
        · rw [if_neg (by simpa using hx)] at h; cases h
      · rintro ⟨pre, h, hmin⟩
        have := hmin [] (x :: s) (by simp)
        have hpre : pre = [] := List.eq_nil_of_length_eq_zero (by simpa using this)
        subst hpre
        rw [List.nil_append] at h
        have h := List.append_cancel_left h
        injection h with h1 h2
        rw [h1, h2, if_pos rfl]
    · rw [if_neg hp, ih]
      constructor
      · rintro ⟨pre, h, hmin⟩
        refine ⟨c :: pre, by rw [h]; simp, ?_⟩
        intro p s hps
        cases p with
        | nil =>
          exfalso
          apply hp
          rw [List.nil_append] at hps
          refine ⟨⟨s, hps.symm⟩, ?_⟩
          rw [h]; simp; omega
        | cons d p =>
          rw [List.cons_append, List.cons_append] at hps
          injection hps with _ hps
          have := hmin p s hps
          simp only [List.length_cons]; omega
      · rintro ⟨pre, h, hmin⟩
        cases pre with
        | nil =>
          exfalso
          apply hp
          rw [List.nil_append] at h
          refine ⟨⟨_, h.symm⟩, ?_⟩
          rw [h]; simp
        | cons d pre =>
          have h' := h
          rw [List.cons_append, List.cons_append] at h
          injection h with h1 h
          refine ⟨pre, h, ?_⟩
          intro p s hps
          have := hmin (c :: p) s (by rw [hps]; simp)
          simpa using this

theorem takeWhile_append {u : List Byte} (hu : 34#8 ∉ u) (t : List Byte) : (u ++ 34#8 :: t).takeWhile notQuote = u := by
  induction u with
  | nil => rfl
  | cons c u ih =>
    have hc : ¬ c = 34#8 := fun e => hu (by simp [e])
    rw [List.cons_append, List.takeWhile_cons_of_pos (by simp [notQuote, hc]), ih (fun h => hu (by simp [h]))]

theorem dropWhile_append {u : List Byte} (hu : 34#8 ∉ u) (t : List Byte) :
    (u ++ 34#8 :: t).dropWhile notQuote = 34#8 :: t := by
  induction u with
  | nil => rfl
  | cons c u ih =>
    have hc : ¬ c = 34#8 := fun e => hu (by simp [e])
    rw [List.cons_append, List.dropWhile_cons_of_pos (by simp [notQuote, hc]), ih (fun h => hu (by simp [h]))]

theorem dropWhile_mem (t : List Byte) (h : 34#8 ∉ t) : t.dropWhile notQuote = [] := by
  induction t with
  | nil => rfl
  | cons c u ih =>
    have hc : ¬ c = 34#8 := fun e => h (by simp [e])
    rw [List.dropWhile_cons_of_pos (by simp [notQuote, hc]), ih (fun h' => h (by simp [h']))]

theorem split_first (t : List Byte) (h : 34#8 ∈ t) : ∃ u r, t = u ++ 34#8 :: r ∧ 34#8 ∉ u := by
  induction t with
  | nil => simp at h
  | cons c t ih =>
    by_cases hc : c = 34#8
    · exact ⟨[], t, by rw [hc]; rfl, by simp⟩
    · obtain ⟨u, r, e, hu⟩ := ih (by
        rcases List.mem_cons.mp h with h | h
        · exact absurd h.symm hc
        · exact h)
      refine ⟨c :: u, r, by rw [e]; rfl, ?_⟩
      intro h
      rcases List.mem_cons.mp h with h | h
      · exact hc h.symm
      · exact hu h

theorem quoted_iff (r v : List Byte) : quoted r = some v ↔
    ∃ mid rest, r = mid ++ 34#8 :: (v ++ 34#8 :: rest) ∧ 34#8 ∉ mid ∧ 34#8 ∉ v := by
  constructor
  · intro h
    unfold quoted at h
    by_cases hm : 34#8 ∈ r
    · obtain ⟨mid, t, e, hmid⟩ := split_first r hm
      rw [e, dropWhile_append hmid] at h
      simp only [] at h
      by_cases ht : 34#8 ∈ t
      · rw [if_pos ht] at h
        obtain ⟨w, rest, e', hw⟩ := split_first t ht
        rw [e', takeWhile_append hw] at h
        injection h with h
        subst h
        exact ⟨mid, rest, by rw [e, e'], hmid, hw⟩
      · rw [if_neg ht] at h; cases h
    · rw [dropWhile_mem r hm] at h; cases h
  · rintro ⟨mid, rest, e, hmid, hv⟩
    unfold quoted
    rw [e, dropWhile_append hmid]
    simp only []
    rw [if_pos (by simp), takeWhile_append hv]

theorem lookup_iff (k t v : List Byte) : lookup k t = some v ↔
    ∃ pre mid rest, t = pre ++ k ++ [34#8] ++ mid ++ [34#8] ++ v ++ [34#8] ++ rest ∧ 34#8 ∉ mid ∧ 34#8 ∉ v ∧
      ∀ p s, t = p ++ k ++ s → pre.length ≤ p.length := by
  unfold lookup
  constructor
  · intro h
    cases ha : afterKey k t with
    | none => rw [ha] at h; cases h
    | some r =>
      rw [ha, Option.bind_some, quoted_iff] at h
      obtain ⟨mid, rest, e, h1, h2⟩ := h
      obtain ⟨pre, e', hmin⟩ := (afterKey_iff k t r).mp ha
      exact ⟨pre, mid, rest, by rw [e', e]; simp, h1, h2, hmin⟩
  · rintro ⟨pre, mid, rest, e, h1, h2, hmin⟩
    have ha : afterKey k t = some (mid ++ 34#8 :: (v ++ 34#8 :: rest)) :=
      (afterKey_iff k t _).mpr ⟨pre, by rw [e]; simp, hmin⟩
    rw [ha, Option.bind_some, quoted_iff]
    exact ⟨mid, rest, rfl, h1, h2⟩

/-- What stands before the key that follows the members `l`. -/
def before (l : List (List Byte × List Byte)) : List Byte :=
  [123#8] ++ members l ++ (if l = [] then [] else [44#8]) ++ [34#8]

theorem members_mid (l : List (List Byte × List Byte)) (x : List Byte × List Byte) (l' : List (List Byte × List Byte)) :
    members (l ++ x :: l') = members l ++ (if l = [] then [] else [44#8]) ++ member x.1 x.2 ++
      (if l' = [] then [] else [44#8]) ++ members l' := by
  induction l with
  | nil =>
    cases l' with
    | nil => simp [members]
    | cons y l' => simp [members]
  | cons z l ih =>
    cases l with
    | nil =>
      rw [List.cons_append, List.nil_append, show members (z :: x :: l') = member z.1 z.2 ++ [44#8] ++ members (x :: l') from rfl]
      have ih' : members (x :: l') = _ := ih
      rw [ih']
      simp [members]
    | cons y l =>
      rw [List.cons_append, List.cons_append, members, ← List.cons_append, ih, members]
      simp

theorem document_mid (l : List (List Byte × List Byte)) (k v : List Byte) (l' : List (List Byte × List Byte)) :
    ∃ rest, document (l ++ (k, v) :: l') = before l ++ k ++ [34#8] ++ [58#8] ++ [34#8] ++ v ++ [34#8] ++ rest := by
  refine ⟨(if l' = [] then [] else [44#8]) ++ members l' ++ [125#8], ?_⟩
  unfold document before
  rw [members_mid]
  simp [member, str]

theorem lookup_document (l : List (List Byte × List Byte)) (k v : List Byte) (l' : List (List Byte × List Byte))
    (tail : List Byte) (hv : 34#8 ∉ v)
    (hfirst : ∀ p s, document (l ++ (k, v) :: l') = p ++ k ++ s → (before l).length ≤ p.length) :
    lookup k (document (l ++ (k, v) :: l') ++ tail) = some v := by
  obtain ⟨rest, hr⟩ := document_mid l k v l'
  rw [lookup_iff]
  refine ⟨before l, [58#8], rest ++ tail, by rw [hr]; simp, by decide, hv, ?_⟩
  intro p s hps
  by_cases hlt : p.length < (before l).length
  · -- an earlier occurrence lies inside the document
    refine hfirst p (s.take ((document (l ++ (k, v) :: l')).length - p.length - k.length)) ?_
    have hlen : p.length + k.length ≤ (document (l ++ (k, v) :: l')).length := by rw [hr]; simp; omega
    have := congrArg (List.take (document (l ++ (k, v) :: l')).length) hps
    rw [List.take_left] at this
    rw [this, List.take_append, List.take_of_length_le (by simp; omega)]
    simp [Nat.sub_sub]
  · omega

theorem infix_split {k a b : List Byte} {c : Byte} (hc : c ∉ k) (h : k <:+: a ++ c :: b) : k <:+: a ∨ k <:+: b := by
  obtain ⟨p, s, h⟩ := h
  by_cases h1 : p.length + k.length ≤ a.length
  · left
    have := congrArg (List.take a.length) h
    rw [List.take_left, List.append_assoc, List.take_append, List.take_of_length_le (by omega), List.take_append,
      List.take_of_length_le (by omega)] at this
    exact ⟨p, _, by rw [List.append_assoc]; exact this⟩
  · by_cases h2 : a.length < p.length
    · right
      have := congrArg (List.drop (a.length + 1)) h
      rw [← List.drop_drop, ← List.drop_drop, List.drop_left, List.drop_succ_cons, List.drop_zero, List.drop_drop,
        List.append_assoc, List.drop_append_of_le_length (by omega)] at this
      exact ⟨_, s, by rw [List.append_assoc]; exact this⟩
    · exfalso
      apply hc
      have := congrArg (fun l => l[a.length]?) h
      rw [List.getElem?_append_right (Nat.le_refl _), Nat.sub_self, List.getElem?_cons_zero,
        List.getElem?_append_left (by simp; omega), List.getElem?_append_right (by omega)] at this
      exact List.mem_of_getElem? this

/-- The characters with a meaning in the texts. -/
def structural : List Byte := [123#8, 125#8, 34#8, 58#8, 44#8]

theorem infix_member {k : List Byte} (hk : ∀ c ∈ structural, c ∉ k) (hn : k ≠ []) {x y : List Byte}
    (h : k <:+: member x y) : k <:+: x ∨ k <:+: y := by
  have e : member x y = [] ++ 34#8 :: (x ++ 34#8 :: ([] ++ 58#8 :: ([] ++ 34#8 :: (y ++ 34#8 :: [])))) := by
    simp [member, str]
  have nil : ¬ k <:+: [] := fun h => hn (List.eq_nil_of_infix_nil h)
  rw [e] at h
  have q := hk 34#8 (by simp [structural])
  have col := hk 58#8 (by simp [structural])
  rcases infix_split q h with h | h
  · exact absurd h nil
  rcases infix_split q h with h | h
  · exact Or.inl h
  rcases infix_split col h with h | h
  · exact absurd h nil
  rcases infix_split q h with h | h
  · exact absurd h nil
  rcases infix_split q h with h | h
  · exact Or.inr h
  · exact absurd h nil

theorem infix_members {k : List Byte} (hk : ∀ c ∈ structural, c ∉ k) (hn : k ≠ []) :
    ∀ (l : List (List Byte × List Byte)), k <:+: members l → ∃ x ∈ l, k <:+: x.1 ∨ k <:+: x.2 := by
  intro l
  induction l with
  | nil => intro h; exact absurd (List.eq_nil_of_infix_nil h) hn
  | cons x l ih =>
    intro h
    cases l with
    | nil => exact ⟨x, by simp, infix_member hk hn h⟩
    | cons y l =>
      rw [members, List.append_assoc, List.singleton_append] at h
      rcases infix_split (hk 44#8 (by simp [structural])) h with h | h
      · exact ⟨x, by simp, infix_member hk hn h⟩
      · obtain ⟨z, hz, h⟩ := ih h
        exact ⟨z, List.mem_cons_of_mem _ hz, h⟩

theorem infix_before {k : List Byte} (hk : ∀ c ∈ structural, c ∉ k) (hn : k ≠ []) (l : List (List Byte × List Byte))
    (h : k <:+: before l) : ∃ x ∈ l, k <:+: x.1 ∨ k <:+: x.2 := by
  have nil : ¬ k <:+: [] := fun h => hn (List.eq_nil_of_infix_nil h)
  have q := hk 34#8 (by simp [structural])
  have br := hk 123#8 (by simp [structural])
  have com := hk 44#8 (by simp [structural])
  unfold before at h
  rcases infix_split q h with h | h
  · by_cases hl : l = []
    · rw [if_pos hl, List.append_nil] at h
      rcases infix_split (a := []) br h with h | h
      · exact absurd h nil
      · exact infix_members hk hn l h
    · rw [if_neg hl] at h
      rcases infix_split com h with h | h
      · rcases infix_split (a := []) br h with h | h
        · exact absurd h nil
        · exact infix_members hk hn l h
      · exact absurd h nil
  · exact absurd h nil

/-- A key without structural characters that is no part of an earlier key or value occurs first at its place. -/
theorem first_occurrence {k : List Byte} (hk : ∀ c ∈ structural, c ∉ k) (hn : k ≠ []) (l : List (List Byte × List Byte))
    (hl : ∀ x ∈ l, ¬ k <:+: x.1 ∧ ¬ k <:+: x.2) (v : List Byte) (l' : List (List Byte × List Byte)) (p s : List Byte)
    (h : document (l ++ (k, v) :: l') = p ++ k ++ s) : (before l).length ≤ p.length := by
  apply Classical.byContradiction
  intro hlt
  obtain ⟨rest, hr⟩ := document_mid l k v l'
  have hb : ∃ b0, before l = b0 ++ [34#8] := ⟨_, rfl⟩
  obtain ⟨b0, hb0⟩ := hb
  have hno : ¬ k <:+: before l := fun h => by
    obtain ⟨x, hx, h⟩ := infix_before hk hn l h
    exact h.elim (hl x hx).1 (hl x hx).2
  rw [h] at hr
  by_cases h1 : p.length + k.length ≤ (before l).length
  · apply hno
    have := congrArg (List.take (before l).length) hr
    simp only [List.append_assoc] at this
    rw [List.take_left, List.take_append, List.take_of_length_le (by omega), List.take_append,
      List.take_of_length_le (by omega)] at this
    exact ⟨p, _, by rw [List.append_assoc]; exact this⟩
  · apply hk 34#8 (by simp [structural])
    rw [hb0] at h1 hlt
    simp only [List.length_append, List.length_cons, List.length_nil] at h1 hlt
    have := congrArg (fun l => l[b0.length]?) hr
    simp only [hb0, List.append_assoc] at this
    rw [List.getElem?_append_right (by omega), List.getElem?_append_left (by omega),
      List.getElem?_append_right (Nat.le_refl _), Nat.sub_self, List.singleton_append, List.getElem?_cons_zero] at this
    exact List.mem_of_getElem? this

end IMU.Spec.Json
