import Verif.Proofs.LeakJson

/-!
# What a JSON lookup shows: equal lists
-/

namespace IMU.Json
open Spec.Leak Spec.Json Spec.LeakJson

theorem prefix_iff_agree (k : List Byte) : ∀ s : List Byte, k <+: s ↔ agree s k = k.length := by
  induction k with
  | nil => intro s; cases s <;> simp [agree]
  | cons a k ih =>
    intro s
    cases s with
    | nil => simp [agree]
    | cons c s =>
      rw [List.cons_prefix_cons, agree, List.length_cons, ih]
      by_cases h : c = a
      · simp [h]
      · rw [if_neg h]
        constructor
        · rintro ⟨h', _⟩; exact absurd h'.symm h
        · intro h'; omega

theorem cmp_inj (b bk : Nat) (k : List Byte) : ∀ (k' d d' : List Byte) (o ok : Nat) (u u' : List Leak), k.length = k'.length →
    k.length ≤ d.length → k.length ≤ d'.length →
    cmpShown b o bk ok d k ++ u = cmpShown b o bk ok d' k' ++ u' → agree d k = agree d' k' ∧ u = u' := by
  induction k with
  | nil =>
    intro k' d d' o ok u u' h1 h2 h3 h
    have : k' = [] := List.eq_nil_of_length_eq_zero h1.symm
    subst this
    cases d <;> cases d' <;> simpa [cmpShown, agree] using h
  | cons x k ih =>
    intro k' d d' o ok u u' h1 h2 h3 h
    cases k' with
    | nil => simp at h1
    | cons x' k' =>
      cases d with
      | nil => simp at h2
      | cons y d =>
        cases d' with
        | nil => simp at h3
        | cons y' d' =>
          simp only [cmpShown, List.cons_append, List.cons.injEq, true_and] at h
          rw [agree, agree]
          by_cases e : y = x <;> by_cases e' : y' = x'
          · rw [if_pos e, if_pos e'] at h ⊢
            simp only [List.cons_append, List.cons.injEq, true_and] at h
            obtain ⟨h4, h5⟩ := ih k' d d' (o + 1) (ok + 1) u u' (by simpa using h1) (by simpa using h2) (by simpa using h3) h
            exact ⟨by rw [h4], h5⟩
          · rw [if_pos e, if_neg e'] at h; simp at h
          · rw [if_neg e, if_pos e'] at h; simp at h
          · rw [if_neg e, if_neg e'] at h ⊢
            simpa using h

theorem cmp_same (b bk : Nat) (k : List Byte) : ∀ (k' d d' : List Byte) (o ok : Nat), k.length = k'.length →
    k.length ≤ d.length → k.length ≤ d'.length → agree d k = agree d' k' →
    cmpShown b o bk ok d k = cmpShown b o bk ok d' k' := by
  induction k with
  | nil =>
    intro k' d d' o ok h1 h2 h3 h
    have : k' = [] := List.eq_nil_of_length_eq_zero h1.symm
    subst this
    cases d <;> cases d' <;> simp [cmpShown]
  | cons x k ih =>
    intro k' d d' o ok h1 h2 h3 h
    cases k' with
    | nil => simp at h1
    | cons x' k' =>
      cases d with
      | nil => simp at h2
      | cons y d =>
        cases d' with
        | nil => simp at h3
        | cons y' d' =>
          rw [agree, agree] at h
          rw [cmpShown, cmpShown]
          by_cases e : y = x <;> by_cases e' : y' = x'
          · rw [if_pos e, if_pos e'] at h ⊢
            rw [ih k' d d' (o + 1) (ok + 1) (by simpa using h1) (by simpa using h2) (by simpa using h3) (by omega)]
          · rw [if_pos e, if_neg e'] at h; omega
          · rw [if_neg e, if_pos e'] at h; omega
          · rw [if_neg e, if_neg e'] at h ⊢

/-- Is there a place with something behind the key? -/
theorem afterKey_isSome_cons (k : List Byte) (c : Byte) (t : List Byte) (hl : k.length < (c :: t).length) (hp : k <+: c :: t) :
    (afterKey k (c :: t)).isSome = decide ((c :: t)[k.length]? = some 34#8) := by
  rw [afterKey, if_pos ⟨hp, hl⟩]
  by_cases h : (c :: t)[k.length]? = some 34#8
  · rw [if_pos h, decide_eq_true h]; rfl
  · rw [if_neg h, decide_eq_false h]; rfl

theorem afterKey_skip (k : List Byte) (c : Byte) (t : List Byte) (hp : ¬ k <+: c :: t) : afterKey k (c :: t) = afterKey k t := by
  rw [afterKey, if_neg (fun h => hp h.1)]

theorem afterKey_none_short (k : List Byte) : ∀ t : List Byte, t.length ≤ k.length → afterKey k t = none := by
  intro t
  induction t with
  | nil => intro _; rfl
  | cons c t ih =>
    intro h
    rw [afterKey, if_neg (fun h' => by omega)]
    exact ih (by simp at h; omega)

theorem find_inj (b bk ok : Nat) (k k' : List Byte) (hk : k.length = k'.length) : ∀ (t t' : List Byte) (o : Nat) (u u' : List Leak),
    t.length = t'.length → findShown b bk ok k o t ++ u = findShown b bk ok k' o t' ++ u' →
    agrees k t = agrees k' t' ∧ u = u' := by
  intro t
  induction t with
  | nil =>
    intro t' o u u' hl h
    have : t' = [] := List.eq_nil_of_length_eq_zero hl.symm
    subst this
    simpa [findShown, agrees] using h
  | cons c t ih =>
    intro t' o u u' hl h
    cases t' with
    | nil => simp at hl
    | cons c' t' =>
      rw [findShown, findShown] at h
      rw [agrees, agrees]
      by_cases hlt : k.length < (c :: t).length
      · have hlt' : k'.length < (c' :: t').length := by omega
        rw [if_pos hlt, if_pos hlt'] at h ⊢
        simp only [List.cons_append, List.cons.injEq, true_and, List.append_assoc] at h
        obtain ⟨h1, h2⟩ := cmp_inj b bk k k' (c :: t) (c' :: t') o ok _ _ hk (by omega) (by omega) h
        have hp : k <+: c :: t ↔ k' <+: c' :: t' := by rw [prefix_iff_agree, prefix_iff_agree, h1, hk]
        by_cases hpc : k <+: c :: t
        · rw [if_pos hpc, if_pos (hp.mp hpc)] at h2 ⊢
          simp only [List.cons_append, List.nil_append, List.cons.injEq, true_and] at h2
          exact ⟨by rw [h1], h2.2.2⟩
        · rw [if_neg hpc, if_neg (fun h' => hpc (hp.mpr h'))] at h2 ⊢
          simp only [List.cons_append, List.cons.injEq, true_and] at h2
          obtain ⟨h3, h4⟩ := ih t' (o + 1) u u' (by simpa using hl) h2
          exact ⟨by rw [h1, h3], h4⟩
      · rw [if_neg hlt, if_neg (by omega)] at h ⊢
        simpa using h

theorem find_same (b bk ok : Nat) (k k' : List Byte) (hk : k.length = k'.length) : ∀ (t t' : List Byte) (o : Nat),
    t.length = t'.length → agrees k t = agrees k' t' → (afterKey k t).isSome = (afterKey k' t').isSome →
    findShown b bk ok k o t = findShown b bk ok k' o t' := by
  intro t
  induction t with
  | nil =>
    intro t' o hl _ _
    have : t' = [] := List.eq_nil_of_length_eq_zero hl.symm
    subst this; rfl
  | cons c t ih =>
    intro t' o hl h ha
    cases t' with
    | nil => simp at hl
    | cons c' t' =>
      rw [agrees, agrees] at h
      rw [findShown, findShown]
      by_cases hlt : k.length < (c :: t).length
      · have hlt' : k'.length < (c' :: t').length := by omega
        rw [if_pos hlt, if_pos hlt'] at h ⊢
        simp only [List.cons.injEq] at h
        have hp : k <+: c :: t ↔ k' <+: c' :: t' := by rw [prefix_iff_agree, prefix_iff_agree, h.1, hk]
        rw [cmp_same b bk k k' (c :: t) (c' :: t') o ok hk (by omega) (by omega) h.1]
        by_cases hpc : k <+: c :: t
        · rw [if_pos hpc, if_pos (hp.mp hpc)]
          rw [afterKey_isSome_cons k c t hlt hpc, afterKey_isSome_cons k' c' t' hlt' (hp.mp hpc)] at ha
          rw [ha, hk]
        · have hpc' : ¬ k' <+: c' :: t' := fun h' => hpc (hp.mpr h')
          rw [if_neg hpc, if_neg hpc'] at h ⊢
          rw [afterKey_skip k c t hpc, afterKey_skip k' c' t' hpc'] at ha
          rw [ih t' (o + 1) (by simpa using hl) h.2 ha]
      · rw [if_neg hlt, if_neg (by omega)]

/-- Where the search for the value begins follows from the numbers of agreeing bytes. -/
theorem afterKey_length (k : List Byte) : ∀ (t r : List Byte), afterKey k t = some r →
    r.length + (agrees k t).length + k.length = t.length := by
  intro t
  induction t with
  | nil => intro r h; cases h
  | cons c t ih =>
    intro r h
    rw [agrees]
    by_cases hlt : k.length < (c :: t).length
    · rw [if_pos hlt]
      by_cases hp : k <+: c :: t
      · rw [if_pos hp]
        rw [afterKey, if_pos ⟨hp, hlt⟩] at h
        split at h
        · injection h with h
          rw [← h, List.length_drop]
          simp only [List.length_cons, List.length_nil] at hlt ⊢
          omega
        · cases h
      · rw [if_neg hp]
        rw [afterKey_skip k c t hp] at h
        have := ih r h
        simp only [List.length_cons]
        omega
    · rw [afterKey_none_short k _ (by omega)] at h
      cases h

theorem skip_inj (b : Nat) : ∀ (r r' : List Byte) (o : Nat) (u u' : List Leak), r.length = r'.length →
    skipShown b o r ++ u = skipShown b o r' ++ u' →
    (r.takeWhile notQuote).length = (r'.takeWhile notQuote).length ∧ u = u' := by
  intro r
  induction r with
  | nil =>
    intro r' o u u' hl h
    have : r' = [] := List.eq_nil_of_length_eq_zero hl.symm
    subst this
    simpa [skipShown] using h
  | cons c r ih =>
    intro r' o u u' hl h
    cases r' with
    | nil => simp at hl
    | cons c' r' =>
      rw [skipShown, skipShown] at h
      simp only [List.cons_append, List.cons.injEq, true_and] at h
      by_cases e : c = 34#8 <;> by_cases e' : c' = 34#8
      · rw [if_pos e, if_pos e'] at h
        simpa [List.takeWhile_cons, notQuote, e, e'] using h
      · rw [if_pos e, if_neg e'] at h; simp at h
      · rw [if_neg e, if_pos e'] at h; simp at h
      · rw [if_neg e, if_neg e'] at h
        simp only [List.cons_append, List.cons.injEq, true_and] at h
        obtain ⟨h1, h2⟩ := ih r' (o + 1) u u' (by simpa using hl) h
        refine ⟨?_, h2⟩
        simp [List.takeWhile_cons, notQuote, e, e'] at h1 ⊢
        exact h1

theorem skip_same (b : Nat) : ∀ (r r' : List Byte) (o : Nat), r.length = r'.length →
    (r.takeWhile notQuote).length = (r'.takeWhile notQuote).length → skipShown b o r = skipShown b o r' := by
  intro r
  induction r with
  | nil =>
    intro r' o hl _
    have : r' = [] := List.eq_nil_of_length_eq_zero hl.symm
    subst this; rfl
  | cons c r ih =>
    intro r' o hl h
    cases r' with
    | nil => simp at hl
    | cons c' r' =>
      rw [skipShown, skipShown]
      by_cases e : c = 34#8 <;> by_cases e' : c' = 34#8
      · rw [if_pos e, if_pos e']
      · simp [List.takeWhile_cons, notQuote, e, e'] at h
      · simp [List.takeWhile_cons, notQuote, e, e'] at h
      · rw [if_neg e, if_neg e', ih r' (o + 1) (by simpa using hl)]
        simp [List.takeWhile_cons, notQuote, e, e'] at h ⊢
        exact h

theorem copy_inj (b bv : Nat) : ∀ (r r' : List Byte) (o ov room : Nat), r.length = r'.length →
    copyShown b bv o ov r room = copyShown b bv o ov r' room →
    min room (r.takeWhile notQuote).length = min room (r'.takeWhile notQuote).length := by
  intro r
  induction r with
  | nil =>
    intro r' o ov room hl _
    have : r' = [] := List.eq_nil_of_length_eq_zero hl.symm
    subst this; rfl
  | cons c r ih =>
    intro r' o ov room hl h
    cases r' with
    | nil => simp at hl
    | cons c' r' =>
      cases room with
      | zero => simp
      | succ room =>
        rw [copyShown, copyShown] at h
        simp only [List.cons.injEq, true_and] at h
        by_cases e : c = 34#8 <;> by_cases e' : c' = 34#8
        · simp [List.takeWhile_cons, notQuote, e, e']
        · rw [if_pos e, if_neg e'] at h; simp at h
        · rw [if_neg e, if_pos e'] at h; simp at h
        · rw [if_neg e, if_neg e'] at h
          simp only [List.cons.injEq, true_and] at h
          have h1 := ih r' (o + 1) (ov + 1) room (by simpa using hl) h
          have e1 : (List.takeWhile notQuote (c :: r)).length = (List.takeWhile notQuote r).length + 1 := by
            simp [List.takeWhile_cons, notQuote, e]
          have e2 : (List.takeWhile notQuote (c' :: r')).length = (List.takeWhile notQuote r').length + 1 := by
            simp [List.takeWhile_cons, notQuote, e']
          rw [e1, e2]; omega

theorem copy_same (b bv : Nat) : ∀ (r r' : List Byte) (o ov room : Nat), r.length = r'.length →
    min room (r.takeWhile notQuote).length = min room (r'.takeWhile notQuote).length →
    copyShown b bv o ov r room = copyShown b bv o ov r' room := by
  intro r
  induction r with
  | nil =>
    intro r' o ov room hl _
    have : r' = [] := List.eq_nil_of_length_eq_zero hl.symm
    subst this; rfl
  | cons c r ih =>
    intro r' o ov room hl h
    cases r' with
    | nil => simp at hl
    | cons c' r' =>
      cases room with
      | zero => rw [copyShown, copyShown]
      | succ room =>
        rw [copyShown, copyShown]
        by_cases e : c = 34#8 <;> by_cases e' : c' = 34#8
        · rw [if_pos e, if_pos e']
        · simp [List.takeWhile_cons, notQuote, e, e'] at h
        · simp [List.takeWhile_cons, notQuote, e, e'] at h
        · rw [if_neg e, if_neg e', ih r' (o + 1) (ov + 1) room (by simpa using hl)]
          have e1 : (List.takeWhile notQuote (c :: r)).length = (List.takeWhile notQuote r).length + 1 := by
            simp [List.takeWhile_cons, notQuote, e]
          have e2 : (List.takeWhile notQuote (c' :: r')).length = (List.takeWhile notQuote r').length + 1 := by
            simp [List.takeWhile_cons, notQuote, e']
          rw [e1, e2] at h; omega

/-- Reads in front of a decision. -/
theorem reads_branch_inj (f : Nat → Ptr) : ∀ (l l' : List Nat) (c c' : Bool) (u u' : List Leak),
    l.map (fun i => Leak.read (f i)) ++ .branch c :: u = l'.map (fun i => Leak.read (f i)) ++ .branch c' :: u' →
    l.length = l'.length ∧ c = c' ∧ u = u' := by
  intro l
  induction l with
  | nil =>
    intro l' c c' u u' h
    cases l' with
    | nil => simpa using h
    | cons x l' => simp at h
  | cons x l ih =>
    intro l' c c' u u' h
    cases l' with
    | nil => simp at h
    | cons x' l' =>
      simp only [List.map_cons, List.cons_append, List.cons.injEq] at h
      obtain ⟨h1, h2⟩ := ih l' c c' u u' h.2
      exact ⟨by simp [h1], h2⟩

theorem rest_length (r : List Byte) : ((r.dropWhile notQuote).drop 1).length = r.length - (r.takeWhile notQuote).length - 1 := by
  have h := congrArg List.length (List.takeWhile_append_dropWhile (p := notQuote) (l := r))
  rw [List.length_append] at h
  rw [List.length_drop]; omega

theorem lookupShown_iff (b o bk ok bv ov : Nat) (k k' t t' : List Byte) (room : Nat) (hl : t.length = t'.length) :
    lookupShown b o bk ok bv ov k t room = lookupShown b o bk ok bv ov k' t' room ↔ told k t room = told k' t' room := by
  unfold lookupShown told
  simp only [Prod.mk.injEq]
  constructor
  · intro h
    obtain ⟨h1, -, h2⟩ := reads_branch_inj _ _ _ _ _ _ _ h
    have hk : k.length = k'.length := by simpa using h1
    obtain ⟨h3, h4⟩ := find_inj b bk ok k k' hk t t' o _ _ hl h2
    refine ⟨hk, h3, ?_⟩
    cases ha : afterKey k t with
    | none =>
      rw [ha] at h4
      cases ha' : afterKey k' t' with
      | none => rfl
      | some r' => rw [ha'] at h4; simp at h4
    | some r =>
      rw [ha] at h4
      cases ha' : afterKey k' t' with
      | none => rw [ha'] at h4; simp at h4
      | some r' =>
        rw [ha'] at h4
        simp only [Option.isSome_some, List.cons.injEq, true_and] at h4
        have l1 := afterKey_length k t r ha
        have l2 := afterKey_length k' t' r' ha'
        rw [h3] at l1
        have hr : r.length = r'.length := by omega
        rw [show t.length - r.length = t'.length - r'.length by omega] at h4
        obtain ⟨h5, h6⟩ := skip_inj b r r' _ _ _ hr h4
        have hrr : ((r.dropWhile notQuote).drop 1).length = ((r'.dropWhile notQuote).drop 1).length := by
          rw [rest_length, rest_length, hr, h5]
        rw [hrr, hl] at h6
        have h7 := copy_inj b bv _ _ _ _ _ hrr h6
        simp only [Option.map_some, h5, h7]
  · rintro ⟨hk, h3, h4⟩
    have hs : (afterKey k t).isSome = (afterKey k' t').isSome := by
      have := congrArg Option.isSome h4
      simpa using this
    rw [find_same b bk ok k k' hk t t' o hl h3 hs, hk, hl, hs]
    congr 3
    cases ha : afterKey k t with
    | none =>
      rw [ha] at h4
      cases ha' : afterKey k' t' with
      | none => rfl
      | some r' => rw [ha'] at h4; simp at h4
    | some r =>
      rw [ha] at h4
      cases ha' : afterKey k' t' with
      | none => rw [ha'] at h4; simp at h4
      | some r' =>
        rw [ha'] at h4
        simp only [Option.map_some, Option.some.injEq, Prod.mk.injEq] at h4
        have l1 := afterKey_length k t r ha
        have l2 := afterKey_length k' t' r' ha'
        rw [h3] at l1
        have hr : r.length = r'.length := by omega
        have hrr : ((r.dropWhile notQuote).drop 1).length = ((r'.dropWhile notQuote).drop 1).length := by
          rw [rest_length, rest_length, hr, h4.1]
        dsimp only
        rw [hr, skip_same b r r' _ hr h4.1, hrr, copy_same b bv _ _ _ _ _ hrr h4.2]

end IMU.Json
