import Verif.Proofs.Scheduler
import Verif.Spec.SchedulerInterrupt
import Mathlib.Tactic.ByContra

namespace IMU.Scheduler
open Spec

variable {F G : Type}

/-- Occupied slots stay as they are. -/
def Keeps (l l' : List (STask F)) : Prop :=
  l'.length = l.length ∧ ∀ (k : Nat) (x : STask F), l[k]? = some x → x.function ≠ none → l'[k]? = some x

theorem Keeps.refl (l : List (STask F)) : Keeps l l := ⟨rfl, fun _ _ h _ => h⟩

theorem Keeps.trans {l l1 l2 : List (STask F)} (h : Keeps l l1) (h' : Keeps l1 l2) : Keeps l l2 :=
  ⟨h'.1.trans h.1, fun k x hx hf => h'.2 k x (h.2 k x hx hf) hf⟩

theorem keeps_set {l : List (STask F)} {j : Nat} {x : STask F} (hx : l[j]? = some x) (hf : x.function = none)
    (t : STask F) : Keeps l (l.set j t) := by
  refine ⟨by simp, fun k y hy hyf => ?_⟩
  have : j ≠ k := by rintro rfl; rw [hx] at hy; simp at hy; subst hy; exact hyf hf
  rw [List.getElem?_set_ne this]; exact hy

theorem addLoop_keeps (t : STask F) : ∀ (r i : Nat) (l : List (STask F)) (b : Bool) (l' : List (STask F)),
    addLoop t r i l = .ok (b, l') → Keeps l l' := by
  intro r
  induction r with
  | zero => intro i l b l' h; simp [addLoop] at h; rw [← h.2]; exact Keeps.refl l
  | succ r ih =>
    intro i l b l' h
    simp only [addLoop] at h
    cases hl : l[i]? with
    | none => rw [hl] at h; simp at h
    | some x =>
      rw [hl] at h
      simp only at h
      cases hf : x.function with
      | none => rw [hf] at h; simp at h; rw [← h.2]; exact keeps_set hl hf _
      | some f => rw [hf] at h; exact ih _ _ _ _ h

theorem addAll_keeps (n : U32) : ∀ (ts : List (STask F)) (l : List (STask F)) (rs : List Bool) (l' : List (STask F)),
    addAll n l ts = .ok (rs, l') → Keeps l l' := by
  intro ts
  induction ts with
  | nil => intro l rs l' h; simp [addAll] at h; rw [← h.2]; exact Keeps.refl l
  | cons t ts ih =>
    intro l rs l' h
    simp only [addAll] at h
    cases h1 : addTask l n t with
    | error e => rw [h1] at h; simp at h
    | ok p =>
      obtain ⟨b, l1⟩ := p
      rw [h1] at h
      simp only at h
      cases h2 : addAll n l1 ts with
      | error e => rw [h2] at h; simp at h
      | ok q =>
        obtain ⟨rs', l2⟩ := q
        rw [h2] at h
        simp at h
        rw [← h.2]
        exact (addLoop_keeps _ _ _ _ _ _ h1).trans (ih _ _ _ h2)

theorem addTask_some (n : U32) (l : List (STask F)) (hn : n.toNat ≤ l.length) (t : STask F) :
    ∃ b l', addTask l n t = .ok (b, l') := by
  rcases addLoop_ok t n.toNat 0 l (by omega) with ⟨j, -, -, -, -, h⟩ | ⟨-, h⟩
  · exact ⟨_, _, h⟩
  · exact ⟨_, _, h⟩

theorem addAll_some (n : U32) : ∀ (ts l : List (STask F)), n.toNat ≤ l.length →
    ∃ rs l', addAll n l ts = .ok (rs, l') ∧ rs.length = ts.length := by
  intro ts
  induction ts with
  | nil => intro l _; exact ⟨[], l, rfl, rfl⟩
  | cons t ts ih =>
    intro l hn
    obtain ⟨b, l1, h1⟩ := addTask_some n l hn t
    have hk := addLoop_keeps _ _ _ _ _ _ h1
    obtain ⟨rs, l2, h2, h3⟩ := ih l1 (by rw [hk.1]; exact hn)
    exact ⟨b :: rs, l2, by simp only [addAll, h1, h2], by simp [h3]⟩

theorem addAll_append (n : U32) : ∀ (as bs l : List (STask F)) (rs : List Bool) (l1 : List (STask F)) (rs' : List Bool)
    (l2 : List (STask F)), addAll n l as = .ok (rs, l1) → addAll n l1 bs = .ok (rs', l2) →
    addAll n l (as ++ bs) = .ok (rs ++ rs', l2) := by
  intro as
  induction as with
  | nil => intro bs l rs l1 rs' l2 h h'; simp [addAll] at h; obtain ⟨rfl, rfl⟩ := h; exact h'
  | cons t as ih =>
    intro bs l rs l1 rs' l2 h h'
    simp only [addAll] at h
    cases h1 : addTask l n t with
    | error e => rw [h1] at h; simp at h
    | ok p =>
      obtain ⟨b, l3⟩ := p
      rw [h1] at h
      simp only at h
      cases h2 : addAll n l3 as with
      | error e => rw [h2] at h; simp at h
      | ok q =>
        obtain ⟨rs3, l4⟩ := q
        rw [h2] at h
        simp at h
        obtain ⟨rfl, rfl⟩ := h
        rw [List.cons_append]
        simp only [addAll, h1, ih bs l3 rs3 l4 rs' l2 h2 h', List.cons_append]

/-- What an occupied slot holds does not matter to an addition. -/
theorem addLoop_swap (t : STask F) {j : Nat} {x y : STask F} (hx : x.function ≠ none) (hy : y.function ≠ none) :
    ∀ (r i : Nat) (l : List (STask F)), l[j]? = some x → ∀ b l', addLoop t r i l = .ok (b, l') →
    addLoop t r i (l.set j y) = .ok (b, l'.set j y) := by
  intro r
  induction r with
  | zero => intro i l _ b l' h; simp [addLoop] at h; rw [h.1, ← h.2]; rfl
  | succ r ih =>
    intro i l hl b l' h
    have hj : j < l.length := (List.getElem?_eq_some_iff.1 hl).1
    simp only [addLoop] at h ⊢
    by_cases hij : j = i
    · subst hij
      rw [List.getElem?_set_self hj]
      rw [hl] at h
      simp only at h ⊢
      obtain ⟨f, hf⟩ := Option.ne_none_iff_exists'.1 hx
      obtain ⟨g, hg⟩ := Option.ne_none_iff_exists'.1 hy
      rw [hf] at h
      rw [hg]
      exact ih _ _ hl _ _ h
    · rw [List.getElem?_set_ne hij]
      cases hz : l[i]? with
      | none => rw [hz] at h; simp at h
      | some z =>
        rw [hz] at h
        simp only at h ⊢
        cases hf : z.function with
        | none =>
          rw [hf] at h
          simp at h
          simp only
          rw [← h.1, ← h.2, List.set_comm _ _ hij]
        | some f => rw [hf] at h; exact ih _ _ hl _ _ h

theorem addAll_swap (n : U32) {j : Nat} {x y : STask F} (hx : x.function ≠ none) (hy : y.function ≠ none) :
    ∀ (ts l : List (STask F)), l[j]? = some x → ∀ rs l', addAll n l ts = .ok (rs, l') →
    addAll n (l.set j y) ts = .ok (rs, l'.set j y) := by
  intro ts
  induction ts with
  | nil => intro l _ rs l' h; simp [addAll] at h; rw [h.1, ← h.2]; rfl
  | cons t ts ih =>
    intro l hl rs l' h
    simp only [addAll] at h
    cases h1 : addTask l n t with
    | error e => rw [h1] at h; simp at h
    | ok p =>
      obtain ⟨b, l1⟩ := p
      rw [h1] at h
      simp only at h
      cases h2 : addAll n l1 ts with
      | error e => rw [h2] at h; simp at h
      | ok q =>
        obtain ⟨rs', l2⟩ := q
        rw [h2] at h
        simp at h
        have hk := addLoop_keeps _ _ _ _ _ _ h1
        have hs := addLoop_swap t hx hy _ _ _ hl _ _ h1
        have hs2 := ih l1 (hk.2 _ _ hl hx) _ _ h2
        simp only [addAll, addTask, hs, hs2]
        rw [← h.1, ← h.2]

theorem handlerAdds_eq (n : U32) (A : List (STask F)) (w : World F G) (hn : n.toNat ≤ w.tasks.length) :
    ∃ rs l', addAll n w.tasks A = .ok (rs, l') ∧ rs.length = A.length ∧ Keeps w.tasks l' ∧
      handlerAdds n A w = ⟨l', w.rest⟩ := by
  obtain ⟨rs, l', h, hl⟩ := addAll_some n A w.tasks hn
  exact ⟨rs, l', h, hl, addAll_keeps _ _ _ _ _ h, by simp only [handlerAdds, h]⟩

/-- With the slots before `s` occupied and slot `s` free, an addition goes to slot `s`. -/
theorem addTask_at (n : U32) (l : List (STask F)) (t : STask F) {s : Nat} (hs : s < n.toNat) (hn : n.toNat ≤ l.length)
    {x : STask F} (hx : l[s]? = some x) (hf : x.function = none)
    (hb : ∀ k, k < s → ∃ y, l[k]? = some y ∧ y.function ≠ none) : addTask l n t = .ok (true, l.set s t) := by
  rcases addLoop_ok t n.toNat 0 l (by omega) with ⟨j, -, hj, ⟨y, hy, hyf⟩, hk, h⟩ | ⟨h, -⟩
  · have : j = s := by
      rcases Nat.lt_trichotomy j s with hlt | heq | hgt
      · obtain ⟨z, hz, hzf⟩ := hb j hlt
        rw [hy] at hz; simp at hz; subst hz; exact absurd hyf hzf
      · exact heq
      · obtain ⟨z, hz, hzf⟩ := hk s (by omega) hgt
        rw [hx] at hz; simp at hz; subst hz; exact absurd hf hzf
    rw [addTask, h, this]
  · obtain ⟨z, hz, hzf⟩ := h s (by omega) (by omega)
    rw [hx] at hz; simp at hz; subst hz; exact absurd hf hzf

theorem addTask_refused (n : U32) (l : List (STask F)) (t : STask F)
    (hb : ∀ k, k < n.toNat → ∃ y, l[k]? = some y ∧ y.function ≠ none) (hn : n.toNat ≤ l.length) :
    addTask l n t = .ok (false, l) := by
  rcases addLoop_ok t n.toNat 0 l (by omega) with ⟨j, -, hj, ⟨y, hy, hyf⟩, -, -⟩ | ⟨-, h⟩
  · obtain ⟨z, hz, hzf⟩ := hb j (by omega)
    rw [hy] at hz; simp at hz; subst hz; exact absurd hyf hzf
  · exact h

theorem occ_keeps {l l' : List (STask F)} (h : Keeps l l') {i : Nat}
    (hb : ∀ k, k < i → ∃ y, l[k]? = some y ∧ y.function ≠ none) :
    ∀ k, k < i → ∃ y, l'[k]? = some y ∧ y.function ≠ none := by
  intro k hk
  obtain ⟨y, hy, hyf⟩ := hb k hk
  exact ⟨y, h.2 k y hy hyf, hyf⟩

/-- The slot found and filled, with additions between the two stores and after them. -/
theorem addInt_fill (n : U32) (w : World F G) (t : STask F) (ht : t.function ≠ none) {s : Nat} (hs : s < n.toNat)
    (hn : n.toNat ≤ w.tasks.length) {x : STask F} (hx : w.tasks[s]? = some x) (hf : x.function = none)
    (hb : ∀ k, k < s → ∃ y, w.tasks[k]? = some y ∧ y.function ≠ none) (P Q : List (STask F)) :
    ∃ rs l' z, addAll n w.tasks (t :: (P ++ Q)) = .ok (true :: rs, l') ∧
      (handlerAdds n P (⟨w.tasks.set s ⟨t.function, x.active⟩, w.rest⟩ : World F G)).tasks[s]? = some z ∧
      z.function = t.function ∧
      handlerAdds n Q (⟨(handlerAdds n P (⟨w.tasks.set s ⟨t.function, x.active⟩, w.rest⟩ : World F G)).tasks.set s
        ⟨t.function, t.active⟩, w.rest⟩ : World F G) = ⟨l', w.rest⟩ := by
  have hsl : s < w.tasks.length := by omega
  have hget : (w.tasks.set s ⟨t.function, x.active⟩)[s]? = some ⟨t.function, x.active⟩ := List.getElem?_set_self hsl
  obtain ⟨rs1, l1, h1, -, hk1, e1⟩ := handlerAdds_eq n P (⟨w.tasks.set s ⟨t.function, x.active⟩, w.rest⟩ : World F G)
    (by simpa using hn)
  have hz := hk1.2 s _ hget ht
  have hsw := addAll_swap n (x := ⟨t.function, x.active⟩) (y := ⟨t.function, t.active⟩) ht ht P _ hget _ _ h1
  rw [List.set_set] at hsw
  have hlen1 : n.toNat ≤ (l1.set s ⟨t.function, t.active⟩).length := by
    rw [List.length_set, hk1.1]; simpa using hn
  obtain ⟨rs2, l2, h2, -, -, e2⟩ := handlerAdds_eq n Q (⟨l1.set s ⟨t.function, t.active⟩, w.rest⟩ : World F G) hlen1
  refine ⟨rs1 ++ rs2, l2, ⟨t.function, x.active⟩, ?_, by rw [e1]; exact hz, rfl, by rw [e1]; exact e2⟩
  have hall := addAll_append n P Q _ _ _ _ _ hsw h2
  simp only [addAll, addTask_at n w.tasks t hs hn hx hf hb, hall]

theorem addInt_lin (n : U32) (A : Nat → AddPoint → List (STask F)) (hA : ∀ i, A i .found = []) (t : STask F)
    (ht : t.function ≠ none) : ∀ (r i : Nat) (w : World F G), i + r = n.toNat → n.toNat ≤ w.tasks.length →
    (∀ k, k < i → ∃ y, w.tasks[k]? = some y ∧ y.function ≠ none) →
    ∃ s rs l', i ≤ s ∧ s ≤ n.toNat ∧
      addAll n w.tasks ((List.range' i (s - i + 1)).flatMap (A · .test) ++
        t :: (if s < n.toNat then A s .stored ++ A s .done else [])) = .ok (rs, l') ∧
      rs[((List.range' i (s - i + 1)).flatMap (A · .test)).length]? = some (decide (s < n.toNat)) ∧
      addLoopInt (fun i p => handlerAdds n (A i p)) t r i w = .ok (decide (s < n.toNat), ⟨l', w.rest⟩) := by
  intro r
  induction r with
  | zero =>
    intro i w hi hn hb
    obtain ⟨rs, l', h1, hl, hk, e⟩ := handlerAdds_eq n (A i .test) w hn
    have hr := addTask_refused n l' t (occ_keeps hk (by rw [← show i = n.toNat by omega]; exact hb)) (by rw [hk.1]; exact hn)
    have h2 : addAll n l' [t] = .ok ([false], l') := by simp only [addAll, hr]
    refine ⟨i, rs ++ [false], l', Nat.le_refl _, by omega, ?_, ?_, ?_⟩
    · rw [if_neg (by omega)]
      simpa using addAll_append n _ _ _ _ _ _ _ h1 h2
    · rw [show i - i + 1 = 1 by omega]
      simp [hl]; omega
    · rw [decide_eq_false (by omega)]
      simp only [addLoopInt, e]
  | succ r ih =>
    intro i w hi hn hb
    obtain ⟨rs, l1, h1, hl, hk, e⟩ := handlerAdds_eq n (A i .test) w hn
    have hn1 : n.toNat ≤ l1.length := by rw [hk.1]; exact hn
    have hb1 := occ_keeps hk hb
    have hg : l1[i]? = some l1[i] := List.getElem?_eq_getElem (by omega)
    cases hf : l1[i].function with
    | some f =>
      obtain ⟨s, rs2, l2, g1, g2, g3, g4, g5⟩ := ih (i + 1) ⟨l1, w.rest⟩ (by omega) hn1 (by
        intro k hk
        by_cases hki : k = i
        · subst hki; exact ⟨_, hg, by rw [hf]; simp⟩
        · exact hb1 k (by omega))
      have hr : List.range' i (s - i + 1) = i :: List.range' (i + 1) (s - (i + 1) + 1) := by
        rw [List.range'_succ, show s - i = s - (i + 1) + 1 by omega]
      refine ⟨s, rs ++ rs2, l2, by omega, g2, ?_, ?_, ?_⟩
      · rw [hr, List.flatMap_cons, List.append_assoc]
        exact addAll_append n _ _ _ _ _ _ _ h1 g3
      · rw [hr, List.flatMap_cons, List.length_append, List.getElem?_append_right (by omega), hl,
          Nat.add_sub_cancel_left]
        exact g4
      · simp only [addLoopInt, e, hg, hf]
        exact g5
    | none =>
      obtain ⟨rs2, l2, z, g1, g2, g3, g4⟩ := addInt_fill n (⟨l1, w.rest⟩ : World F G) t ht (show i < n.toNat by omega) hn1 hg hf hb1
        (A i .stored) (A i .done)
      refine ⟨i, rs ++ true :: rs2, l2, Nat.le_refl _, by omega, ?_, ?_, ?_⟩
      · rw [if_pos (by omega), show i - i + 1 = 1 by omega]
        simpa using addAll_append n _ _ _ _ _ _ _ h1 g1
      · rw [show i - i + 1 = 1 by omega]
        simp [hl]; omega
      · rw [decide_eq_true (by omega)]
        have e0 : ∀ w' : World F G, handlerAdds n ([] : List (STask F)) w' = w' := fun w' => rfl
        have hrest : ∀ (A : List (STask F)) (w' : World F G), (handlerAdds n A w').rest = w'.rest := by
          intro A w'; unfold handlerAdds; split <;> rfl
        simp only [addLoopInt, e, hg, hf, hA, e0, g2, g3, hrest, g4]

/-! ### Runs -/

theorem schedule_append (l l' : List (STask F)) : schedule (l ++ l') = schedule l ++ schedule l' := by
  unfold schedule; rw [List.filterMap_append]

theorem window_cons {l : List (STask F)} {i r : Nat} {x : STask F} (hx : l[i]? = some x) :
    (l.drop i).take (r + 1) = x :: (l.drop (i + 1)).take r := by
  obtain ⟨hi, rfl⟩ := List.getElem?_eq_some_iff.1 hx
  rw [← List.getElem_cons_drop hi, List.take_succ_cons]

theorem schedule_window {l : List (STask F)} {i r : Nat} {x : STask F} (hx : l[i]? = some x) :
    schedule ((l.drop i).take (r + 1)) = schedule [x] ++ schedule ((l.drop (i + 1)).take r) := by
  rw [window_cons hx, ← schedule_append]; rfl

/-- A table that has grown asks for at least the same calls. -/
theorem schedule_grow : ∀ (r i : Nat) (l l' : List (STask F)), Keeps l l' → i + r ≤ l.length →
    (schedule ((l.drop i).take r)).Sublist (schedule ((l'.drop i).take r)) := by
  intro r
  induction r with
  | zero => intro i l l' _ _; simp
  | succ r ih =>
    intro i l l' hk hi
    have h1 : l[i]? = some l[i] := List.getElem?_eq_getElem (by omega)
    have h2 : l'[i]? = some (l'[i]'(by rw [hk.1]; omega)) := List.getElem?_eq_getElem (by rw [hk.1]; omega)
    rw [schedule_window h1, schedule_window h2]
    have := ih (i + 1) l l' hk (by omega)
    by_cases hf : l[i].function = none
    · have e : schedule [l[i]] = [] := by simp [schedule, hf]
      rw [e, List.nil_append]
      exact this.trans (List.sublist_append_right _ _)
    · have h3 := hk.2 i _ h1 hf
      rw [h2] at h3
      rw [Option.some.inj h3]
      exact List.Sublist.append_left this _

theorem runInt_adds (n : U32) (A : Nat → RunPoint → List (STask F)) (act : F → G → G) : ∀ (r i : Nat) (w : World F G),
    i + r = n.toNat → n.toNat ≤ w.tasks.length →
    ∃ fs adds rs l', runLoopInt (fun i p => handlerAdds n (A i p)) (acting act) r i w =
        .ok ⟨l', fs.foldl (fun g f => act f g) w.rest⟩ ∧
      addAll n w.tasks adds = .ok (rs, l') ∧
      (schedule ((w.tasks.drop i).take r)).Sublist fs ∧ fs.Sublist (schedule ((l'.drop i).take r)) := by
  intro r
  induction r with
  | zero =>
    intro i w hi hn
    obtain ⟨rs, l', h1, -, -, e⟩ := handlerAdds_eq n (A i .test) w hn
    exact ⟨[], A i .test, rs, l', by simp only [runLoopInt, e]; rfl, h1, by simp [schedule], by simp⟩
  | succ r ih =>
    intro i w hi hn
    obtain ⟨rs1, l1, h1, -, hk1, e1⟩ := handlerAdds_eq n (A i .test) w hn
    have hn1 : n.toNat ≤ l1.length := by rw [hk1.1]; exact hn
    have hg : l1[i]? = some l1[i] := List.getElem?_eq_getElem (by omega)
    have hg0 : w.tasks[i]? = some w.tasks[i] := List.getElem?_eq_getElem (by omega)
    cases hf : l1[i].function with
    | none =>
      obtain ⟨fs, adds, rs, l', g1, g2, g3, g4⟩ := ih (i + 1) ⟨l1, w.rest⟩ (by omega) hn1
      have hk := addAll_keeps _ _ _ _ _ g2
      have hf0 : w.tasks[i].function = none := by
        by_contra hne
        have := hk1.2 i _ hg0 hne
        rw [hg] at this
        rw [Option.some.inj this] at hf
        exact hne hf
      refine ⟨fs, A i .test ++ adds, rs1 ++ rs, l', ?_, addAll_append n _ _ _ _ _ _ _ h1 g2, ?_, ?_⟩
      · simp only [runLoopInt, e1, hg, hf]; exact g1
      · have e : schedule ((w.tasks.drop i).take (r + 1)) = schedule ((w.tasks.drop (i + 1)).take r) := by
          rw [schedule_window hg0]; simp [schedule, hf0]
        rw [e]
        exact (schedule_grow r (i + 1) _ _ hk1 (by omega)).trans g3
      · have hg' : l'[i]? = some (l'[i]'(by rw [hk.1]; exact (by omega : i < l1.length))) :=
          List.getElem?_eq_getElem _
        rw [schedule_window hg']
        exact g4.trans (List.sublist_append_right _ _)
    | some f =>
      have hne : l1[i].function ≠ none := by rw [hf]; simp
      obtain ⟨rs2, l2, h2, -, hk2, e2⟩ := handlerAdds_eq n (A i .flag) (⟨l1, w.rest⟩ : World F G) hn1
      have hg2 := hk2.2 i _ hg hne
      by_cases ha : l1[i].active = true
      · obtain ⟨rs3, l3, h3, -, hk3, e3⟩ := handlerAdds_eq n (A i .call) (⟨l2, w.rest⟩ : World F G)
          (by rw [hk2.1]; exact hn1)
        have hg3 := hk3.2 i _ hg2 hne
        obtain ⟨fs, adds, rs, l', g1, g2, g3, g4⟩ := ih (i + 1) ⟨l3, act f w.rest⟩ (by omega)
          (by show n.toNat ≤ l3.length; rw [hk3.1, hk2.1]; exact hn1)
        have hk := addAll_keeps _ _ _ _ _ g2
        have hg' := hk.2 i _ hg3 hne
        have h123 := addAll_append n _ _ _ _ _ _ _ h1 (addAll_append n _ _ _ _ _ _ _ h2 (addAll_append n _ _ _ _ _ _ _ h3 g2))
        have hk13 : Keeps w.tasks l3 := hk1.trans (hk2.trans hk3)
        have es : schedule [l1[i]] = [f] := by simp [schedule, ha, hf]
        refine ⟨f :: fs, _, _, l', ?_, h123, ?_, ?_⟩
        · simp only [runLoopInt, e1, hg, hf, e2, hg2, ha, if_true, e3, hg3]
          exact g1
        · have hs := schedule_grow (r + 1) i _ _ hk13 (by omega)
          rw [schedule_window hg3, es] at hs
          exact hs.trans (List.Sublist.cons_cons _ g3)
        · rw [schedule_window hg', es]
          exact List.Sublist.cons_cons _ g4
      · obtain ⟨fs, adds, rs, l', g1, g2, g3, g4⟩ := ih (i + 1) ⟨l2, w.rest⟩ (by omega)
          (by show n.toNat ≤ l2.length; rw [hk2.1]; exact hn1)
        have hk := addAll_keeps _ _ _ _ _ g2
        have hg' := hk.2 i _ hg2 hne
        have h12 := addAll_append n _ _ _ _ _ _ _ h1 (addAll_append n _ _ _ _ _ _ _ h2 g2)
        have es : schedule [l1[i]] = [] := by simp [schedule, ha]
        refine ⟨fs, _, _, l', ?_, h12, ?_, ?_⟩
        · simp only [runLoopInt, e1, hg, hf, e2, hg2, if_neg ha]
          exact g1
        · have hs := schedule_grow (r + 1) i _ _ (hk1.trans hk2) (by omega)
          rw [schedule_window hg2, es] at hs
          exact hs.trans g3
        · rw [schedule_window hg', es]
          exact g4

end IMU.Scheduler
