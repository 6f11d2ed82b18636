import Verif.Spec.SortKeys
import Verif.Proofs.SortBase
import Mathlib.Data.List.Basic

/-!
# Lemmas for property C126
-/

namespace IMU.Sort
open Spec

variable {α : Type}

theorem lexAll_strictWeak : ∀ gts : List (α → α → Bool), (∀ g ∈ gts, StrictWeak g) → StrictWeak (lexAll gts)
  | [], _ => ⟨by simp [lexAll], by simp [lexAll]⟩
  | g :: gts, h => by
    have hg := h g (by simp)
    have ih := lexAll_strictWeak gts (fun x hx => h x (by simp [hx]))
    constructor
    · intro a b hab
      simp only [lexAll, Bool.or_eq_true, Bool.and_eq_true, Bool.not_eq_true', Bool.or_eq_false_iff,
        Bool.and_eq_false_iff, Bool.not_eq_false'] at hab ⊢
      rcases hab with h1 | ⟨h1, h2⟩
      · exact ⟨hg.asymm _ _ h1, .inl h1⟩
      · exact ⟨h1, .inr (ih.asymm _ _ h2)⟩
    · intro a b c hab hbc
      simp only [lexAll, Bool.or_eq_false_iff, Bool.and_eq_false_iff, Bool.not_eq_false'] at hab hbc ⊢
      refine ⟨hg.negTrans _ _ _ hab.1 hbc.1, ?_⟩
      by_cases hca : g c a = true
      · exact .inl hca
      · simp only [Bool.not_eq_true] at hca
        have h1 : g b a = false := hg.negTrans _ _ _ hbc.1 hca
        have h2 : g c b = false := hg.negTrans _ _ _ hca hab.1
        rw [h1] at hab
        rw [h2] at hbc
        exact .inr (ih.negTrans _ _ _ (by simpa using hab.2) (by simpa using hbc.2))

theorem tied_lexAll (g : α → α → Bool) (gts : List (α → α → Bool)) (a b : α) :
    tied (lexAll (g :: gts)) a b = (tied g a b && tied (lexAll gts) a b) := by
  simp only [tied, lexAll]
  cases g a b <;> cases g b a <;> simp

/-- Sorting a list that is sorted by the minor keys stably by the major one. -/
theorem sorted_lexAll {g : α → α → Bool} {gts : List (α → α → Bool)} {L L' : List α} (hg : StrictWeak g)
    (h : Sorted (lexAll gts) L) (h1 : Sorted g L') (h2 : SameTies g L L') : Sorted (lexAll (g :: gts)) L' := by
  simp only [Sorted] at *
  rw [List.pairwise_iff_forall_sublist] at *
  intro a b hab
  simp only [lexAll, Bool.or_eq_false_iff, Bool.and_eq_false_iff, Bool.not_eq_false']
  refine ⟨h1 hab, ?_⟩
  by_cases hba : g b a = true
  · exact .inl hba
  · simp only [Bool.not_eq_true] at hba
    right
    apply h
    have ht : tied g a b = true := by simp [tied, hba, h1 hab]
    have haa : g a a = false := by
      by_contra hc
      simp only [Bool.not_eq_false] at hc
      have := hg.asymm _ _ hc
      rw [hc] at this
      cases this
    have hta : tied g a a = true := by simp [tied, haa]
    have := hab.filter (tied g a)
    rw [← h2 a] at this
    simp only [List.filter_cons, ht, hta, if_true, List.filter_nil] at this
    exact this.trans List.filter_sublist

theorem sameTies_lexAll {g : α → α → Bool} {gts : List (α → α → Bool)} {L0 L L' : List α}
    (h : SameTies (lexAll gts) L0 L) (h2 : SameTies g L L') : SameTies (lexAll (g :: gts)) L0 L' := by
  intro x
  have e : ∀ l : List α, l.filter (tied (lexAll (g :: gts)) x) = (l.filter (tied g x)).filter (tied (lexAll gts) x) := by
    intro l
    rw [List.filter_filter]
    apply List.filter_congr
    intro y _
    rw [tied_lexAll, Bool.and_comm]
  rw [e, e, ← h2 x, List.filter_filter, List.filter_filter]
  have e2 : ∀ l : List α, l.filter (fun a => tied (lexAll gts) x a && tied g x a) =
      (l.filter (tied (lexAll gts) x)).filter (tied g x) := by
    intro l
    rw [List.filter_filter]
    apply List.filter_congr
    intro y _
    rw [Bool.and_comm]
  rw [e2, e2, h x]

end IMU.Sort
