import Verif.Proofs.SortBase

namespace IMU.Sort
open Spec Utils

theorem selectMin_run (gt : Cmp) {m0 : Mem} {b o sz : Nat} {l : List (List Byte)} (hf : Fits m0 b o sz l)
    (hlim : (l.length - 1) * sz < 2 ^ 31) (hn : l.length < 2 ^ 31) {i : Nat} (hi : i + 1 < l.length) :
    ∃ k, selectMin gt (ptr b o) (l.length : Int) sz i (arr m0 b o l) = .ok k (arr m0 b o l) ∧
      i ≤ k ∧ k < l.length ∧
      (StrictWeak gt → ∀ q, i ≤ q → q < l.length → gt (l.getD k []) (l.getD q []) = false) ∧
      ((∀ q, i < q → q < l.length → gt (l.getD i []) (l.getD q []) = false) → k = i) := by
  unfold selectMin
  rw [C.bind_ok (i32_ok (by omega) (by omega) _)]
  have hcnt : ((l.length : Int) - ((i : Int) + 1)).toNat = l.length - (i + 1) := by omega
  rw [hcnt]
  have key := forN_inv (fun j (k : Nat) m => m = arr m0 b o l ∧ i ≤ k ∧ k < j ∧
      (StrictWeak gt → ∀ q, i ≤ q → q < j → gt (l.getD k []) (l.getD q []) = false) ∧
      ((∀ q, i < q → q < l.length → gt (l.getD i []) (l.getD q []) = false) → k = i))
    (l.length - (i + 1)) (i + 1) (fun j min_index => do
      let c ← compareAt gt (ptr b o) (sz : Int) ((min_index : Nat) : Int) (j : Int)
      return if c then j else min_index) i (arr m0 b o l) ?_ ?_
  · obtain ⟨k, m', h1, rfl, h2, h3, h4, h5⟩ := key
    rw [show i + 1 + (l.length - (i + 1)) = l.length by omega] at h3 h4
    exact ⟨k, h1, h2, h3, h4, h5⟩
  · refine ⟨rfl, Nat.le_refl _, by omega, ?_, fun _ => rfl⟩
    intro hw q h1 h2
    rw [show q = i by omega]
    exact hw.irrefl _
  · rintro j k m h1 h2 ⟨rfl, h3, h4, h5, h6⟩
    have hj : j < l.length := by omega
    have hk : k < l.length := by omega
    rw [C.bind_ok (compareAt_ok gt hf (mul_lim hlim hk) (mul_lim hlim hj) (getElem?_getD [] hk) (getElem?_getD [] hj)),
      C.pure_run]
    refine ⟨_, _, rfl, rfl, ?_⟩
    by_cases hc : gt (l.getD k []) (l.getD j []) = true
    · rw [if_pos hc]
      refine ⟨by omega, by omega, ?_, ?_⟩
      · intro hw q h7 h8
        by_cases hq : q = j
        · rw [hq]; exact hw.irrefl _
        · exact hw.trans' hc (h5 hw q h7 (by omega))
      · intro h7
        have h8 := h6 h7
        rw [h8, h7 j (by omega) hj] at hc
        exact absurd hc (by simp)
    · rw [if_neg hc]
      refine ⟨by omega, by omega, ?_, h6⟩
      intro hw q h7 h8
      by_cases hq : q = j
      · rw [hq]; simpa using hc
      · exact h5 hw q h7 (by omega)

theorem selectionSort_run (gt : Cmp) {m0 : Mem} {b o sz : Nat} {l0 : List (List Byte)} (hsz : sz < 2 ^ 31)
    (hf : Fits m0 b o sz l0) (hlim : (l0.length - 1) * sz < 2 ^ 31) (hn : l0.length < 2 ^ 31) :
    ∃ l, selectionSort (ptr b o) (l0.length : Int) sz gt (arr m0 b o l0) = .ok () (arr m0 b o l) ∧ l0.Perm l ∧
      (StrictWeak gt → Sorted gt l) ∧ (Sorted gt l0 → l = l0) := by
  unfold selectionSort
  rw [C.bind_ok (i32_ok (by omega) (by omega) _)]
  have hcnt : ((l0.length : Int) - 1).toNat = l0.length - 1 := by omega
  rw [hcnt]
  have key := forN_inv (fun i (_ : Unit) m => ∃ l, m = arr m0 b o l ∧ l0.Perm l ∧
      (StrictWeak gt → ∀ p q, p < i → p < q → q < l0.length → gt (l.getD p []) (l.getD q []) = false) ∧
      (Sorted gt l0 → l = l0)) (l0.length - 1) 0 (fun i _ => do
        let min_index ← selectMin gt (ptr b o) (l0.length : Int) (sz : Int) i
        if min_index ≠ i then swapElems (ptr b o) (sz : Int) (min_index : Int) (i : Int) else return ())
      () (arr m0 b o l0) ?_ ?_
  · obtain ⟨_, m', h1, l, rfl, h2, h3, h4⟩ := key
    refine ⟨l, h1, h2, ?_, h4⟩
    intro hw
    rw [sorted_iff]
    intro p q h5 h6
    rw [← h2.length_eq] at h6
    exact h3 hw p q (by omega) h5 h6
  · exact ⟨l0, rfl, .refl _, fun _ p q h => by omega, fun _ => rfl⟩
  · rintro i ⟨⟩ m _ hi ⟨l, rfl, h1, h2, h3⟩
    rw [Nat.zero_add] at hi
    have hle := h1.length_eq
    rw [hle] at hlim hn hi ⊢
    obtain ⟨k, g1, g2, g3, g4, g5⟩ := selectMin_run gt (hf.perm h1) hlim hn (i := i) (by omega)
    rw [C.bind_ok g1]
    by_cases hk : k = i
    · rw [if_neg (by simp [hk]), C.pure_run]
      refine ⟨(), _, rfl, l, rfl, h1, ?_, h3⟩
      intro hw p q h4 h5 h6
      by_cases hp : p = i
      · subst hp; subst hk
        exact g4 hw q (by omega) h6
      · exact h2 hw p q (by omega) h5 (by rw [hle]; exact h6)
    · have hil : i < l.length := by omega
      rw [if_pos hk, swapElems_ok (hf.perm h1) hsz (mul_lim hlim g3) (mul_lim hlim hil) g3 hil]
      refine ⟨(), _, rfl, swapAt l k i, rfl, h1.trans (swapAt_perm _ _ _), ?_, ?_⟩
      · intro hw p q h4 h5 h6
        rw [swapAt_getD _ _ _ _ _ g3 hil, swapAt_getD _ _ _ _ _ g3 hil]
        by_cases hp : p = i
        · rw [if_pos hp, if_neg (show ¬ q = i by omega)]
          split
          · exact g4 hw i (by omega) hil
          · exact g4 hw q (by omega) h6
        · rw [if_neg hp, if_neg (show ¬ p = k by omega)]
          split
          · exact h2 hw p k (by omega) (by omega) (by rw [hle]; exact g3)
          · split
            · exact h2 hw p i (by omega) (by omega) (by rw [hle]; exact hil)
            · exact h2 hw p q (by omega) h5 (by rw [hle]; exact h6)
      · intro hs
        exfalso
        apply hk
        have hll := h3 hs
        subst hll
        apply g5
        intro q h4 h5
        exact (sorted_iff.mp hs) i q h4 h5

end IMU.Sort
