import Verif.Proofs.SortBase

namespace IMU.Sort
open Spec Utils

/-- One pass of bubble sort over `x :: B`, `c` comparisons. -/
def bpass (gt : Cmp) : Nat → List Byte → List (List Byte) → List (List Byte) × Bool
  | 0, x, B => (x :: B, false)
  | _ + 1, x, [] => ([x], false)
  | c + 1, x, y :: B =>
    if gt x y then (y :: (bpass gt c x B).1, true) else (x :: (bpass gt c y B).1, (bpass gt c y B).2)

theorem bpass_perm (gt : Cmp) (c : Nat) : ∀ (x : List Byte) (B : List (List Byte)),
    (x :: B).Perm (bpass gt c x B).1 := by
  induction c with
  | zero => intro x B; exact .refl _
  | succ c ih =>
    intro x B
    cases B with
    | nil => exact .refl _
    | cons y B =>
      unfold bpass
      split
      · exact (List.Perm.swap y x B).trans ((ih x B).cons y)
      · exact (ih y B).cons x

theorem bpass_ties {gt : Cmp} (h : StrictWeak gt) (c : Nat) : ∀ (x : List Byte) (B : List (List Byte)),
    SameTies gt (x :: B) (bpass gt c x B).1 := by
  induction c with
  | zero => intro x B; exact SameTies.refl _
  | succ c ih =>
    intro x B
    cases B with
    | nil => exact SameTies.refl _
    | cons y B =>
      unfold bpass
      split
      · rename_i hxy
        exact (SameTies.swap h hxy B).trans ((ih x B).cons y)
      · exact (ih y B).cons x

theorem bpass_max {gt : Cmp} (h : StrictWeak gt) (c : Nat) : ∀ (x : List Byte) (B : List (List Byte)),
    c ≤ B.length → ∃ A' x', (bpass gt c x B).1 = A' ++ x' :: B.drop c ∧ A'.length = c ∧
      (∀ a ∈ A', gt a x' = false) ∧ gt x x' = false := by
  induction c with
  | zero => intro x B _; exact ⟨[], x, rfl, rfl, by simp, h.irrefl x⟩
  | succ c ih =>
    intro x B hB
    cases B with
    | nil => simp at hB
    | cons y B =>
      unfold bpass
      split
      · rename_i hxy
        obtain ⟨A', x', h1, h2, h3, h4⟩ := ih x B (by simpa using hB)
        refine ⟨y :: A', x', by simp [h1], by simp [h2], ?_, h4⟩
        intro a ha
        rcases List.mem_cons.mp ha with rfl | ha
        · exact h.negTrans _ _ _ (h.asymm _ _ hxy) h4
        · exact h3 a ha
      · rename_i hxy
        have hxy : gt x y = false := by simpa using hxy
        obtain ⟨A', x', h1, h2, h3, h4⟩ := ih y B (by simpa using hB)
        refine ⟨x :: A', x', by simp [h1], by simp [h2], ?_, h.negTrans _ _ _ hxy h4⟩
        intro a ha
        rcases List.mem_cons.mp ha with rfl | ha
        · exact h.negTrans _ _ _ hxy h4
        · exact h3 a ha

theorem bpass_false {gt : Cmp} (c : Nat) : ∀ (x : List Byte) (B : List (List Byte)),
    (bpass gt c x B).2 = false → (bpass gt c x B).1 = x :: B ∧ (StrictWeak gt → Sorted gt (x :: B.take c)) := by
  induction c with
  | zero => intro x B _; exact ⟨rfl, fun _ => by simp [Sorted]⟩
  | succ c ih =>
    intro x B
    cases B with
    | nil => intro _; exact ⟨rfl, fun _ => by simp [Sorted]⟩
    | cons y B =>
      unfold bpass
      split
      · intro h; simp at h
      · rename_i hxy
        have hxy : gt x y = false := by simpa using hxy
        intro h
        obtain ⟨h1, h2⟩ := ih y B h
        refine ⟨by simp [h1], fun hw => ?_⟩
        have h3 := h2 hw
        unfold Sorted at h3 ⊢
        rw [List.take_succ_cons, List.pairwise_cons]
        refine ⟨?_, h3⟩
        intro z hz
        rcases List.mem_cons.mp hz with rfl | hz
        · exact hxy
        · exact hw.negTrans _ _ _ hxy ((List.pairwise_cons.mp h3).1 z hz)

theorem swapAt_adjacent {α} (A : List α) (x y : α) (B : List α) :
    swapAt (A ++ x :: y :: B) A.length (A.length + 1) = A ++ y :: x :: B := by
  have h1 : (A ++ x :: y :: B)[A.length]? = some x := by simp
  have h2 : (A ++ x :: y :: B)[A.length + 1]? = some y := by
    rw [List.getElem?_append_right (by omega)]; simp
  unfold swapAt
  rw [h1, h2]
  simp [List.set_append]

theorem bubblePass_run (gt : Cmp) {m0 : Mem} {b o sz : Nat} (hsz : sz < 2 ^ 31) (c : Nat) :
    ∀ (A : List (List Byte)) (x : List Byte) (B : List (List Byte)) (sw : Bool), c ≤ B.length →
    Fits m0 b o sz (A ++ x :: B) → ((A ++ x :: B).length - 1) * sz < 2 ^ 31 →
    forN c A.length (fun j swapped => do
      let c ← compareAt gt (ptr b o) (sz : Int) (j : Int) ((j : Int) + 1)
      if c then do
        swapElems (ptr b o) (sz : Int) (j : Int) ((j : Int) + 1)
        return true
      else return swapped) sw (arr m0 b o (A ++ x :: B)) =
    .ok (sw || (bpass gt c x B).2) (arr m0 b o (A ++ (bpass gt c x B).1)) := by
  induction c with
  | zero => intro A x B sw _ _ _; simp [bpass]
  | succ c ih =>
    intro A x B sw hB hf hlim
    cases B with
    | nil => simp at hB
    | cons y B =>
      have hlen : (A ++ x :: y :: B).length = A.length + 1 + 1 + B.length := by simp; omega
      have e1 : ((A.length : Int) + 1) = ((A.length + 1 : Nat) : Int) := by simp
      have h1 : (A ++ x :: y :: B)[A.length]? = some x := by simp
      have h2 : (A ++ x :: y :: B)[A.length + 1]? = some y := by
        rw [List.getElem?_append_right (by omega)]; simp
      have l1 := mul_lim hlim (k := A.length) (by omega)
      have l2 := mul_lim hlim (k := A.length + 1) (by omega)
      rw [forN_succ, e1, C.bind_ok (compareAt_ok gt hf l1 l2 h1 h2)]
      unfold bpass
      by_cases hxy : gt x y = true
      · rw [if_pos hxy, if_pos hxy, C.bind_ok (swapElems_ok hf hsz l1 l2 (by omega) (by omega)), C.pure_run,
          swapAt_adjacent]
        simp only
        have hf' : Fits m0 b o sz ((A ++ [y]) ++ x :: B) := by
          have := hf.perm (swapAt_perm _ A.length (A.length + 1))
          rw [swapAt_adjacent] at this
          simpa using this
        have := ih (A ++ [y]) x B true (by simpa using hB) hf' (by simpa using hlim)
        simp only [List.length_append, List.length_singleton, List.append_assoc, List.singleton_append] at this
        rw [this]
        simp
      · rw [if_neg hxy, if_neg hxy, C.pure_run]
        simp only
        have := ih (A ++ [x]) y B sw (by simpa using hB) (by simpa using hf) (by simpa using hlim)
        simp only [List.length_append, List.length_singleton, List.append_assoc, List.singleton_append] at this
        rw [this]

theorem _root_.IMU.Spec.Sorted.of_parts {gt : Cmp} {P S : List (List Byte)} (h1 : Sorted gt P) (h2 : Sorted gt S)
    (h3 : ∀ p ∈ P, ∀ s ∈ S, gt p s = false) : Sorted gt (P ++ S) := by
  unfold Sorted at *
  rw [List.pairwise_append]
  exact ⟨h1, h2, h3⟩

/-- The outer loop: `S` is the finished part. -/
theorem bubbleLoop_run (gt : Cmp) {m0 : Mem} {b o sz : Nat} (hsz : sz < 2 ^ 31) (fuel : Nat) :
    ∀ (P S : List (List Byte)), P.length ≤ fuel → 1 ≤ fuel → (P ++ S).length < 2 ^ 31 → S.length < 2 ^ 31 - 1 →
    Fits m0 b o sz (P ++ S) → ((P ++ S).length - 1) * sz < 2 ^ 31 →
    ∃ l, bubbleLoop gt (ptr b o) ((P ++ S).length : Int) sz fuel (S.length : Int) (arr m0 b o (P ++ S)) =
        .ok () (arr m0 b o l) ∧ (P ++ S).Perm l ∧
      (StrictWeak gt → SameTies gt (P ++ S) l ∧
        (Sorted gt S → (∀ p ∈ P, ∀ s ∈ S, gt p s = false) → Sorted gt l)) := by
  induction fuel with
  | zero => intro P S _ h; omega
  | succ fuel ih =>
    intro P S hP _ hn hS0 hf hlim
    have hlen : (P ++ S).length = P.length + S.length := List.length_append
    unfold bubbleLoop
    rw [C.bind_ok (i32_ok (by omega) (by omega) _), C.bind_ok (i32_ok (by omega) (by omega) _)]
    have hcnt : (((P ++ S).length : Int) - (S.length : Int) - 1).toNat = P.length - 1 := by omega
    unfold bubblePass
    rw [hcnt]
    cases P with
    | nil =>
      simp only [List.length_nil, Nat.zero_sub]
      rw [C.bind_ok (forN_zero _ _ _ _), C.bind_ok (i32_ok (by omega) (by omega) _)]
      simp only [Bool.false_eq_true, if_false, C.pure_run]
      exact ⟨_, rfl, .refl _, fun hw => ⟨SameTies.refl _, fun h1 _ => by simpa using h1⟩⟩
    | cons x B =>
      have hrun := bubblePass_run gt hsz B.length [] x (B ++ S) false (by simp) (by simpa using hf)
        (by simpa using hlim)
      simp only [List.length_nil, List.nil_append, Bool.false_or] at hrun
      simp only [List.length_cons, Nat.add_sub_cancel, List.cons_append]
      rw [C.bind_ok hrun, C.bind_ok (i32_ok (by omega) (by omega) _)]
      have hperm := bpass_perm gt B.length x (B ++ S)
      by_cases hflag : (bpass gt B.length x (B ++ S)).2 = true
      · rw [if_pos hflag]
        have hcase : ∃ A' x', (bpass gt B.length x (B ++ S)).1 = A' ++ x' :: S ∧ A'.length = B.length := by
          have hlb := hperm.length_eq
          have hdrop : ∀ (c : Nat) (x : List Byte) (B : List (List Byte)), c ≤ B.length →
              (bpass gt c x B).1.drop (c + 1) = B.drop c := by
            intro c
            induction c with
            | zero => intro x B _; simp [bpass]
            | succ c ih =>
              intro x B hB
              cases B with
              | nil => simp at hB
              | cons y B =>
                unfold bpass
                split
                · simpa using ih x B (by simpa using hB)
                · simpa using ih y B (by simpa using hB)
          have hd := hdrop B.length x (B ++ S) (by simp)
          rw [List.drop_left] at hd
          have ht := List.take_append_drop (B.length + 1) (bpass gt B.length x (B ++ S)).1
          rw [hd] at ht
          have hl1 : ((bpass gt B.length x (B ++ S)).1.take (B.length + 1)).length = B.length + 1 := by
            rw [List.length_take, ← hlb]; simp
          refine ⟨((bpass gt B.length x (B ++ S)).1.take (B.length + 1)).dropLast,
            ((bpass gt B.length x (B ++ S)).1.take (B.length + 1)).getLast (by intro h; rw [h] at hl1; simp at hl1),
            ?_, by rw [List.length_dropLast, hl1]; simp⟩
          conv => lhs; rw [← ht]
          conv => lhs; rw [← List.dropLast_concat_getLast
            (l := (bpass gt B.length x (B ++ S)).1.take (B.length + 1)) (by intro h; rw [h] at hl1; simp at hl1)]
          simp
        obtain ⟨A', x', he, hA'⟩ := hcase
        rw [he] at hperm ⊢
        have hB1 : 1 ≤ B.length := by
          cases B with
          | nil => simp [bpass] at hflag
          | cons => simp
        have hle := hperm.length_eq
        simp only [List.length_cons, List.length_append] at hle
        obtain ⟨l, g1, g2, g3⟩ := ih A' (x' :: S) (by simp at hP; omega) (by simp at hP; omega)
          (by rw [← hperm.length_eq]; simpa using hn) (by simp at hn ⊢; omega) (hf.perm (by simpa using hperm))
          (by rw [← hperm.length_eq]; simpa using hlim)
        refine ⟨l, ?_, ?_, ?_⟩
        · rw [← g1]
          congr 2
          · simp; omega
        · exact hperm.trans g2
        · intro hw
          have hties := bpass_ties hw B.length x (B ++ S)
          rw [he] at hties
          obtain ⟨g4, g5⟩ := g3 hw
          refine ⟨hties.trans g4, ?_⟩
          intro hS hPS
          obtain ⟨A'', x'', k1, k2, k3, k4⟩ := bpass_max hw B.length x (B ++ S) (by simp)
          rw [he, List.drop_left] at k1
          have k5 := List.append_inj k1 (by omega)
          simp only [List.cons.injEq, and_true] at k5
          obtain ⟨rfl, rfl⟩ := k5
          have hpp : (x :: B).Perm (A' ++ [x']) := by
            have h1 : (x :: B ++ S).Perm ((A' ++ [x']) ++ S) := by simpa using hperm
            exact (List.perm_append_right_iff S).mp h1
          apply g5
          · unfold Sorted
            rw [List.pairwise_cons]
            refine ⟨?_, hS⟩
            intro s hs
            exact hPS x' (hpp.mem_iff.mpr (by simp)) s hs
          · intro p hp s hs
            rcases List.mem_cons.mp hs with rfl | hs
            · exact k3 p hp
            · exact hPS p (hpp.mem_iff.mpr (by simp [hp])) s hs
      · rw [if_neg hflag, C.pure_run]
        obtain ⟨k1, k2⟩ := bpass_false (gt := gt) B.length x (B ++ S) (by simpa using hflag)
        rw [k1]
        refine ⟨_, rfl, .refl _, ?_⟩
        intro hw
        refine ⟨SameTies.refl _, ?_⟩
        intro hS hPS
        have k3 := k2 hw
        rw [List.take_left] at k3
        exact Sorted.of_parts k3 hS hPS

end IMU.Sort
