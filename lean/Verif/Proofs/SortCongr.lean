import Verif.Proofs.SortSelection
import Verif.Proofs.SortInsertion
import Verif.Proofs.SortHeap
import Verif.Proofs.SortGlue

/-!
# The sorts depend on the comparator at the elements of the array only
-/

namespace IMU.Sort
open Spec Utils

/-- Two comparators deliver the same on the members of `L`. -/
def AgreeOn (L : List (List Byte)) (g g' : Cmp) : Prop := ∀ a ∈ L, ∀ b ∈ L, g a b = g' a b

theorem AgreeOn.perm {L L' : List (List Byte)} {g g' : Cmp} (h : AgreeOn L g g') (hp : L.Perm L') :
    AgreeOn L' g g' := fun a ha b hb => h a (hp.mem_iff.mpr ha) b (hp.mem_iff.mpr hb)

theorem mem_getD {l : List (List Byte)} {k : Nat} (h : k < l.length) : l.getD k [] ∈ l := by
  simp [h]

/-! ### Bubble sort -/

theorem bpass_congr {g g' : Cmp} (c : Nat) : ∀ (x : List Byte) (B : List (List Byte)), AgreeOn (x :: B) g g' →
    bpass g c x B = bpass g' c x B := by
  induction c with
  | zero => intro x B _; rfl
  | succ c ih =>
    intro x B h
    cases B with
    | nil => rfl
    | cons y B =>
      have h1 : AgreeOn (x :: B) g g' := fun a ha b hb => h a (by simp_all; tauto) b (by simp_all; tauto)
      have h2 : AgreeOn (y :: B) g g' := fun a ha b hb => h a (by simp_all) b (by simp_all)
      rw [bpass, bpass, h x (by simp) y (by simp), ih x B h1, ih y B h2]

theorem bubblePass_congr {g g' : Cmp} {m0 : Mem} {b o sz : Nat} (hsz : sz < 2 ^ 31) {l : List (List Byte)} (c : Nat)
    (hc : c + 1 ≤ l.length ∨ c = 0) (hf : Fits m0 b o sz l) (hlim : (l.length - 1) * sz < 2 ^ 31) (ha : AgreeOn l g g') :
    bubblePass g (ptr b o) sz c (arr m0 b o l) = bubblePass g' (ptr b o) sz c (arr m0 b o l) ∧
    ∃ s l', bubblePass g (ptr b o) sz c (arr m0 b o l) = .ok s (arr m0 b o l') ∧ l.Perm l' := by
  unfold bubblePass
  rw [Int.toNat_natCast]
  cases l with
  | nil =>
    have : c = 0 := by simpa using hc
    subst this
    exact ⟨rfl, _, _, rfl, .refl _⟩
  | cons x B =>
    have hc' : c ≤ B.length := by simp at hc; omega
    have h1 := bubblePass_run g hsz c [] x B false hc' (by simpa using hf) (by simpa using hlim)
    have h2 := bubblePass_run g' hsz c [] x B false hc' (by simpa using hf) (by simpa using hlim)
    simp only [List.length_nil, List.nil_append] at h1 h2
    rw [h1, h2, bpass_congr c x B ha]
    exact ⟨rfl, _, _, rfl, bpass_perm g' c x B⟩

theorem i32_cases (x : Int) (m : Mem) : i32 x m = .ok x m ∨ ∃ e, i32 x m = .ub e := by
  by_cases h : -2147483648 ≤ x ∧ x ≤ 2147483647
  · exact .inl (i32_ok h.1 h.2 m)
  · right
    unfold i32
    rw [if_neg h]
    exact ⟨_, rfl⟩

theorem bubbleLoop_congr {g g' : Cmp} {m0 : Mem} {b o sz : Nat} (hsz : sz < 2 ^ 31) (fuel : Nat) :
    ∀ (l : List (List Byte)) (i : Nat), Fits m0 b o sz l →
    (l.length - 1) * sz < 2 ^ 31 → AgreeOn l g g' →
    bubbleLoop g (ptr b o) (l.length : Int) sz fuel i (arr m0 b o l) =
      bubbleLoop g' (ptr b o) (l.length : Int) sz fuel i (arr m0 b o l) := by
  induction fuel with
  | zero => intro l i _ _ _; rfl
  | succ fuel ih =>
    intro l i hf hlim ha
    rw [bubbleLoop, bubbleLoop]
    rcases i32_cases ((l.length : Int) - i) (arr m0 b o l) with h | ⟨e, h⟩
    · rw [C.bind_ok h, C.bind_ok h]
      rcases i32_cases ((l.length : Int) - i - 1) (arr m0 b o l) with h | ⟨e, h⟩
      · rw [C.bind_ok h, C.bind_ok h]
        have hb : ∀ g : Cmp, bubblePass g (ptr b o) sz ((l.length : Int) - i - 1) =
            bubblePass g (ptr b o) sz ((l.length - i - 1 : Nat) : Int) := by
          intro g
          unfold bubblePass
          rw [show ((l.length : Int) - i - 1).toNat = ((l.length - i - 1 : Nat) : Int).toNat by omega]
        rw [hb g, hb g']
        obtain ⟨e, s, l', h1, hp⟩ := bubblePass_congr (g := g) (g' := g') hsz (l.length - i - 1) (by omega) hf hlim ha
        have h2 := h1
        rw [e] at h2
        rw [C.bind_ok h1, C.bind_ok h2]
        rcases i32_cases ((i : Int) + 1) (arr m0 b o l') with h | ⟨e, h⟩
        · rw [C.bind_ok h, C.bind_ok h]
          cases s with
          | false => rfl
          | true =>
            simp only [if_true]
            have := ih l' (i + 1) (hf.perm hp) (by rw [← hp.length_eq]; exact hlim) (ha.perm hp)
            rw [← hp.length_eq] at this
            exact this
        · rw [C.bind_ub h, C.bind_ub h]
      · rw [C.bind_ub h, C.bind_ub h]
    · rw [C.bind_ub h, C.bind_ub h]

/-! ### Loops -/

theorem forN_congr_inv {σ} (I : Nat → σ → Mem → Prop) (n : Nat) : ∀ (i : Nat) (body body' : Nat → σ → C σ) (s : σ) (m : Mem),
    I i s m →
    (∀ k s m, i ≤ k → k < i + n → I k s m → body k s m = body' k s m ∧ ∀ s' m', body k s m = .ok s' m' → I (k + 1) s' m') →
    forN n i body s m = forN n i body' s m := by
  induction n with
  | zero => intro i body body' s m _ _; rfl
  | succ n ih =>
    intro i body body' s m h0 hs
    obtain ⟨e, hi⟩ := hs i s m (Nat.le_refl _) (by omega) h0
    rw [forN_succ, forN_succ, ← e]
    cases hb : body i s m with
    | ub => rfl
    | ok s' m' => exact ih (i + 1) body body' s' m' (hi _ _ hb) (fun k s m h1 h2 => hs k s m (by omega) (by omega))

theorem forDown_congr_inv {σ} (I : Nat → σ → Mem → Prop) (n : Nat) : ∀ (body body' : Nat → σ → C σ) (s : σ) (m : Mem),
    I n s m →
    (∀ k s m, k < n → I (k + 1) s m → body k s m = body' k s m ∧ ∀ s' m', body k s m = .ok s' m' → I k s' m') →
    forDown n body s m = forDown n body' s m := by
  induction n with
  | zero => intro body body' s m _ _; rfl
  | succ n ih =>
    intro body body' s m h0 hs
    obtain ⟨e, hi⟩ := hs n s m (by omega) h0
    rw [forDown_succ, forDown_succ, ← e]
    cases hb : body n s m with
    | ub => rfl
    | ok s' m' => exact ih body body' s' m' (hi _ _ hb) (fun k s m h1 => hs k s m (by omega))

/-! ### Selection sort -/

theorem selectMin_congr {g g' : Cmp} {m0 : Mem} {b o sz : Nat} {l : List (List Byte)} (hf : Fits m0 b o sz l)
    (hlim : (l.length - 1) * sz < 2 ^ 31) (hn : l.length < 2 ^ 31) (ha : AgreeOn l g g') {i : Nat} (hi : i + 1 < l.length) :
    selectMin g (ptr b o) (l.length : Int) sz i (arr m0 b o l) =
      selectMin g' (ptr b o) (l.length : Int) sz i (arr m0 b o l) := by
  unfold selectMin
  rw [C.bind_ok (i32_ok (by omega) (by omega) _), C.bind_ok (i32_ok (by omega) (by omega) _)]
  rw [show ((l.length : Int) - ((i : Int) + 1)).toNat = l.length - (i + 1) by omega]
  apply forN_congr_inv (fun j (k : Nat) m => m = arr m0 b o l ∧ k < j)
  · exact ⟨rfl, by omega⟩
  · rintro j k m h1 h2 ⟨rfl, h3⟩
    have hj : j < l.length := by omega
    have hk : k < l.length := by omega
    rw [C.bind_ok (compareAt_ok g hf (mul_lim hlim hk) (mul_lim hlim hj) (getElem?_getD [] hk) (getElem?_getD [] hj)),
      C.bind_ok (compareAt_ok g' hf (mul_lim hlim hk) (mul_lim hlim hj) (getElem?_getD [] hk) (getElem?_getD [] hj)),
      C.pure_run, C.pure_run, ha _ (mem_getD hk) _ (mem_getD hj)]
    refine ⟨rfl, ?_⟩
    intro s' m' he
    injection he with h4 h5
    refine ⟨h5.symm, ?_⟩
    rw [← h4]
    split <;> omega

theorem selectionSort_congr {g g' : Cmp} {m0 : Mem} {b o sz : Nat} {l0 : List (List Byte)} (hsz : sz < 2 ^ 31)
    (hf : Fits m0 b o sz l0) (hlim : (l0.length - 1) * sz < 2 ^ 31) (hn : l0.length < 2 ^ 31) (ha : AgreeOn l0 g g') :
    selectionSort (ptr b o) (l0.length : Int) sz g (arr m0 b o l0) =
      selectionSort (ptr b o) (l0.length : Int) sz g' (arr m0 b o l0) := by
  unfold selectionSort
  rw [C.bind_ok (i32_ok (by omega) (by omega) _), C.bind_ok (i32_ok (by omega) (by omega) _)]
  rw [show ((l0.length : Int) - 1).toNat = l0.length - 1 by omega]
  apply forN_congr_inv (fun _ (_ : Unit) m => ∃ l, m = arr m0 b o l ∧ l0.Perm l)
  · exact ⟨l0, rfl, .refl _⟩
  · rintro i ⟨⟩ m _ hi ⟨l, rfl, hp⟩
    rw [Nat.zero_add] at hi
    have hle := hp.length_eq
    rw [hle] at hlim hn hi ⊢
    have hc := selectMin_congr (hf.perm hp) hlim hn (ha.perm hp) (i := i) (by omega)
    obtain ⟨k, g1, g2, g3, -, -⟩ := selectMin_run g (hf.perm hp) hlim hn (i := i) (by omega)
    rw [C.bind_ok g1, C.bind_ok (hc ▸ g1)]
    refine ⟨rfl, ?_⟩
    intro s' m' he
    by_cases hk : k = i
    · rw [if_neg (by simp [hk]), C.pure_run] at he
      injection he with _ h5
      exact ⟨l, h5.symm, hp⟩
    · have hil : i < l.length := by omega
      rw [if_pos hk, swapElems_ok (hf.perm hp) hsz (mul_lim hlim g3) (mul_lim hlim hil) g3 hil] at he
      injection he with _ h5
      exact ⟨_, h5.symm, hp.trans (swapAt_perm _ _ _)⟩

/-! ### Heap sort -/

theorem pick_congr {g g' : Cmp} {l : List (List Byte)} {T h x : Nat} (hh : h ≤ T) (hx : x < T)
    (ha : ∀ p q, p < T → q < T → g (l.getD p []) (l.getD q []) = g' (l.getD p []) (l.getD q [])) :
    pick g l h x = pick g' l h x := by
  have h1 : pickL g l h x = pickL g' l h x := by
    unfold pickL
    by_cases hc : 2 * x + 1 < h
    · rw [ha _ _ (by omega) hx]
    · rw [if_neg (by omega), if_neg (by omega)]
  have h2 := pickL_cases g' l h x
  unfold pick
  rw [h1]
  by_cases hc : 2 * x + 2 < h
  · rw [ha _ _ (by omega) (by omega)]
  · rw [if_neg (by omega), if_neg (by omega)]

/-- The comparators agree on the first `T` items. -/
def AgreeBelow (T : Nat) (l : List (List Byte)) (g g' : Cmp) : Prop :=
  ∀ p q, p < T → q < T → g (l.getD p []) (l.getD q []) = g' (l.getD p []) (l.getD q [])

theorem AgreeBelow.within {T : Nat} {l l' : List (List Byte)} {g g' : Cmp} (h : AgreeBelow T l g g')
    (hw : Within l l' T) : AgreeBelow T l' g g' := by
  intro p q hp hq
  obtain ⟨p', h1, h2⟩ := hw.1 p hp
  obtain ⟨q', h3, h4⟩ := hw.1 q hq
  rw [h2, h4]
  exact h p' q' h1 h3

theorem heapify_congr {g g' : Cmp} {m0 : Mem} {b o sz : Nat} (hsz : sz < 2 ^ 31) (T : Nat) (fuel : Nat) :
    ∀ (l : List (List Byte)) (h x : Nat), Fits m0 b o sz l → (l.length - 1) * sz < 2 ^ 31 → l.length < 2 ^ 31 →
    2 * T < l.length → h ≤ T → x < T → AgreeBelow T l g g' →
    heapifyLoop g (ptr b o) (h : Int) sz fuel (x : Int) (arr m0 b o l) =
      heapifyLoop g' (ptr b o) (h : Int) sz fuel (x : Int) (arr m0 b o l) := by
  induction fuel with
  | zero => intro l h x _ _ _ _ _ _ _; rfl
  | succ fuel ih =>
    intro l h x hf hlim hn hT hh hx ha
    rw [heapify_unfold g hf hlim hn fuel h x (by omega), heapify_unfold g' hf hlim hn fuel h x (by omega),
      pick_congr hh hx ha]
    by_cases hp : pick g' l h x = x
    · rw [if_neg (by simp [hp]), if_neg (by simp [hp])]
    · rw [if_pos hp, if_pos hp]
      obtain ⟨hc, hch⟩ := (pick_cases g' l h x).resolve_left hp
      have hxc : x < pick g' l h x := by unfold Child at hc; omega
      have hsw := swapElems_ok hf hsz (i := x) (j := pick g' l h x) (mul_lim hlim (by omega)) (mul_lim hlim (by omega))
        (by omega) (by omega)
      rw [C.bind_ok hsw, C.bind_ok hsw]
      have hsl := swapAt_length l x (pick g' l h x)
      exact ih _ h _ (hf.perm (swapAt_perm _ _ _)) (by rw [hsl]; exact hlim) (by rw [hsl]; exact hn)
        (by rw [hsl]; exact hT) hh (by omega)
        (ha.within ((Within.swap l (by omega) hch (by omega)).mono hh))

theorem heapSort_congr {g g' : Cmp} {m0 : Mem} {b o sz : Nat} {l0 : List (List Byte)} (hsz : sz < 2 ^ 31)
    (hf : Fits m0 b o sz l0) (hlim : (l0.length - 1) * sz < 2 ^ 31) (hn : l0.length < 2 ^ 31) (n fuel : Nat)
    (hT : 2 * n < l0.length) (hfu : n < 2 ^ fuel) (ha : AgreeBelow n l0 g g') :
    heapSort fuel (ptr b o) (n : Int) sz g (arr m0 b o l0) = heapSort fuel (ptr b o) (n : Int) sz g' (arr m0 b o l0) := by
  have hd : ((n : Int).tdiv 2) = ((n / 2 : Nat) : Int) := by
    rw [Int.tdiv_eq_ediv_of_nonneg (by omega)]; omega
  have hstep : ∀ (l : List (List Byte)) (h x : Nat), l0.Perm l → Within l0 l n → h ≤ n → x < n →
      heapifyLoop g (ptr b o) (h : Int) sz fuel (x : Int) (arr m0 b o l) =
        heapifyLoop g' (ptr b o) (h : Int) sz fuel (x : Int) (arr m0 b o l) ∧
      ∃ l', heapifyLoop g (ptr b o) (h : Int) sz fuel (x : Int) (arr m0 b o l) = .ok () (arr m0 b o l') ∧
        l0.Perm l' ∧ Within l0 l' n := by
    intro l h x hp hwi hh hx
    have hle := hp.length_eq
    obtain ⟨l', k1, k2, k3, -⟩ := heapify_run g hsz n fuel l h x (hf.perm hp) (hle ▸ hlim) (hle ▸ hn) (hle ▸ hT) hh hx
      (Nat.lt_of_lt_of_le (Nat.lt_of_le_of_lt hh hfu) (Nat.le_mul_of_pos_left _ (by omega))) (by
        rcases Nat.eq_zero_or_pos fuel with h1 | h1
        · rw [h1] at hfu; omega
        · exact h1)
    exact ⟨heapify_congr hsz n fuel l h x (hf.perm hp) (hle ▸ hlim) (hle ▸ hn) (hle ▸ hT) hh hx (ha.within hwi),
      l', k1, hp.trans k2, hwi.trans (k3.mono hh)⟩
  let I : Nat → Unit → Mem → Prop := fun _ _ m => ∃ l, m = arr m0 b o l ∧ l0.Perm l ∧ Within l0 l n
  have hfirst : ∀ (c : Nat), c ≤ n → ∃ l, forDown c (fun i _ => heapifyLoop g (ptr b o) (n : Int) sz fuel i) () (arr m0 b o l0) =
      .ok () (arr m0 b o l) ∧ l0.Perm l ∧ Within l0 l n := by
    intro c hc
    obtain ⟨_, m', h1, l, rfl, h2, h3⟩ := forDown_inv I c (fun i _ => heapifyLoop g (ptr b o) (n : Int) sz fuel i) ()
      (arr m0 b o l0) ⟨l0, rfl, .refl _, Within.refl _ _⟩ (by
        rintro k ⟨⟩ m hk ⟨l, rfl, hp, hwi⟩
        obtain ⟨-, l', k1, k2, k3⟩ := hstep l n k hp hwi (Nat.le_refl _) (by omega)
        exact ⟨(), _, k1, l', rfl, k2, k3⟩)
    exact ⟨l, h1, h2, h3⟩
  unfold heapSort
  rw [hd, C.bind_ok (i32_ok (by omega) (by omega) _), C.bind_ok (i32_ok (by omega) (by omega) _)]
  rw [show (((n / 2 : Nat) : Int) - 1 + 1).toNat = n / 2 by omega]
  have he : forDown (n / 2) (fun i _ => heapifyLoop g (ptr b o) (n : Int) sz fuel i) () (arr m0 b o l0) =
      forDown (n / 2) (fun i _ => heapifyLoop g' (ptr b o) (n : Int) sz fuel i) () (arr m0 b o l0) := by
    apply forDown_congr_inv I
    · exact ⟨l0, rfl, .refl _, Within.refl _ _⟩
    · rintro k ⟨⟩ m hk ⟨l, rfl, hp, hwi⟩
      obtain ⟨e, l', k1, k2, k3⟩ := hstep l n k hp hwi (Nat.le_refl _) (by omega)
      refine ⟨e, ?_⟩
      intro s' m' h1
      rw [k1] at h1
      injection h1 with _ h1
      exact ⟨l', h1.symm, k2, k3⟩
  obtain ⟨l1, h1, hp1, hw1⟩ := hfirst (n / 2) (by omega)
  have h2 := h1
  rw [he] at h2
  rw [C.bind_ok h1, C.bind_ok h2, C.bind_ok (i32_ok (by omega) (by omega) _),
    C.bind_ok (i32_ok (by omega) (by omega) _)]
  apply forDown_congr_inv I
  · exact ⟨l1, rfl, hp1, hw1⟩
  · rintro k ⟨⟩ m hk ⟨l, rfl, hp, hwi⟩
    have hkn : k < n := by omega
    have hle := hp.length_eq
    have hlim' : (l.length - 1) * sz < 2 ^ 31 := hle ▸ hlim
    have hsw := swapElems_ok (hf.perm hp) hsz (i := 0) (j := k) (mul_lim hlim' (by omega)) (mul_lim hlim' (by omega))
      (by omega) (by omega)
    rw [Int.natCast_zero] at hsw
    rw [C.bind_ok hsw, C.bind_ok hsw]
    obtain ⟨e, l', k1, k2, k3⟩ := hstep (swapAt l 0 k) k 0 (hp.trans (swapAt_perm _ _ _))
      (hwi.trans (Within.swap l (by omega) hkn (by omega))) (by omega) (by omega)
    rw [Int.natCast_zero] at e k1
    refine ⟨e, ?_⟩
    intro s' m' h1
    rw [k1] at h1
    injection h1 with _ h1
    exact ⟨l', h1.symm, k2, k3⟩

/-! ### Insertion sort -/

theorem split_unique {α} {p : α → Bool} {A B A' B' : List α} (h : A ++ B = A' ++ B')
    (h1 : ∀ x ∈ B, p x = true) (h2 : ∀ a, A.getLast? = some a → p a = false)
    (h3 : ∀ x ∈ B', p x = true) (h4 : ∀ a, A'.getLast? = some a → p a = false) : A = A' ∧ B = B' := by
  have key : ∀ (A B A' B' : List α), A ++ B = A' ++ B' → (∀ x ∈ B, p x = true) →
      (∀ a, A'.getLast? = some a → p a = false) → A'.length ≤ A.length := by
    intro A B A' B' h h1 h4
    by_cases hl : A'.length ≤ A.length
    · exact hl
    · exfalso
      have hne : A' ≠ [] := by rintro rfl; simp at hl
      have hla := h4 _ (List.getLast?_eq_some_getLast hne)
      have hm : A'.getLast hne ∈ B := by
        have e1 : (A' ++ B')[A'.length - 1]? = some (A'.getLast hne) := by
          rw [List.getElem?_append_left (by omega), List.getLast_eq_getElem, ← List.getElem?_eq_getElem]
        rw [← h, List.getElem?_append_right (by omega)] at e1
        exact List.mem_of_getElem? e1
      rw [h1 _ hm] at hla
      exact absurd hla (by simp)
  have l1 := key A B A' B' h h1 h4
  have l2 := key A' B' A B h.symm h3 h2
  exact List.append_inj h (by omega)

theorem insertion_congr {g g' : Cmp} {m0 : Mem} {st b o sz : Nat} (hsz : sz < 2 ^ 31) (R : List (List Byte)) :
    ∀ (P : List (List Byte)) (X : List Byte), P ≠ [] → IFits m0 st b o sz X (P ++ R) →
    ((P ++ R).length - 1) * sz < 2 ^ 31 → AgreeOn (P ++ R) g g' →
    forN R.length P.length (insertionBody g st b o sz) () (imem m0 st b o X (P ++ R)) =
      forN R.length P.length (insertionBody g' st b o sz) () (imem m0 st b o X (P ++ R)) := by
  induction R with
  | nil => intro P X _ _ _ _; rfl
  | cons e R ih =>
    intro P X hP hf hlim ha
    obtain ⟨a1, a2⟩ := insertion_step g hsz hP hf hlim
    obtain ⟨b1, b2⟩ := insertion_step g' hsz hP hf hlim
    have hag : ∀ a ∈ P, g a e = g' a e := fun a hm => ha a (by simp [hm]) e (by simp)
    rw [List.length_cons, forN_succ, forN_succ]
    by_cases hro : sz ≤ o ∨ ¬ ∀ a ∈ P, g a e = true
    · obtain ⟨A, B, i1, i2, i3, i4⟩ := a1 hro
      obtain ⟨A', B', j1, j2, j3, j4⟩ := b1 (by
        rcases hro with h | h
        · exact .inl h
        · right; intro h'; apply h; intro a hm; rw [hag a hm]; exact h' a hm)
      have hB : ∀ x ∈ B, x ∈ P := fun x hx => by rw [i2]; simp [hx]
      have hA : ∀ x, A.getLast? = some x → x ∈ P := fun x hx => by
        rw [i2]; simp [List.mem_of_getLast? hx]
      obtain ⟨rfl, rfl⟩ := split_unique (p := fun x => g' x e) (i2.symm.trans j2)
        (fun x hx => (hag x (hB x hx)).symm.trans (i3 x hx))
        (fun x hx => (hag x (hA x hx)).symm.trans (i4 x hx)) j3 j4
      rw [i1, j1]
      have hp : (P ++ e :: R).Perm ((A ++ e :: B) ++ R) := by
        rw [i2]
        simp only [List.append_assoc, List.cons_append]
        exact List.Perm.append_left _ List.perm_middle
      have hr := hf.room
      have hel : e.length = sz := hf.fits.chunks e (by simp)
      have hl : (A ++ e :: B).length = P.length + 1 := by rw [i2]; simp; omega
      have := ih (A ++ e :: B) (splice X 0 e) (by simp)
        ⟨hf.fits.perm hp, hf.apart, by rw [splice_length _ _ _ (by omega)]; exact hr⟩
        (by rw [← hp.length_eq]; exact hlim) (ha.perm hp)
      rw [hl] at this
      simp only [List.append_assoc, List.cons_append] at this
      exact this
    · have ho : o < sz := by
        by_contra h; exact hro (.inl (by omega))
      have hall : ∀ a ∈ P, g a e = true := by
        by_contra h; exact hro (.inr h)
      rw [a2 ho hall, b2 ho (fun a hm => (hag a hm).symm.trans (hall a hm))]

/-! ### Comparators that are orders on the elements only -/

/-- A comparator that is an order among the members of `L` agrees there with one that is an order everywhere. -/
theorem strictWeakOn_extend {L : List (List Byte)} {gt : Cmp} (h : StrictWeakOn L gt) :
    ∃ g, AgreeOn L gt g ∧ StrictWeak g := by
  cases L with
  | nil => exact ⟨fun _ _ => false, fun a ha => by simp at ha, ⟨by simp, by simp⟩⟩
  | cons d L =>
    have hin : ∀ a : List Byte, (if a ∈ d :: L then a else d) ∈ d :: L := by
      intro a; split
      · assumption
      · simp
    refine ⟨fun a b => gt (if a ∈ d :: L then a else d) (if b ∈ d :: L then b else d), ?_, ?_, ?_⟩
    · intro a ha b hb
      simp only [if_pos ha, if_pos hb]
    · intro a b; exact h.asymm _ (hin a) _ (hin b)
    · intro a b c; exact h.negTrans _ (hin a) _ (hin b) _ (hin c)

theorem AgreeOn.sorted {L l : List (List Byte)} {g g' : Cmp} (h : AgreeOn L g g') (hl : ∀ x ∈ l, x ∈ L)
    (hs : Sorted g' l) : Sorted g l := by
  refine List.Pairwise.imp_of_mem ?_ hs
  intro a b ha hb hab
  rw [h a (hl a ha) b (hl b hb)]; exact hab

theorem AgreeOn.ties {l l' : List (List Byte)} {g g' : Cmp} (h : AgreeOn l g g') (hp : l.Perm l')
    (hs : SameTies g' l l') : SameTiesOn g l l' := by
  intro x hx
  have key : ∀ k : List (List Byte), (∀ y ∈ k, y ∈ l) → k.filter (tied g x) = k.filter (tied g' x) := by
    intro k hk
    apply List.filter_congr
    intro y hy
    rw [tied, tied, h x hx y (hk y hy), h y (hk y hy) x hx]
  rw [key l (fun _ hy => hy), key l' (fun y hy => hp.mem_iff.mpr hy)]
  exact hs x

end IMU.Sort
