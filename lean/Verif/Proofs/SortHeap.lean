import Verif.Proofs.SortBase
import Mathlib.Tactic.Set

namespace IMU.Sort
open Spec Utils

/-- `c` is a child of `p`. -/
def Child (c p : Nat) : Prop := c = 2 * p + 1 ∨ c = 2 * p + 2

/-- The first `h` items of `l` satisfy the heap condition at all nodes from `i` on. -/
def HeapFrom (gt : Cmp) (l : List (List Byte)) (h i : Nat) : Prop :=
  ∀ p c, i ≤ p → c < h → Child c p → gt (l.getD c []) (l.getD p []) = false

/-- As `HeapFrom`, except that the condition may fail at node `x`, whose children are not greater than its parent. -/
def HeapEx (gt : Cmp) (l : List (List Byte)) (h i x : Nat) : Prop :=
  (∀ p c, i ≤ p → p ≠ x → c < h → Child c p → gt (l.getD c []) (l.getD p []) = false) ∧
  (∀ g c, i ≤ g → Child x g → c < h → Child c x → gt (l.getD c []) (l.getD g []) = false)

/-- Every item below `h` comes from below `h`, the others are unchanged. -/
def Within (l l' : List (List Byte)) (h : Nat) : Prop :=
  (∀ p, p < h → ∃ q, q < h ∧ l'.getD p [] = l.getD q []) ∧ ∀ p, h ≤ p → l'.getD p [] = l.getD p []

theorem Within.refl (l : List (List Byte)) (h : Nat) : Within l l h := ⟨fun p hp => ⟨p, hp, rfl⟩, fun _ _ => rfl⟩
theorem Within.trans {l l' l'' : List (List Byte)} {h : Nat} (h1 : Within l l' h) (h2 : Within l' l'' h) :
    Within l l'' h := by
  refine ⟨?_, fun p hp => (h2.2 p hp).trans (h1.2 p hp)⟩
  intro p hp
  obtain ⟨q, hq, e⟩ := h2.1 p hp
  obtain ⟨r, hr, e'⟩ := h1.1 q hq
  exact ⟨r, hr, e.trans e'⟩
theorem Within.mono {l l' : List (List Byte)} {h k : Nat} (h1 : Within l l' h) (hk : h ≤ k) : Within l l' k := by
  refine ⟨?_, fun p hp => h1.2 p (by omega)⟩
  intro p hp
  by_cases hph : p < h
  · obtain ⟨q, hq, e⟩ := h1.1 p hph
    exact ⟨q, by omega, e⟩
  · exact ⟨p, hp, h1.2 p (by omega)⟩
theorem Within.swap (l : List (List Byte)) {h i j : Nat} (hi : i < h) (hj : j < h) (hl : h ≤ l.length) :
    Within l (swapAt l i j) h := by
  constructor
  · intro p hp
    rw [swapAt_getD _ _ _ _ _ (by omega) (by omega)]
    split
    · exact ⟨i, hi, rfl⟩
    · split
      · exact ⟨j, hj, rfl⟩
      · exact ⟨p, hp, rfl⟩
  · intro p hp
    rw [swapAt_getD _ _ _ _ _ (by omega) (by omega), if_neg (by omega), if_neg (by omega)]

/-- The larger of node `x` and its left child. -/
def pickL (gt : Cmp) (l : List (List Byte)) (h x : Nat) : Nat :=
  if 2 * x + 1 < h ∧ gt (l.getD (2 * x + 1) []) (l.getD x []) = true then 2 * x + 1 else x

/-- The child (or the node itself) that `Heapify` picks. -/
def pick (gt : Cmp) (l : List (List Byte)) (h x : Nat) : Nat :=
  if 2 * x + 2 < h ∧ gt (l.getD (2 * x + 2) []) (l.getD (pickL gt l h x) []) = true then 2 * x + 2
  else pickL gt l h x

theorem pickL_cases (gt : Cmp) (l : List (List Byte)) (h x : Nat) :
    pickL gt l h x = x ∨ (pickL gt l h x = 2 * x + 1 ∧ 2 * x + 1 < h) := by
  unfold pickL
  split
  · rename_i h1; exact .inr ⟨rfl, h1.1⟩
  · exact .inl rfl

theorem pick_cases (gt : Cmp) (l : List (List Byte)) (h x : Nat) :
    pick gt l h x = x ∨ (Child (pick gt l h x) x ∧ pick gt l h x < h) := by
  unfold pick Child
  have := pickL_cases gt l h x
  split
  · rename_i h1; omega
  · omega

theorem pickL_gt {gt : Cmp} (hw : StrictWeak gt) (l : List (List Byte)) (h x : Nat) :
    gt (l.getD x []) (l.getD (pickL gt l h x) []) = false := by
  unfold pickL
  split
  · rename_i h1; exact hw.asymm _ _ h1.2
  · exact hw.irrefl _

theorem pickL_ge {gt : Cmp} (hw : StrictWeak gt) (l : List (List Byte)) (h x : Nat) (hc : 2 * x + 1 < h) :
    gt (l.getD (2 * x + 1) []) (l.getD (pickL gt l h x) []) = false := by
  unfold pickL
  split
  · exact hw.irrefl _
  · rename_i h1
    cases hg : gt (l.getD (2 * x + 1) []) (l.getD x []) with
    | false => rfl
    | true => exact absurd ⟨hc, hg⟩ h1

theorem pick_geL {gt : Cmp} (hw : StrictWeak gt) (l : List (List Byte)) (h x : Nat) :
    gt (l.getD (pickL gt l h x) []) (l.getD (pick gt l h x) []) = false := by
  unfold pick
  split
  · rename_i h2; exact hw.asymm _ _ h2.2
  · exact hw.irrefl _

theorem pick_ge {gt : Cmp} (hw : StrictWeak gt) (l : List (List Byte)) (h x c : Nat) (hc : c < h) (hcx : Child c x) :
    gt (l.getD c []) (l.getD (pick gt l h x) []) = false := by
  rcases hcx with rfl | rfl
  · exact hw.negTrans _ _ _ (pickL_ge hw l h x hc) (pick_geL hw l h x)
  · unfold pick
    split
    · exact hw.irrefl _
    · rename_i h1
      cases hg : gt (l.getD (2 * x + 2) []) (l.getD (pickL gt l h x) []) with
      | false => rfl
      | true => exact absurd ⟨hc, hg⟩ h1

theorem pick_gt {gt : Cmp} (hw : StrictWeak gt) (l : List (List Byte)) (h x : Nat) :
    gt (l.getD x []) (l.getD (pick gt l h x) []) = false :=
  hw.negTrans _ _ _ (pickL_gt hw l h x) (pick_geL hw l h x)

theorem HeapEx.done {gt : Cmp} (hw : StrictWeak gt) {l : List (List Byte)} {h i x : Nat} (he : HeapEx gt l h i x)
    (hp : pick gt l h x = x) : HeapFrom gt l h i := by
  intro p c h1 h2 h3
  by_cases hpx : p = x
  · subst hpx
    have := pick_ge hw l h p c h2 h3
    rw [hp] at this; exact this
  · exact he.1 p c h1 hpx h2 h3

theorem HeapEx.step {gt : Cmp} (hw : StrictWeak gt) {l : List (List Byte)} {h i x : Nat} (he : HeapEx gt l h i x)
    (hix : i ≤ x) (hl : h ≤ l.length) (hc : Child (pick gt l h x) x) (hch : pick gt l h x < h) :
    HeapEx gt (swapAt l x (pick gt l h x)) h i (pick gt l h x) := by
  have hge := fun c => pick_ge hw l h x c
  have hgt := pick_gt hw l h x
  generalize pick gt l h x = y at *
  have hxy : x < y := by unfold Child at hc; omega
  have hg := fun k => swapAt_getD l x y k [] (show x < l.length by omega) (show y < l.length by omega)
  constructor
  · intro p c h1 h2 h3 h4
    have hcx : c ≠ p := by unfold Child at h4; omega
    rw [hg, hg]
    by_cases hpx : p = x
    · subst hpx
      rw [if_neg h2, if_pos rfl]
      by_cases hcy : c = y
      · rw [if_pos hcy]; exact hgt
      · rw [if_neg hcy, if_neg hcx]
        exact hge c h3 h4
    · rw [if_neg h2, if_neg hpx]
      by_cases hcy : c = y
      · exfalso; subst hcy; unfold Child at hc h4; omega
      · rw [if_neg hcy]
        by_cases hcx : c = x
        · rw [if_pos hcx]; subst hcx
          exact he.2 p y h1 h4 hch hc
        · rw [if_neg hcx]
          exact he.1 p c h1 hpx h3 h4
  · intro g c h1 h2 h3 h4
    have hgx : g = x := by unfold Child at h2 hc; omega
    subst hgx
    have e1 : c ≠ y := by unfold Child at h4; omega
    have e2 : c ≠ g := by unfold Child at h4; omega
    rw [hg, hg, if_neg e1, if_neg e2, if_neg (by omega), if_pos rfl]
    exact he.1 y c (by omega) (by omega) h3 h4

theorem heapify_unfold (gt : Cmp) {m0 : Mem} {b o sz : Nat} {l : List (List Byte)} (hf : Fits m0 b o sz l)
    (hlim : (l.length - 1) * sz < 2 ^ 31) (hn : l.length < 2 ^ 31) (fuel h x : Nat) (hx : 2 * x + 2 < l.length) :
    heapifyLoop gt (ptr b o) (h : Int) sz (fuel + 1) (x : Int) (arr m0 b o l) =
      (if pick gt l h x ≠ x then (do
          swapElems (ptr b o) sz (x : Int) ((pick gt l h x : Nat) : Int)
          heapifyLoop gt (ptr b o) (h : Int) sz fuel ((pick gt l h x : Nat) : Int))
        else pure () : C Unit) (arr m0 b o l) := by
  rw [heapifyLoop]
  have eL : ((2 : Int) * (x : Int) + 1) = ((2 * x + 1 : Nat) : Int) := by omega
  have eR : ((2 : Int) * (x : Int) + 2) = ((2 * x + 2 : Nat) : Int) := by omega
  rw [C.bind_ok (i32_ok (by omega) (by omega) _), C.bind_ok (i32_ok (by omega) (by omega) _),
    C.bind_ok (i32_ok (by omega) (by omega) _), eL, eR]
  have gx := getElem?_getD (l := l) [] (show x < l.length by omega)
  have gl := getElem?_getD (l := l) [] (show 2 * x + 1 < l.length by omega)
  have gr := getElem?_getD (l := l) [] (show 2 * x + 2 < l.length by omega)
  rw [C.bind_ok (compareAt_ok gt hf (mul_lim hlim (by omega)) (mul_lim hlim (by omega)) gl gx)]
  have ea : (if ((2 * x + 1 : Nat) : Int) < (h : Int) ∧ gt (l.getD (2 * x + 1) []) (l.getD x []) = true
      then ((2 * x + 1 : Nat) : Int) else (x : Int)) = ((pickL gt l h x : Nat) : Int) := by
    unfold pickL
    simp only [Int.ofNat_lt]
    split <;> rfl
  have hal : pickL gt l h x < l.length := by have := pickL_cases gt l h x; omega
  have ga := getElem?_getD (l := l) [] hal
  rw [ea]
  rw [C.bind_ok (compareAt_ok gt hf (mul_lim hlim (by omega)) (mul_lim hlim hal) gr ga)]
  have ep : (if ((2 * x + 2 : Nat) : Int) < (h : Int) ∧ gt (l.getD (2 * x + 2) []) (l.getD (pickL gt l h x) []) = true
      then ((2 * x + 2 : Nat) : Int) else ((pickL gt l h x : Nat) : Int)) = ((pick gt l h x : Nat) : Int) := by
    unfold pick
    simp only [Int.ofNat_lt]
    split <;> rfl
  rw [ep]
  by_cases hp : pick gt l h x = x
  · rw [if_neg (by simp [hp]), if_neg (by simp [hp])]
  · rw [if_pos (by omega), if_pos hp]

theorem heapify_run (gt : Cmp) {m0 : Mem} {b o sz : Nat} (hsz : sz < 2 ^ 31) (T : Nat) (fuel : Nat) :
    ∀ (l : List (List Byte)) (h x : Nat), Fits m0 b o sz l → (l.length - 1) * sz < 2 ^ 31 → l.length < 2 ^ 31 →
    2 * T < l.length → h ≤ T → x < T → h < (x + 1) * 2 ^ fuel → 1 ≤ fuel →
    ∃ l', heapifyLoop gt (ptr b o) (h : Int) sz fuel (x : Int) (arr m0 b o l) = .ok () (arr m0 b o l') ∧
      l.Perm l' ∧ Within l l' h ∧
      (StrictWeak gt → ∀ i, i ≤ x → HeapEx gt l h i x → HeapFrom gt l' h i) := by
  induction fuel with
  | zero => intro l h x _ _ _ _ _ _ _ h1; omega
  | succ fuel ih =>
    intro l h x hf hlim hn hT hh hx hfu _
    rw [heapify_unfold gt hf hlim hn fuel h x (by omega)]
    by_cases hp : pick gt l h x = x
    · rw [if_neg (by simp [hp]), C.pure_run]
      exact ⟨l, rfl, .refl _, Within.refl _ _, fun hw i _ he => he.done hw hp⟩
    · rw [if_pos hp]
      obtain ⟨hc, hch⟩ := (pick_cases gt l h x).resolve_left hp
      have hxc : x < pick gt l h x := by unfold Child at hc; omega
      have hfu' : h < (pick gt l h x + 1) * 2 ^ fuel := by
        rw [Nat.pow_succ, ← Nat.mul_assoc, Nat.mul_right_comm] at hfu
        exact Nat.lt_of_lt_of_le hfu (Nat.mul_le_mul_right _ (by unfold Child at hc; omega))
      rw [C.bind_ok (swapElems_ok hf hsz (mul_lim hlim (by omega)) (mul_lim hlim (by omega)) (by omega) (by omega))]
      have hsl := swapAt_length l x (pick gt l h x)
      have hpm := swapAt_perm l x (pick gt l h x)
      obtain ⟨l', g1, g2, g3, g4⟩ := ih (swapAt l x (pick gt l h x)) h (pick gt l h x) (hf.perm hpm)
        (by rw [hsl]; exact hlim) (by rw [hsl]; exact hn) (by rw [hsl]; exact hT) hh (by omega) hfu' (by
          rcases Nat.eq_zero_or_pos fuel with h0 | h0
          · rw [h0] at hfu'; omega
          · exact h0)
      refine ⟨l', g1, hpm.trans g2, (Within.swap l (by omega) hch (by omega)).trans g3, ?_⟩
      intro hw i hi he
      exact g4 hw i (by omega) (he.step hw hi (by omega) hc hch)

/-- The root of a heap is not smaller than any of its items. -/
theorem HeapFrom.root {gt : Cmp} (hw : StrictWeak gt) {l : List (List Byte)} {h : Nat} (hh : HeapFrom gt l h 0)
    (p : Nat) (hp : p < h) : gt (l.getD p []) (l.getD 0 []) = false := by
  induction p using Nat.strongRecOn with
  | _ p ih =>
    by_cases h0 : p = 0
    · subst h0; exact hw.irrefl _
    · have h1 := hh ((p - 1) / 2) p (by omega) hp (by unfold Child; omega)
      exact hw.negTrans _ _ _ h1 (ih ((p - 1) / 2) (by omega) (by omega))

theorem heapSort_run (gt : Cmp) {m0 : Mem} {b o sz : Nat} {l0 : List (List Byte)} (hsz : sz < 2 ^ 31)
    (hf : Fits m0 b o sz l0) (hlim : (l0.length - 1) * sz < 2 ^ 31) (hn : l0.length < 2 ^ 31) (n fuel : Nat)
    (hT : 2 * n < l0.length) (hfu : n < 2 ^ fuel) :
    ∃ l, heapSort fuel (ptr b o) (n : Int) sz gt (arr m0 b o l0) = .ok () (arr m0 b o l) ∧ l0.Perm l ∧
      Within l0 l n ∧
      (StrictWeak gt → ∀ p q, p < q → q < n → gt (l.getD p []) (l.getD q []) = false) := by
  have hpos : 0 < n → 1 ≤ fuel := by
    intro h0
    rcases Nat.eq_zero_or_pos fuel with h1 | h1
    · rw [h1] at hfu; omega
    · exact h1
  have hfu' : ∀ k, n < (k + 1) * 2 ^ fuel := fun k => Nat.lt_of_lt_of_le hfu (Nat.le_mul_of_pos_left _ (by omega))
  unfold heapSort
  have hd : ((n : Int).tdiv 2) = ((n / 2 : Nat) : Int) := by
    rw [Int.tdiv_eq_ediv_of_nonneg (by omega)]; omega
  rw [hd, C.bind_ok (i32_ok (by omega) (by omega) _)]
  have hcnt : (((n / 2 : Nat) : Int) - 1 + 1).toNat = n / 2 := by omega
  rw [hcnt]
  have key1 := forDown_inv (fun k (_ : Unit) m => ∃ l, m = arr m0 b o l ∧ l0.Perm l ∧ Within l0 l n ∧
      (StrictWeak gt → HeapFrom gt l n k)) (n / 2)
      (fun i _ => heapifyLoop gt (ptr b o) (n : Int) (sz : Int) fuel (i : Int)) () (arr m0 b o l0) ?_ ?_
  rotate_left
  · refine ⟨l0, rfl, .refl _, Within.refl _ _, ?_⟩
    intro _ p c h1 h2 h3
    unfold Child at h3; omega
  · rintro k ⟨⟩ m hk ⟨l, rfl, h1, h2, h3⟩
    have hle := h1.length_eq
    obtain ⟨l', g1, g2, g3, g4⟩ := heapify_run gt hsz n fuel l n k (hf.perm h1) (by rw [← hle]; exact hlim)
      (by rw [← hle]; exact hn) (by rw [← hle]; exact hT) (by omega) (by omega) (hfu' k) (hpos (by omega))
    refine ⟨(), _, g1, l', rfl, h1.trans g2, h2.trans g3, ?_⟩
    intro hw
    apply g4 hw k (by omega)
    refine ⟨fun p c h4 h5 h6 h7 => h3 hw p c (by omega) h6 h7, ?_⟩
    intro g c h4 h5 h6 h7
    unfold Child at h5; omega
  obtain ⟨_, _, r1, l1, rfl, p1, w1, q1⟩ := key1
  rw [C.bind_ok r1, C.bind_ok (i32_ok (by omega) (by omega) _)]
  have hcnt2 : ((n : Int) - 1 + 1).toNat = n := by omega
  rw [hcnt2]
  have key2 := forDown_inv (fun k (_ : Unit) m => ∃ l, m = arr m0 b o l ∧ l0.Perm l ∧ Within l0 l n ∧
      (StrictWeak gt → HeapFrom gt l k 0 ∧
        ∀ p q, p < q → k ≤ q → q < n → gt (l.getD p []) (l.getD q []) = false)) n
      (fun i _ => do
        swapElems (ptr b o) (sz : Int) 0 (i : Int)
        heapifyLoop gt (ptr b o) (i : Int) (sz : Int) fuel 0) () (arr m0 b o l1) ?_ ?_
  rotate_left
  · exact ⟨l1, rfl, p1, w1, fun hw => ⟨q1 hw, fun p q h1 h2 h3 => by omega⟩⟩
  · rintro i ⟨⟩ m hi ⟨l, rfl, h1, h2, h3⟩
    have hle := h1.length_eq
    have hlim' : (l.length - 1) * sz < 2 ^ 31 := by rw [← hle]; exact hlim
    have hsw := swapElems_ok (hf.perm h1) hsz (i := 0) (j := i) (by simp) (mul_lim hlim' (by omega))
      (by omega) (by omega)
    have hsl := swapAt_length l 0 i
    have hpm := swapAt_perm l 0 i
    obtain ⟨l', g1, g2, g3, g4⟩ := heapify_run gt hsz n fuel (swapAt l 0 i) i 0 ((hf.perm h1).perm hpm)
      (by rw [hsl, ← hle]; exact hlim) (by rw [hsl, ← hle]; exact hn) (by rw [hsl, ← hle]; exact hT)
      (by omega) (by omega) (by have := hfu' 0; omega) (hpos (by omega))
    refine ⟨(), _, ?_, l', rfl, (h1.trans hpm).trans g2,
      h2.trans ((Within.swap l (by omega) hi (by omega)).trans (g3.mono (by omega))), ?_⟩
    · rw [Int.natCast_zero] at hsw g1
      rw [C.bind_ok hsw]; exact g1
    · intro hw
      obtain ⟨k1, k2⟩ := h3 hw
      have hg := fun k => swapAt_getD l 0 i k [] (show 0 < l.length by omega) (show i < l.length by omega)
      have hroot := k1.root hw
      constructor
      · apply g4 hw 0 (by omega)
        refine ⟨?_, ?_⟩
        · intro p c h4 h5 h6 h7
          have : p < c := by unfold Child at h7; omega
          rw [hg, hg, if_neg (by omega), if_neg (by omega), if_neg (by omega), if_neg (by omega)]
          exact k1 p c (by omega) (by omega) h7
        · intro g c h4 h5 h6 h7
          unfold Child at h5; omega
      · intro p q h4 h5 h6
        have hq : l'.getD q [] = if q = i then l.getD 0 [] else l.getD q [] := by
          rw [g3.2 q h5, hg]
          split
          · rfl
          · rw [if_neg (by omega)]
        by_cases hpi : p < i
        · obtain ⟨r, hr, er⟩ := g3.1 p hpi
          have hs : ∃ t, t ≤ i ∧ l'.getD p [] = l.getD t [] := by
            rw [hg, if_neg (by omega)] at er
            split at er
            · exact ⟨i, by omega, er⟩
            · exact ⟨r, by omega, er⟩
          obtain ⟨t, ht, et⟩ := hs
          rw [et, hq]
          split
          · exact hroot t (by omega)
          · exact k2 t q (by omega) (by omega) h6
        · have hp : l'.getD p [] = if p = i then l.getD 0 [] else l.getD p [] := by
            rw [g3.2 p (by omega), hg]
            split
            · rfl
            · rw [if_neg (by omega)]
          rw [hp, hq, if_neg (show ¬ q = i by omega)]
          split
          · exact k2 0 q (by omega) (by omega) h6
          · exact k2 p q (by omega) (by omega) h6
  obtain ⟨_, _, r2, l2, rfl, p2, w2, q2⟩ := key2
  exact ⟨l2, r2, p2, w2, fun hw p q h1 h2 => (q2 hw).2 p q h1 (by omega) h2⟩

end IMU.Sort
