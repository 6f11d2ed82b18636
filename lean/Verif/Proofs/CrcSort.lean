import Verif.Proofs.CrcLanes

/-! # Sorting the lanes

A sorting network moves the registers between the lanes.  That it sorts need not be proved: the result is checked. -/

namespace IMU.Crc
open Spec.Crc Polynomial

/-- Exchange the lanes `i` and `i + s` for the `i` in `sm`. -/
def swapS (s sm : Nat) (S : List Nat) : List Nat :=
  S.map fun a => (fun d => Nat.xor a (Nat.xor d (Nat.shiftLeft d s))) (Nat.land (Nat.xor a (Nat.shiftRight a s)) sm)

/-- The exchanges are disjoint and stay in the lanes. -/
def swapOk (N s sm : Nat) : Bool :=
  Nat.beq (Nat.land sm (Nat.shiftLeft sm s)) 0 && Nat.beq (Nat.shiftRight (Nat.shiftLeft sm s) N) 0

/-- Where lane `i` goes. -/
def swapTo (s sm i : Nat) : Nat :=
  if sm.testBit i then i + s else if s ≤ i ∧ sm.testBit (i - s) then i - s else i

section
variable {N s sm : Nat} (h : swapOk N s sm = true)
include h

theorem swap_disj (i : Nat) : ¬ (sm.testBit i = true ∧ sm.testBit (i + s) = true) := by
  simp only [swapOk, Bool.and_eq_true] at h
  have h1 : sm &&& (sm <<< s) = 0 := Nat.eq_of_beq_eq_true h.1
  have h2 := congrArg (Nat.testBit · (i + s)) h1
  simp only [Nat.testBit_and, Nat.testBit_shiftLeft, Nat.zero_testBit] at h2
  rintro ⟨a, b⟩
  simp [a, b] at h2

theorem swap_lt (i : Nat) (hi : sm.testBit i = true) : i + s < N := by
  simp only [swapOk, Bool.and_eq_true] at h
  have h1 : (sm <<< s) >>> N = 0 := Nat.eq_of_beq_eq_true h.2
  by_contra hc
  have h2 := congrArg (Nat.testBit · (i + s - N)) h1
  simp only [Nat.testBit_shiftRight, Nat.testBit_shiftLeft, Nat.zero_testBit] at h2
  rw [show N + (i + s - N) = i + s by omega] at h2
  simp [hi] at h2

theorem swapTo_lt {i : Nat} (hi : i < N) : swapTo s sm i < N := by
  unfold swapTo
  split
  · exact swap_lt h i ‹_›
  · split <;> omega

theorem swapTo_inv (i : Nat) : swapTo s sm (swapTo s sm i) = i := by
  by_cases h1 : sm.testBit i = true
  · have h2 : ¬ sm.testBit (i + s) = true := fun hc => swap_disj h i ⟨h1, hc⟩
    have e : swapTo s sm i = i + s := by rw [swapTo, if_pos h1]
    rw [e, swapTo, if_neg h2, if_pos ⟨by omega, by rw [Nat.add_sub_cancel]; exact h1⟩]
    omega
  · by_cases h2 : s ≤ i ∧ sm.testBit (i - s) = true
    · have e : swapTo s sm i = i - s := by rw [swapTo, if_neg h1, if_pos h2]
      rw [e, swapTo, if_pos h2.2]; omega
    · have e : swapTo s sm i = i := by rw [swapTo, if_neg h1, if_neg h2]
      rw [e, e]

theorem swapS_ok (S : List Nat) (i : Nat) : bitAt (swapS s sm S) (swapTo s sm i) = bitAt S i := by
  unfold bitAt swapS
  rw [List.map_map]
  apply List.map_congr_left
  intro a _
  have e : ∀ t, ((fun a => (fun d => Nat.xor a (Nat.xor d (Nat.shiftLeft d s))) (Nat.land (Nat.xor a (Nat.shiftRight a s)) sm)) a).testBit t =
      xor (a.testBit t) (xor (xor (a.testBit t) (a.testBit (s + t)) && sm.testBit t)
        (decide (t ≥ s) && (xor (a.testBit (t - s)) (a.testBit (s + (t - s))) && sm.testBit (t - s)))) := by
    intro t
    show (a ^^^ (((a ^^^ (a >>> s)) &&& sm) ^^^ (((a ^^^ (a >>> s)) &&& sm) <<< s))).testBit t = _
    simp only [Nat.testBit_xor, Nat.testBit_and, Nat.testBit_shiftRight, Nat.testBit_shiftLeft]
  rw [Function.comp_apply, e]
  by_cases h1 : sm.testBit i = true
  · have h2 : ¬ sm.testBit (i + s) = true := fun hc => swap_disj h i ⟨h1, hc⟩
    have e : swapTo s sm i = i + s := by rw [swapTo, if_pos h1]
    rw [e, Nat.add_sub_cancel, h1, Bool.eq_false_iff.mpr h2, Nat.add_comm s i]
    have : decide (i + s ≥ s) = true := by simp
    rw [this]
    cases a.testBit i <;> cases a.testBit (i + s) <;> simp
  · rw [Bool.not_eq_true] at h1
    by_cases h2 : s ≤ i ∧ sm.testBit (i - s) = true
    · have e : swapTo s sm i = i - s := by rw [swapTo, if_neg (by simp [h1]), if_pos h2]
      have h3 : decide (i - s ≥ s) = true → sm.testBit (i - s - s) = false := by
        intro hd
        have hd := of_decide_eq_true hd
        have := swap_disj h (i - s - s)
        rw [show i - s - s + s = i - s by omega] at this
        simpa [h2.2] using this
      rw [e, h2.2, show s + (i - s) = i by omega]
      cases hd : decide (i - s ≥ s)
      · cases a.testBit i <;> cases a.testBit (i - s) <;> simp
      · rw [h3 hd]
        cases a.testBit i <;> cases a.testBit (i - s) <;> simp
    · have e : swapTo s sm i = i := by rw [swapTo, if_neg (by simp [h1]), if_neg h2]
      rw [e, h1]
      by_cases hs : s ≤ i
      · have : sm.testBit (i - s) = false := by simpa [hs] using h2
        rw [this]; simp
      · simp [hs]

end

/-- The lanes of `S` are lanes of `S'`, different ones different ones. -/
def Moved (N : Nat) (S S' : List Nat) : Prop :=
  ∃ t : Nat → Nat, (∀ i, i < N → t i < N ∧ bitAt S' (t i) = bitAt S i) ∧ ∀ i j, t i = t j → i = j

theorem Moved.refl (N : Nat) (S : List Nat) : Moved N S S := ⟨id, fun _ h => ⟨h, rfl⟩, fun _ _ h => h⟩

theorem Moved.trans {N : Nat} {S S' S'' : List Nat} (h : Moved N S S') (h' : Moved N S' S'') : Moved N S S'' := by
  obtain ⟨t, h1, h2⟩ := h
  obtain ⟨t', h1', h2'⟩ := h'
  refine ⟨fun i => t' (t i), fun i hi => ?_, fun i j h => h2 i j (h2' _ _ h)⟩
  obtain ⟨a, b⟩ := h1 i hi
  obtain ⟨a', b'⟩ := h1' (t i) a
  exact ⟨a', b'.trans b⟩

theorem swapS_moved {N s sm : Nat} (h : swapOk N s sm = true) (S : List Nat) : Moved N S (swapS s sm S) :=
  ⟨swapTo s sm, fun i hi => ⟨swapTo_lt h hi, swapS_ok h S i⟩, fun i j he => by
    rw [← swapTo_inv h i, ← swapTo_inv h j, he]⟩

/-- A network: the distance, where the order is descending, the lower partners. -/
def sortS (N : Nat) : List (Nat × Nat × Nat) → List Nat → List Nat
  | [], S => S
  | st :: sts, S =>
    (fun sm => bif swapOk N st.1 sm then sortS N sts (swapS st.1 sm S) else S)
      (Nat.land (Nat.xor (ltS (dropS st.1 S) S 0) st.2.1) st.2.2)

theorem sortS_moved (N : Nat) (sts : List (Nat × Nat × Nat)) : ∀ S, Moved N S (sortS N sts S) := by
  induction sts with
  | nil => intro S; exact Moved.refl N S
  | cons st sts ih =>
    intro S
    rw [sortS]
    cases h : swapOk N st.1 (Nat.land (Nat.xor (ltS (dropS st.1 S) S 0) st.2.1) st.2.2)
    · simp only [h, cond_false]; exact Moved.refl N S
    · simp only [h, cond_true]; exact (swapS_moved h S).trans (ih _)

/-- The numbers of the lanes. -/
def iotaS : Nat → List Nat
  | 0 => []
  | h + 1 => (iotaS h).map (fun s => Nat.lor s (Nat.shiftLeft s (Nat.pow 2 h))) ++ [Nat.shiftLeft (full (Nat.pow 2 h)) (Nat.pow 2 h)]

theorem iotaS_length (h : Nat) : (iotaS h).length = h := by
  induction h with
  | zero => rfl
  | succ h ih => simp [iotaS, ih]

theorem iotaS_testBit (h : Nat) : ∀ i, i < 2 ^ h → bitAt (iotaS h) i = (List.range h).map i.testBit := by
  induction h with
  | zero => intro i _; rfl
  | succ h ih =>
    intro i hi
    have hp : Nat.pow 2 h = 2 ^ h := rfl
    have hsh : ∀ a b : Nat, Nat.shiftLeft a b = a <<< b := fun _ _ => rfl
    have hor : ∀ a b : Nat, Nat.lor a b = a ||| b := fun _ _ => rfl
    rw [iotaS, List.range_succ, List.map_append, bitAt, List.map_append, List.map_map]
    have hmem : ∀ s ∈ iotaS h, ∀ j, 2 ^ h ≤ j → s.testBit j = false := by
      clear ih hi
      induction h with
      | zero => intro s hs; simp [iotaS] at hs
      | succ h ih =>
        intro s hs j hj
        rw [iotaS, List.mem_append, List.mem_map] at hs
        have e : 2 ^ (h + 1) = 2 ^ h + 2 ^ h := by rw [Nat.pow_succ]; omega
        rcases hs with ⟨t, ht, rfl⟩ | hs
        · rw [hor, hsh, Nat.testBit_or, Nat.testBit_shiftLeft]
          rw [ih rfl t ht j (by omega), show Nat.pow 2 h = 2 ^ h from rfl, ih rfl t ht (j - 2 ^ h) (by omega)]; simp
        · rw [List.mem_singleton.mp hs, hsh, Nat.testBit_shiftLeft, full_testBit, show Nat.pow 2 h = 2 ^ h from rfl]
          simp; omega
    by_cases hc : i < 2 ^ h
    · have h1 := ih i hc
      unfold bitAt at h1
      rw [← h1]
      congr 1
      · apply List.map_congr_left
        intro s _
        rw [Function.comp_apply, hor, hsh, hp, Nat.testBit_or, Nat.testBit_shiftLeft]
        simp; omega
      · simp only [List.map_cons, List.map_nil]
        rw [hsh, hp, Nat.testBit_shiftLeft, Nat.testBit_lt_two_pow hc]
        simp; omega
    · have e : 2 ^ (h + 1) = 2 ^ h + 2 ^ h := by rw [Nat.pow_succ]; omega
      have h1 := ih (i - 2 ^ h) (by omega)
      unfold bitAt at h1
      have h2 : (List.range h).map i.testBit = (List.range h).map (i - 2 ^ h).testBit := by
        apply List.map_congr_left
        intro j hj
        rw [List.mem_range] at hj
        obtain ⟨q, rfl⟩ : ∃ q, i = 2 ^ h + q := ⟨i - 2 ^ h, by omega⟩
        rw [Nat.add_sub_cancel_left, Nat.testBit_two_pow_add_gt hj]
      rw [h2, ← h1]
      congr 1
      · apply List.map_congr_left
        intro s hs
        rw [Function.comp_apply, hor, hsh, hp, Nat.testBit_or, Nat.testBit_shiftLeft, hmem s hs i (by omega)]
        simp; omega
      · simp only [List.map_cons, List.map_nil]
        rw [hsh, hp, Nat.testBit_shiftLeft, full_testBit]
        obtain ⟨q, rfl⟩ : ∃ q, i = 2 ^ h + q := ⟨i - 2 ^ h, by omega⟩
        rw [Nat.testBit_two_pow_add_eq, Nat.testBit_lt_two_pow (by omega)]
        simp; omega

theorem natOf_testBits (h : Nat) : ∀ i, i < 2 ^ h → natOf ((List.range h).map i.testBit) = i := by
  intro i hi
  apply Nat.eq_of_testBit_eq
  intro j
  rw [natOf_testBit]
  by_cases hj : j < h
  · rw [List.getElem?_map, List.getElem?_range hj]; rfl
  · rw [List.getElem?_eq_none (by simp; omega)]
    rw [Nat.testBit_lt_two_pow (Nat.lt_of_lt_of_le hi (Nat.pow_le_pow_right (by omega) (by omega)))]
    rfl

theorem numAt_iotaS {h i : Nat} (hi : i < 2 ^ h) : numAt (iotaS h) i = i := by
  rw [numAt, iotaS_testBit h i hi, natOf_testBits h i hi]

/-- Batcher's bitonic network for `2 ^ h` lanes. -/
def bitonic (h : Nat) : List (Nat × Nat × Nat) :=
  (fun io : List Nat => (List.range h).flatMap fun k => (List.range (k + 1)).reverse.map fun j =>
    (Nat.pow 2 j, io.getD (k + 1) 0, Nat.xor (full (Nat.pow 2 h)) (io.getD j 0))) (iotaS h)

/-- The number of the lane in the lanes from `n` on. -/
def padS (pad : Nat) : List Nat → List Nat → List Nat
  | v :: V, a :: A => Nat.xor v (Nat.land pad (Nat.xor a v)) :: padS pad V A
  | v :: V, [] => Nat.xor v (Nat.land pad v) :: padS pad V []
  | [], _ => []

theorem bitAt_padS {pad i : Nat} (hi : pad.testBit i = false) : ∀ (V A : List Nat), bitAt (padS pad V A) i = bitAt V i := by
  have e1 : ∀ v a : Nat, (Nat.xor v (Nat.land pad (Nat.xor a v))).testBit i = v.testBit i := by
    intro v a
    show (v ^^^ (pad &&& (a ^^^ v))).testBit i = _
    rw [Nat.testBit_xor, Nat.testBit_and, hi]; simp
  have e2 : ∀ v : Nat, (Nat.xor v (Nat.land pad v)).testBit i = v.testBit i := by
    intro v
    show (v ^^^ (pad &&& v)).testBit i = _
    rw [Nat.testBit_xor, Nat.testBit_and, hi]; simp
  intro V
  induction V with
  | nil => intro A; simp [padS, bitAt]
  | cons v V ih =>
    intro A
    cases A with
    | nil => have := ih []; simp only [padS, bitAt, List.map_cons] at this ⊢; rw [this, e2]
    | cons a A => have := ih A; simp only [padS, bitAt, List.map_cons] at this ⊢; rw [this, e1]

/-- The registers in the lanes below `n` are different. -/
def distinctS (h n : Nat) (V : List Nat) : Bool :=
  (fun pad => incS (Nat.pow 2 h) (sortS (Nat.pow 2 h) (bitonic h) (padS pad V (iotaS h) ++ [pad])))
    (Nat.xor (full (Nat.pow 2 h)) (full n))

theorem distinctS_ok {h n : Nat} (hn : n ≤ 2 ^ h) {V : List Nat} (hd : distinctS h n V = true) {i j : Nat} (hij : i < j)
    (hj : j < n) : bitAt V i ≠ bitAt V j := by
  intro he
  have hp : ∀ k, k < n → (Nat.xor (full (Nat.pow 2 h)) (full n)).testBit k = false := by
    intro k hk
    show (full (2 ^ h) ^^^ full n).testBit k = false
    rw [Nat.testBit_xor, full_testBit, full_testBit]
    have : k < 2 ^ h := by omega
    simp [hk, this]
  have hk : ∀ k, k < n → bitAt (padS (Nat.xor (full (Nat.pow 2 h)) (full n)) V (iotaS h) ++
      [Nat.xor (full (Nat.pow 2 h)) (full n)]) k = bitAt V k ++ [false] := by
    intro k hk
    have := bitAt_padS (hp k hk) V (iotaS h)
    unfold bitAt at this ⊢
    rw [List.map_append, this, List.map_cons, List.map_nil, hp k hk]
  obtain ⟨t, h1, h2⟩ := sortS_moved (Nat.pow 2 h) (bitonic h)
    (padS (Nat.xor (full (Nat.pow 2 h)) (full n)) V (iotaS h) ++ [Nat.xor (full (Nat.pow 2 h)) (full n)])
  have hN : Nat.pow 2 h = 2 ^ h := rfl
  obtain ⟨a1, b1⟩ := h1 i (by omega)
  obtain ⟨a2, b2⟩ := h1 j (by omega)
  have hb : bitAt (sortS (Nat.pow 2 h) (bitonic h) (padS (Nat.xor (full (Nat.pow 2 h)) (full n)) V (iotaS h) ++
      [Nat.xor (full (Nat.pow 2 h)) (full n)])) (t i) = bitAt (sortS (Nat.pow 2 h) (bitonic h)
      (padS (Nat.xor (full (Nat.pow 2 h)) (full n)) V (iotaS h) ++ [Nat.xor (full (Nat.pow 2 h)) (full n)])) (t j) := by
    rw [b1, b2, hk i (by omega), hk j hj, he]
  have hne : t i ≠ t j := fun hc => by have := h2 i j hc; omega
  rcases Nat.lt_or_gt_of_ne hne with hlt | hlt
  · have := incS_ok hd hlt a2
    rw [numAt, numAt, hb] at this
    exact Nat.lt_irrefl _ this
  · have := incS_ok hd hlt a1
    rw [numAt, numAt, hb] at this
    exact Nat.lt_irrefl _ this

end IMU.Crc
