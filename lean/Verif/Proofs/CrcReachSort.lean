import Verif.Proofs.CrcSort

/-! # Codewords of weight three and five by sorting -/

namespace IMU.Crc
open Spec.Crc Polynomial

/-- The exclusive or of any two of the lowest `len` bits. -/
def rowsOf : Nat → Nat → Nat
  | 0, _ => 0
  | len + 1, a =>
    Nat.lor (Nat.land (Nat.xor (Nat.shiftRight a 1) (bif Nat.beq (Nat.land a 1) 1 then full len else 0)) (full len))
      (Nat.shiftLeft (rowsOf len (Nat.shiftRight a 1)) len)

/-- Where the pair `c < d` is. -/
def posOf : Nat → Nat → Nat → Nat
  | len + 1, c + 1, d => len + posOf len c (d - 1)
  | _, _, d => d - 1

theorem rowsOf_testBit (len : Nat) : ∀ (a c d : Nat), c < d → d < len →
    (rowsOf len a).testBit (posOf len c d) = xor (a.testBit c) (a.testBit d) := by
  induction len with
  | zero => intro a c d h1 h2; omega
  | succ len ih =>
    intro a c d h1 h2
    have e : rowsOf (len + 1) a = (((a >>> 1) ^^^ (bif Nat.beq (a &&& 1) 1 then full len else 0)) &&& full len) |||
      (rowsOf len (a >>> 1)) <<< len := rfl
    rw [e, Nat.testBit_or, Nat.testBit_and, Nat.testBit_xor, Nat.testBit_shiftRight, full_testBit, Nat.testBit_shiftLeft]
    cases c with
    | zero =>
      have hp : posOf (len + 1) 0 d = d - 1 := rfl
      have hb : (bif Nat.beq (a &&& 1) 1 then full len else 0).testBit (d - 1) = a.testBit 0 := by
        rw [Nat.and_one_is_mod, Nat.testBit_zero]
        rcases Nat.mod_two_eq_zero_or_one a with hm | hm <;> rw [hm]
        · have : Nat.beq 0 1 = false := rfl
          rw [this]; simp
        · have : Nat.beq 1 1 = true := rfl
          rw [this, cond_true, full_testBit]; simp; omega
      rw [hp, hb, show 1 + (d - 1) = d by omega]
      have h3 : decide (d - 1 < len) = true := decide_eq_true (by omega)
      have h4 : decide (d - 1 ≥ len) = false := decide_eq_false (by omega)
      rw [h3, h4]
      cases a.testBit 0 <;> cases a.testBit d <;> rfl
    | succ c =>
      have hp : posOf (len + 1) (c + 1) d = len + posOf len c (d - 1) := rfl
      rw [hp]
      have h3 : decide (len + posOf len c (d - 1) < len) = false := decide_eq_false (by omega)
      have h4 : decide (len + posOf len c (d - 1) ≥ len) = true := decide_eq_true (by omega)
      rw [h3, h4, Nat.add_sub_cancel_left, ih (a >>> 1) c (d - 1) (by omega) (by omega), Nat.testBit_shiftRight,
        Nat.testBit_shiftRight, show 1 + (d - 1) = d by omega, Nat.add_comm 1 c]
      simp

theorem posOf_lt (len : Nat) : ∀ (c d : Nat), c < d → d < len → posOf len c d < len * (len - 1) / 2 := by
  induction len with
  | zero => intro c d h1 h2; omega
  | succ len ih =>
    intro c d h1 h2
    have e : (len + 1) * (len + 1 - 1) / 2 = len + len * (len - 1) / 2 := by
      have : (len + 1) * (len + 1 - 1) = 2 * len + len * (len - 1) := by
        cases len with
        | zero => rfl
        | succ l => simp; ring
      rw [this]; omega
    rw [e]
    cases c with
    | zero =>
      have : posOf (len + 1) 0 d = d - 1 := rfl
      omega
    | succ c =>
      have : posOf (len + 1) (c + 1) d = len + posOf len c (d - 1) := rfl
      have := ih c (d - 1) (by omega) (by omega)
      omega

theorem posOf_inj (len : Nat) : ∀ (c d c' d' : Nat), c < d → d < len → c' < d' → d' < len → posOf len c d = posOf len c' d' →
    c = c' ∧ d = d' := by
  induction len with
  | zero => intro c d c' d' h1 h2; omega
  | succ len ih =>
    intro c d c' d' h1 h2 h3 h4 h
    have e0 : ∀ d, posOf (len + 1) 0 d = d - 1 := fun _ => rfl
    have e1 : ∀ c d, posOf (len + 1) (c + 1) d = len + posOf len c (d - 1) := fun _ _ => rfl
    cases c with
    | zero =>
      cases c' with
      | zero => rw [e0, e0] at h; omega
      | succ c' => rw [e0, e1] at h; omega
    | succ c =>
      cases c' with
      | zero => rw [e0, e1] at h; omega
      | succ c' =>
        rw [e1, e1] at h
        have := ih c (d - 1) c' (d' - 1) (by omega) (by omega) (by omega) (by omega) (by omega)
        omega

section
variable {w : Nat} {P : BitVec w}

/-- Values that differ by 1 differ in the lowest bit only. -/
theorem tail_eq {c d : List Bool} (hw : 0 < w) (hc : c.length = w) (hd : d.length = w) (h : evB P c = 1 + evB P d) :
    c.tail = d.tail := by
  have h1 : (oneB w).length = w := by simp [oneB]; omega
  have := evB_xor P (oneB w) d (by omega)
  rw [evB_oneB P hw, ← h] at this
  rw [← evB_inj (by simp [h1, hd]) hc this]
  cases d with
  | nil => simp at hd; omega
  | cons b d =>
    simp only [oneB, List.zipWith_cons_cons, List.tail_cons]
    apply List.ext_getElem
    · simp at hd; simp; omega
    · intro i h1 h2; simp

theorem bitAt_tail (S : List Nat) (i : Nat) : bitAt S.tail i = (bitAt S i).tail := by simp [bitAt]

/-- The bits of the powers below `2 ^ h`. -/
def powers (P : BitVec w) (h : Nat) : List Nat := slices (Nat.pow 2 h) w (powP P (Nat.pow 2 h) (iotaS h))

theorem powers_ok (hw : 0 < w) {h i : Nat} (hi : i < 2 ^ h) :
    (bitAt (powers P h) i).length = w ∧ evB P (bitAt (powers P h) i) = AdjoinRoot.root (divisor P) ^ i := by
  have hN : Nat.pow 2 h = 2 ^ h := rfl
  have := evB_powP P (N := Nat.pow 2 h) hw hi (iotaS h)
  unfold powers
  rw [bitAt_slices (by rw [hN]; exact hi), this, numAt_iotaS hi, lane_length]
  exact ⟨rfl, rfl⟩

/-- No codeword of weight 3. -/
def check3 (P : BitVec w) (h n : Nat) : Bool := distinctS h n (powers P h).tail

theorem det_three (hw : 0 < w) {h n : Nat} (hn : n ≤ 2 ^ h) (hd : Det P 2 n) (hc : check3 P h n = true) : Det P 3 n := by
  intro E h1 h2 h3
  match E, h2 with
  | [], _ => exact hd [] h1 (by simp) h3
  | [a], _ => exact hd [a] h1 (by simp) h3
  | [a, b], _ =>
    have hp : [a, b].Pairwise (· < ·) := (List.pairwise_lt_range' (s := 1) (n := n - 1)).sublist h1
    have hab : a < b := by simpa using hp
    have hb := List.mem_range'_1.mp (h1.subset (show b ∈ [a, b] by simp))
    obtain ⟨l1, v1⟩ := powers_ok (P := P) hw (h := h) (i := a) (by omega)
    obtain ⟨l2, v2⟩ := powers_ok (P := P) hw (h := h) (i := b) (by omega)
    refine distinctS_ok hn hc hab (by omega) ?_
    rw [bitAt_tail, bitAt_tail]
    apply tail_eq (P := P) hw l1 l2
    rw [v1, v2]
    simp only [psum, List.map_cons, List.map_nil, List.sum_cons, List.sum_nil, add_zero] at h3
    have := add_self P (1 + AdjoinRoot.root (divisor P) ^ b)
    linear_combination h3 - this
  | a :: b :: c :: E, h2 => simp at h2; omega

/-- The bits of the sums of two powers with exponents from 1 to `n - 1`. -/
def pairs (P : BitVec w) (h n : Nat) : List Nat := (powers P h).map fun a => rowsOf (n - 1) (Nat.shiftRight a 1)

theorem pairs_ok (hw : 0 < w) {h n c d : Nat} (hn : n ≤ 2 ^ h) (h0 : 0 < c) (hcd : c < d) (hd : d < n) :
    (bitAt (pairs P h n) (posOf (n - 1) (c - 1) (d - 1))).length = w ∧
    evB P (bitAt (pairs P h n) (posOf (n - 1) (c - 1) (d - 1))) =
      AdjoinRoot.root (divisor P) ^ c + AdjoinRoot.root (divisor P) ^ d := by
  obtain ⟨l1, v1⟩ := powers_ok (P := P) hw (h := h) (i := c) (by omega)
  obtain ⟨l2, v2⟩ := powers_ok (P := P) hw (h := h) (i := d) (by omega)
  have e : bitAt (pairs P h n) (posOf (n - 1) (c - 1) (d - 1)) =
      List.zipWith xor (bitAt (powers P h) c) (bitAt (powers P h) d) := by
    unfold pairs bitAt
    rw [List.map_map]
    apply List.ext_getElem
    · simp
    · intro i h1 h2
      simp only [List.getElem_map, Function.comp_apply, List.getElem_zipWith]
      rw [rowsOf_testBit _ _ _ _ (by omega) (by omega)]
      show xor ((_ >>> 1 : Nat).testBit _) ((_ >>> 1 : Nat).testBit _) = _
      rw [Nat.testBit_shiftRight, Nat.testBit_shiftRight, show 1 + (c - 1) = c by omega, show 1 + (d - 1) = d by omega]
  rw [e, evB_xor P _ _ (by omega), v1, v2]
  exact ⟨by simp [l1, l2], rfl⟩

/-- No codeword of weight 5. -/
def check5 (P : BitVec w) (h h' n : Nat) : Bool := distinctS h' ((n - 1) * (n - 1 - 1) / 2) (pairs P h n).tail

theorem det_five (hw : 0 < w) {h h' n : Nat} (hn : n ≤ 2 ^ h) (hn' : (n - 1) * (n - 1 - 1) / 2 ≤ 2 ^ h') (hd : Det P 4 n)
    (hc : check5 P h h' n = true) : Det P 5 n := by
  intro E h1 h2 h3
  match E, h2 with
  | [], _ => exact hd [] h1 (by simp) h3
  | [a], _ => exact hd [a] h1 (by simp) h3
  | [a, b], _ => exact hd [a, b] h1 (by simp) h3
  | [a, b, c], _ => exact hd [a, b, c] h1 (by simp) h3
  | [a, b, c, d], _ =>
    have hp : [a, b, c, d].Pairwise (· < ·) := (List.pairwise_lt_range' (s := 1) (n := n - 1)).sublist h1
    have hm : ∀ x ∈ [a, b, c, d], 1 ≤ x ∧ x < n := fun x hx => by
      have := List.mem_range'_1.mp (h1.subset hx); omega
    have ha := hm a (by simp)
    have hdd := hm d (by simp)
    have hab : a < b ∧ b < c ∧ c < d := by simp at hp; omega
    obtain ⟨l1, v1⟩ := pairs_ok (P := P) hw hn (c := a) (d := b) (by omega) (by omega) (by omega)
    obtain ⟨l2, v2⟩ := pairs_ok (P := P) hw hn (c := c) (d := d) (by omega) (by omega) (by omega)
    have key := fun i j h1 h2 => distinctS_ok (i := i) (j := j) hn' hc h1 h2
    have hne : posOf (n - 1) (a - 1) (b - 1) ≠ posOf (n - 1) (c - 1) (d - 1) := fun he => by
      have := posOf_inj (n - 1) (a - 1) (b - 1) (c - 1) (d - 1) (by omega) (by omega) (by omega) (by omega) he
      omega
    have b1 := posOf_lt (n - 1) (a - 1) (b - 1) (by omega) (by omega)
    have b2 := posOf_lt (n - 1) (c - 1) (d - 1) (by omega) (by omega)
    have ht : bitAt (pairs P h n).tail (posOf (n - 1) (a - 1) (b - 1)) = bitAt (pairs P h n).tail (posOf (n - 1) (c - 1) (d - 1)) := by
      rw [bitAt_tail, bitAt_tail]
      apply tail_eq (P := P) hw l1 l2
      rw [v1, v2]
      simp only [psum, List.map_cons, List.map_nil, List.sum_cons, List.sum_nil, add_zero] at h3
      have := add_self P (1 + AdjoinRoot.root (divisor P) ^ c + AdjoinRoot.root (divisor P) ^ d)
      linear_combination h3 - this
    rcases Nat.lt_or_gt_of_ne hne with hlt | hlt
    · exact key _ _ hlt b2 ht
    · exact key _ _ hlt b1 ht.symm
  | a :: b :: c :: d :: e :: E, h2 => simp at h2; omega

end
end IMU.Crc
