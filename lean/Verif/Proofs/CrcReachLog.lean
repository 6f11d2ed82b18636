import Verif.Proofs.CrcReachSort

/-! # Codewords of weight four by logarithms

`L d` with `(x + 1) x ^ L d = x ^ d + 1` is given for every `d`; a codeword of weight four needs two of these logarithms
close to each other. -/

namespace IMU.Crc
open Spec.Crc Polynomial

theorem natOf_append (c d : List Bool) : natOf (c ++ d) = natOf c + 2 ^ c.length * natOf d := by
  induction c with
  | nil => simp [natOf]
  | cons b c ih => rw [List.cons_append, natOf, ih, natOf, List.length_cons, Nat.pow_succ]; ring

theorem numAt_append (A B : List Nat) (i : Nat) : numAt (A ++ B) i = numAt A i + 2 ^ A.length * numAt B i := by
  unfold numAt
  rw [bitAt, List.map_append, natOf_append, List.length_map]
  rfl

theorem numAt_lt (A : List Nat) (i : Nat) : numAt A i < 2 ^ A.length := by
  have := natOf_lt (bitAt A i)
  rwa [bitAt_length] at this

theorem swapS_length (s sm : Nat) (S : List Nat) : (swapS s sm S).length = S.length := by simp [swapS]

theorem sortS_length (N : Nat) (sts : List (Nat × Nat × Nat)) : ∀ S, (sortS N sts S).length = S.length := by
  induction sts with
  | nil => intro S; rfl
  | cons st sts ih =>
    intro S
    rw [sortS]
    cases h : swapOk N st.1 (Nat.land (Nat.xor (ltS (dropS st.1 S) S 0) st.2.1) st.2.2)
    · simp only [h, cond_false]
    · simp only [h, cond_true]; rw [ih, swapS_length]

theorem bitAt_take (S : List Nat) (k i : Nat) : bitAt (S.take k) i = (bitAt S i).take k := by simp [bitAt, List.map_take]
theorem bitAt_drop (S : List Nat) (k i : Nat) : bitAt (S.drop k) i = (bitAt S i).drop k := by simp [bitAt, List.map_drop]

/-- `A` has all lanes of `B`. -/
def covers (A B : Nat) : Bool := Nat.beq (Nat.land A B) B

theorem of_covers {A B i : Nat} (h : covers A B = true) (hi : B.testBit i = true) : A.testBit i = true := by
  have h1 : (A &&& B).testBit i = B.testBit i := congrArg (Nat.testBit · i) (Nat.eq_of_beq_eq_true h)
  rw [Nat.testBit_and, hi] at h1
  simpa using h1

/-- The lanes from 1 to `n - 1`. -/
def mid (n : Nat) : Nat := Nat.xor (full n) 1

theorem mid_testBit {n i : Nat} (h1 : 1 ≤ i) (h2 : i < n) : (mid n).testBit i = true := by
  show (full n ^^^ 1).testBit i = true
  rw [Nat.testBit_xor, full_testBit]
  have : (1 : Nat).testBit i = false := by
    obtain ⟨k, rfl⟩ : ∃ k, i = k + 1 := ⟨i - 1, by omega⟩
    simp [Nat.testBit_succ]
  simp [this, h2]

section
variable {w : Nat} (P : BitVec w)

/-- `(x + 1) x ^ L = x ^ d + 1` in the lanes `d`. -/
def logsOk (h n : Nat) (L : List Nat) : Bool :=
  (fun Y => Nat.beq (Nat.land (Nat.xor (Nat.xor Y (mulX (Nat.pow 2 h) w (spread (Nat.pow 2 h) (pb P)) Y))
      (Nat.xor (powP P (Nat.pow 2 h) (iotaS h)) (full (Nat.pow 2 h))))
    (Nat.mul (Nat.land (mid n) (full (Nat.pow 2 h))) (spread (Nat.pow 2 h) (List.replicate w true)))) 0) (powP P (Nat.pow 2 h) L)

theorem lane_and (N w X Y i : Nat) : lane N w (Nat.land X Y) i = List.zipWith and (lane N w X i) (lane N w Y i) := by
  have h : Nat.land X Y = X &&& Y := rfl
  apply List.ext_getElem
  · simp [lane]
  · intro j h1 h2; simp [lane, h]

theorem logsOk_ok (hw : 0 < w) {h n : Nat} {L : List Nat} (hc : logsOk P h n L = true) {d : Nat} (h1 : 1 ≤ d) (h2 : d < n)
    (hn : n ≤ 2 ^ h) : (AdjoinRoot.root (divisor P) + 1) * AdjoinRoot.root (divisor P) ^ numAt L d =
      AdjoinRoot.root (divisor P) ^ d + 1 := by
  have hN : Nat.pow 2 h = 2 ^ h := rfl
  have hd : d < Nat.pow 2 h := by omega
  have h0 := Nat.eq_of_beq_eq_true hc
  have hl := congrArg (fun X => lane (Nat.pow 2 h) w X d) h0
  rw [lane_and, lane_mul hd (by simp), if_pos (mid_testBit h1 h2)] at hl
  have hz : lane (Nat.pow 2 h) w 0 d = List.replicate w false := by simp [lane]
  rw [hz] at hl
  generalize hX : lane (Nat.pow 2 h) w (Nat.xor (Nat.xor (powP P (Nat.pow 2 h) L) (mulX (Nat.pow 2 h) w (spread (Nat.pow 2 h) (pb P))
    (powP P (Nat.pow 2 h) L))) (Nat.xor (powP P (Nat.pow 2 h) (iotaS h)) (full (Nat.pow 2 h)))) d = c at hl
  have hcl : c.length = w := by rw [← hX, lane_length]
  have hcf : c = List.replicate w false := by
    rw [← hl]
    apply List.ext_getElem
    · simp [hcl]
    · intro j h1 h2; simp
  have he : evB P c = 0 := by rw [hcf, evB_false]
  rw [← hX, lane_xor, lane_xor, lane_xor, evB_xor P _ _ (by simp [lane_length]), evB_xor P _ _ (by simp [lane_length]),
    evB_xor P _ _ (by simp [lane_length]), evB_mulX P hw hd, evB_powP P hw hd, evB_powP P hw hd, numAt_iotaS hd,
    lane_full P hd hw] at he
  have := add_self P (AdjoinRoot.root (divisor P) ^ d + 1)
  linear_combination he - this

/-- The lanes with their logarithms in order. -/
def sorted (h n : Nat) (L : List Nat) : List Nat :=
  sortS (Nat.pow 2 h) (bitonic h) (iotaS h ++ L ++ [Nat.xor (full (Nat.pow 2 h)) (mid n)])

/-- No two logarithms for a codeword of weight 4. -/
def gapsOk (h n : Nat) (R : List Nat) : Bool :=
  (fun D L => incS (Nat.pow 2 h) R &&
    Nat.beq (R.getD (h + 32) 0) (Nat.xor (full (Nat.pow 2 h)) (full (n - 1))) &&
    covers (Nat.xor (full (Nat.pow 2 h)) (Nat.land
      (ltS (addS L (dropS 1 D ++ List.replicate (32 - h) 0) 0) (dropS 1 L ++ [0]) 0)
      (ltS (addS (dropS 1 L) (D ++ List.replicate (32 - h) 0) 0) (addS L (constS (Nat.pow 2 h) 32 n) 0) 0))) (full (n - 1 - 1)) &&
    covers (ltS (addS L (constS (Nat.pow 2 h) 32 (n - 1)) 0) (dropS 2 L ++ [0]) 0) (full (n - 1 - 2)))
    (R.take h) ((R.drop h).take 32)

/-- The logarithms are between `n` and `T`. -/
def rangeOk (h n T : Nat) (L : List Nat) : Bool :=
  covers (ltS (constS (Nat.pow 2 h) 32 (n - 1)) L 0) (mid n) &&
    covers (ltS L (constS (Nat.pow 2 h) 32 T) (full (Nat.pow 2 h))) (mid n)

/-- No codeword of weight 4, the logarithms being `L`. -/
def check4 (P : BitVec w) (h n T : Nat) (L : List Nat) : Bool :=
  Nat.beq L.length 32 && logsOk P h n L && rangeOk h n T L && gapsOk h n (sorted h n L)

end

theorem numAt_zeros (k i : Nat) : numAt (List.replicate k 0) i = 0 := by
  unfold numAt bitAt
  induction k with
  | zero => rfl
  | succ k ih => rw [List.replicate_succ, List.map_cons, natOf, ih]; simp

theorem numAt_pad (A : List Nat) (k i : Nat) : numAt (A ++ List.replicate k 0) i = numAt A i := by
  rw [numAt_append, numAt_zeros]; simp

theorem rangeOk_ok {h n T : Nat} {L : List Nat} (hL : L.length = 32) (hc : rangeOk h n T L = true) (hn : n ≤ 2 ^ h)
    (hn' : n ≤ 2 ^ 32) (hT : T < 2 ^ 32) {d : Nat} (h1 : 1 ≤ d) (h2 : d < n) : n ≤ numAt L d ∧ numAt L d ≤ T := by
  have hN : Nat.pow 2 h = 2 ^ h := rfl
  simp only [rangeOk, Bool.and_eq_true] at hc
  have a1 := of_covers hc.1 (mid_testBit h1 h2)
  have a2 := of_covers hc.2 (mid_testBit h1 h2)
  rw [ltS_ok _ _ _ _ (by rw [constS_length, hL]), constS_ok _ _ (by omega) _ _ (by omega)] at a1
  rw [ltS_ok _ _ _ _ (by rw [constS_length, hL]), constS_ok _ _ (by omega) _ _ (by omega)] at a2
  simp at a1
  omega

/-- The lanes of `sorted`. -/
theorem sorted_ok {h n : Nat} {L : List Nat} (hn : n ≤ 2 ^ h) :
    ∃ t : Nat → Nat, (∀ i j, t i = t j → i = j) ∧ ∀ d, 1 ≤ d → d < n →
      t d < 2 ^ h ∧ bitAt (sorted h n L) (t d) = bitAt (iotaS h) d ++ bitAt L d ++ [false] := by
  obtain ⟨t, h1, h2⟩ := sortS_moved (Nat.pow 2 h) (bitonic h) (iotaS h ++ L ++ [Nat.xor (full (Nat.pow 2 h)) (mid n)])
  refine ⟨t, h2, fun d hd1 hd2 => ?_⟩
  have hN : Nat.pow 2 h = 2 ^ h := rfl
  obtain ⟨a, b⟩ := h1 d (by omega)
  refine ⟨a, b.trans ?_⟩
  have : (Nat.xor (full (Nat.pow 2 h)) (mid n)).testBit d = false := by
    show (full (2 ^ h) ^^^ mid n).testBit d = false
    rw [Nat.testBit_xor, mid_testBit hd1 hd2, full_testBit]
    have : d < 2 ^ h := by omega
    simp [this]
  unfold bitAt
  rw [List.map_append, List.map_append, List.map_cons, List.map_nil, this]

theorem gaps {h n : Nat} {L : List Nat} (hL : L.length = 32) (hn : n ≤ 2 ^ h) (hh : h ≤ 32) (hn' : n < 2 ^ 32)
    (hc : gapsOk h n (sorted h n L) = true) {a e : Nat}
    (ha : 1 ≤ a ∧ a < n) (he : 1 ≤ e ∧ e < n) (hlt : numAt L e < numAt L a) :
    numAt L e + n ≤ numAt L a ∨ numAt L a ≤ numAt L e + a ∨ numAt L e + n ≤ numAt L a + e := by
  have hN : Nat.pow 2 h = 2 ^ h := rfl
  obtain ⟨t, _, ht⟩ := sorted_ok (L := L) hn
  obtain ⟨ta, ba⟩ := ht a ha.1 ha.2
  obtain ⟨te, be⟩ := ht e he.1 he.2
  have hlen : (sorted h n L).length = h + 33 := by
    unfold sorted
    rw [sortS_length]
    simp [iotaS_length, hL]
  generalize sorted h n L = R at *
  simp only [gapsOk, Bool.and_eq_true] at hc
  obtain ⟨⟨⟨c1, c2⟩, c3⟩, c4⟩ := hc
  have hRD : (R.take h).length = h := by simp; omega
  have hRL : ((R.drop h).take 32).length = 32 := by simp; omega
  -- the parts of the sorted lanes
  have part : ∀ d, t d < 2 ^ h → 1 ≤ d → d < n → bitAt R (t d) = bitAt (iotaS h) d ++ bitAt L d ++ [false] →
      numAt (R.take h) (t d) = d ∧ numAt ((R.drop h).take 32) (t d) = numAt L d ∧ t d < n - 1 := by
    intro d h0 h1 h2 hb
    have l1 : (bitAt (iotaS h) d).length = h := by rw [bitAt_length, iotaS_length]
    have l2 : (bitAt L d).length = 32 := by rw [bitAt_length, hL]
    refine ⟨?_, ?_, ?_⟩
    · rw [numAt, bitAt_take, hb, List.append_assoc, List.take_append_of_le_length (by omega), List.take_of_length_le (by omega)]
      exact numAt_iotaS (by omega)
    · rw [numAt, bitAt_take, bitAt_drop, hb, List.append_assoc, List.drop_append_of_le_length (by omega),
        List.drop_of_length_le (by omega), List.nil_append, List.take_append_of_le_length (by omega),
        List.take_of_length_le (by omega)]
      rfl
    · have hf : (R.getD (h + 32) 0).testBit (t d) = false := by
        have h3 : (bitAt R (t d))[h + 32]? = some false := by
          rw [hb, List.getElem?_append_right (by simp [l1, l2])]
          simp [l1, l2]
        have hi : h + 32 < R.length := by omega
        rw [bitAt, List.getElem?_map, List.getElem?_eq_getElem hi] at h3
        rw [List.getD_eq_getElem?_getD, List.getElem?_eq_getElem hi]
        simpa using h3
      rw [Nat.eq_of_beq_eq_true c2] at hf
      have hf : (full (2 ^ h) ^^^ full (n - 1)).testBit (t d) = false := hf
      rw [Nat.testBit_xor, full_testBit, full_testBit] at hf
      simp [h0] at hf
      exact hf
  obtain ⟨da, la, ua⟩ := part a ta ha.1 ha.2 ba
  obtain ⟨de, le, ue⟩ := part e te he.1 he.2 be
  -- the order
  have split : ∀ i, numAt R i = numAt (R.take h) i + 2 ^ h * (numAt ((R.drop h).take 32) i +
      2 ^ 32 * numAt ((R.drop h).drop 32) i) := by
    intro i
    have e1 : R = R.take h ++ ((R.drop h).take 32 ++ (R.drop h).drop 32) := by rw [List.take_append_drop, List.take_append_drop]
    have := numAt_append (R.take h) ((R.drop h).take 32 ++ (R.drop h).drop 32) i
    rw [← e1, numAt_append, hRD, hRL] at this
    exact this
  have flag : ∀ i, i < n - 1 → numAt ((R.drop h).drop 32) i = 0 := by
    intro i hi
    have e1 : (R.drop h).drop 32 = [R.getD (h + 32) 0] := by
      rw [List.drop_drop]
      apply List.ext_getElem
      · simp [hlen]
      · intro j h1 h2
        simp at h2
        subst h2
        have hi : h + 32 < R.length := by omega
        simp [List.getD_eq_getElem?_getD, List.getElem?_eq_getElem hi]
    rw [e1, Nat.eq_of_beq_eq_true c2]
    show natOf [(full (2 ^ h) ^^^ full (n - 1)).testBit i] = 0
    rw [Nat.testBit_xor, full_testBit, full_testBit]
    have h1 : i < 2 ^ h := by omega
    simp [h1, hi, natOf]
  have mono : ∀ i j, i < j → j < n - 1 → numAt ((R.drop h).take 32) i ≤ numAt ((R.drop h).take 32) j := by
    intro i j hij hj
    have h1 := incS_ok c1 hij (by omega)
    rw [split i, split j, flag i (by omega), flag j hj, Nat.mul_zero, Nat.add_zero, Nat.add_zero] at h1
    have h2 := numAt_lt (R.take h) i
    have h3 := numAt_lt (R.take h) j
    rw [hRD] at h2 h3
    by_contra hc
    have : 2 ^ h * (numAt ((R.drop h).take 32) j + 1) ≤ 2 ^ h * numAt ((R.drop h).take 32) i :=
      Nat.mul_le_mul_left _ (by omega)
    rw [Nat.mul_add] at this
    omega
  have hpos : t e < t a := by
    by_contra hc
    rcases Nat.lt_or_ge (t a) (t e) with h1 | h1
    · have := mono (t a) (t e) h1 ue
      omega
    · have : t a = t e := by omega
      rw [this, le] at la
      omega
  generalize hi : t e = i at *
  generalize hj : t a = j at *
  by_cases h1 : j = i + 1
  · subst h1
    have hb := of_covers c3 (i := i) (by rw [full_testBit]; exact decide_eq_true (by omega))
    have hb' : (full (2 ^ h) ^^^
      ((ltS (addS ((R.drop h).take 32) (dropS 1 (R.take h) ++ List.replicate (32 - h) 0) 0) (dropS 1 ((R.drop h).take 32) ++ [0]) 0) &&&
      (ltS (addS (dropS 1 ((R.drop h).take 32)) (R.take h ++ List.replicate (32 - h) 0) 0)
        (addS ((R.drop h).take 32) (constS (Nat.pow 2 h) 32 n) 0) 0))).testBit i = true := hb
    rw [Nat.testBit_xor, Nat.testBit_and, full_testBit] at hb'
    have hi2 : i < 2 ^ h := by omega
    have hl1 : ((R.drop h).take 32).length = (dropS 1 (R.take h) ++ List.replicate (32 - h) 0).length := by
      rw [hRL, List.length_append, dropS_length, hRD, List.length_replicate]; omega
    have hl2 : (dropS 1 ((R.drop h).take 32)).length = (R.take h ++ List.replicate (32 - h) 0).length := by
      rw [dropS_length, hRL, List.length_append, hRD, List.length_replicate]; omega
    have hl3 : ((R.drop h).take 32).length = (constS (Nat.pow 2 h) 32 n).length := by rw [hRL, constS_length]
    have z : ∀ j, ((0 : Nat).testBit j).toNat = 0 := fun j => by simp
    have s1 := ltS_ok i (addS ((R.drop h).take 32) (dropS 1 (R.take h) ++ List.replicate (32 - h) 0) 0)
      (dropS 1 ((R.drop h).take 32) ++ [0]) 0 (by rw [addS_length _ _ _ hl1, hRL, List.length_append, dropS_length, hRL]; rfl)
    have s2 := ltS_ok i (addS (dropS 1 ((R.drop h).take 32)) (R.take h ++ List.replicate (32 - h) 0) 0)
      (addS ((R.drop h).take 32) (constS (Nat.pow 2 h) 32 n) 0) 0
      (by rw [addS_length _ _ _ hl2, addS_length _ _ _ hl3, dropS_length])
    rw [addS_ok _ _ _ _ hl1, numAt_pad, numAt_dropS, show ([0] : List Nat) = List.replicate 1 0 from rfl, numAt_pad, numAt_dropS, z,
      la, le, da] at s1
    rw [addS_ok _ _ _ _ hl2, addS_ok _ _ _ _ hl3, numAt_pad, numAt_dropS, constS_ok _ _ (by omega) _ _ hn', z, la, le, de] at s2
    by_contra hcon
    have t1 := s1.mpr (Or.inl (by omega))
    have t2 := s2.mpr (Or.inl (by omega))
    rw [show ([0] : List Nat) = List.replicate 1 0 from rfl, t1, t2] at hb'
    simp [hi2] at hb'
  · left
    have hb := of_covers c4 (i := i) (by rw [full_testBit]; exact decide_eq_true (by omega))
    have hl3 : ((R.drop h).take 32).length = (constS (Nat.pow 2 h) 32 (n - 1)).length := by rw [hRL, constS_length]
    rw [ltS_ok i _ _ _ (by rw [addS_length _ _ _ hl3, hRL, List.length_append, dropS_length, hRL]; rfl),
      addS_ok _ _ _ _ hl3, constS_ok _ _ (by omega) _ _ (by omega), show ([0] : List Nat) = List.replicate 1 0 from rfl, numAt_pad,
      numAt_dropS, le] at hb
    simp at hb
    by_cases h2 : j = i + 2
    · subst h2; omega
    · have := mono (i + 2) j (by omega) ua
      omega

section
variable {w : Nat} {P : BitVec w}

theorem det_four (hw : 0 < w) (hP : P.getLsbD 0 = true) {h n T : Nat} {L : List Nat} (hn : n ≤ 2 ^ h) (hh : h ≤ 32) (hn' : n < 2 ^ 32)
    (hT : T < 2 ^ 32) (hper : ∀ m, (AdjoinRoot.root (divisor P) + 1) * AdjoinRoot.root (divisor P) ^ m = AdjoinRoot.root (divisor P) + 1 → T ∣ m)
    (hd : Det P 3 n) (hc : check4 P h n T L = true) : Det P 4 n := by
  simp only [check4, Bool.and_eq_true] at hc
  obtain ⟨⟨⟨c0, c1⟩, c2⟩, c3⟩ := hc
  have hL : L.length = 32 := Nat.eq_of_beq_eq_true c0
  have per : ∀ m m', (AdjoinRoot.root (divisor P) + 1) * AdjoinRoot.root (divisor P) ^ m =
      (AdjoinRoot.root (divisor P) + 1) * AdjoinRoot.root (divisor P) ^ m' → m ≤ m' → T ∣ m' - m := by
    intro m m' he hle
    apply hper
    have hu : IsUnit (AdjoinRoot.root (divisor P) ^ m) := (root_unit hw hP).pow m
    apply hu.mul_right_cancel
    rw [mul_assoc, ← pow_add, Nat.sub_add_cancel hle, he]
  intro E h1 h2 h3
  match E, h2 with
  | [], _ => exact hd [] h1 (by simp) h3
  | [a], _ => exact hd [a] h1 (by simp) h3
  | [a, b], _ => exact hd [a, b] h1 (by simp) h3
  | [a, b, c], _ =>
    have hp : [a, b, c].Pairwise (· < ·) := (List.pairwise_lt_range' (s := 1) (n := n - 1)).sublist h1
    have hm : ∀ x ∈ [a, b, c], 1 ≤ x ∧ x < n := fun x hx => by
      have := List.mem_range'_1.mp (h1.subset hx); omega
    have ha := hm a (by simp)
    have hcc := hm c (by simp)
    have hab : a < b ∧ b < c := by simp at hp; omega
    have la := logsOk_ok P hw c1 ha.1 ha.2 hn
    have lc := logsOk_ok P hw c1 (d := c - b) (by omega) (by omega) hn
    have ra := rangeOk_ok hL c2 hn (by omega) hT ha.1 ha.2
    have rc := rangeOk_ok hL c2 hn (by omega) hT (d := c - b) (by omega) (by omega)
    have key : (AdjoinRoot.root (divisor P) + 1) * AdjoinRoot.root (divisor P) ^ numAt L a =
        (AdjoinRoot.root (divisor P) + 1) * AdjoinRoot.root (divisor P) ^ (b + numAt L (c - b)) := by
      have e : AdjoinRoot.root (divisor P) ^ c = AdjoinRoot.root (divisor P) ^ b * AdjoinRoot.root (divisor P) ^ (c - b) := by
        rw [← pow_add, show b + (c - b) = c by omega]
      simp only [psum, List.map_cons, List.map_nil, List.sum_cons, List.sum_nil, add_zero] at h3
      have := add_self P (AdjoinRoot.root (divisor P) ^ b + AdjoinRoot.root (divisor P) ^ c)
      rw [pow_add]
      linear_combination la - AdjoinRoot.root (divisor P) ^ b * lc + h3 - this + e
    have heq : numAt L a = b + numAt L (c - b) := by
      rcases Nat.le_total (numAt L a) (b + numAt L (c - b)) with hle | hle
      · have := per _ _ key hle
        have h5 := Nat.eq_zero_of_dvd_of_lt this (by omega)
        omega
      · have := per _ _ key.symm hle
        have h5 := Nat.eq_zero_of_dvd_of_lt this (by omega)
        omega
    have := gaps hL hn hh hn' c3 ha (e := c - b) ⟨by omega, by omega⟩ (by omega)
    omega
  | a :: b :: c :: d :: E, h2 => simp at h2; omega

/-- The period of `x + 1` for an odd divisor. -/
theorem per_odd (hu : IsUnit (AdjoinRoot.root (divisor P) + 1)) {T : Nat} (hT : IsOrder P T) (m : Nat)
    (h : (AdjoinRoot.root (divisor P) + 1) * AdjoinRoot.root (divisor P) ^ m = AdjoinRoot.root (divisor P) + 1) : T ∣ m := by
  rw [← order_dvd hT, dvd_iff_pow]
  exact hu.mul_left_cancel (by rw [h, mul_one])

/-- The period of `x + 1` for a prime order. -/
theorem per_prime (hw : 0 < w) {T : Nat} (hT : IsOrder P T) (hp : T.Prime) (h3 : 2 < T) (m : Nat)
    (h : (AdjoinRoot.root (divisor P) + 1) * AdjoinRoot.root (divisor P) ^ m = AdjoinRoot.root (divisor P) + 1) : T ∣ m := by
  by_contra hc
  have hco : Nat.Coprime m T := ((Nat.Prime.coprime_iff_not_dvd hp).mpr hc).symm
  obtain ⟨k, hk⟩ := Nat.exists_mul_mod_eq_one_of_coprime hco hp.one_lt
  have ht := (dvd_iff_pow P T).mp hT.2.1
  have he : AdjoinRoot.root (divisor P) ^ (m * k) = AdjoinRoot.root (divisor P) := by
    rw [← Nat.div_add_mod (m * k) T, hk.2, pow_add, pow_mul, ht, one_pow, one_mul, pow_one]
  have hi : ∀ j, (AdjoinRoot.root (divisor P) + 1) * (AdjoinRoot.root (divisor P) ^ m) ^ j = AdjoinRoot.root (divisor P) + 1 := by
    intro j
    induction j with
    | zero => simp
    | succ j ih => rw [pow_succ, ← mul_assoc, ih, h]
  have h1 := hi k
  rw [← pow_mul, he] at h1
  refine det_two hw hT [2] ?_ (by simp) ?_
  · rw [List.singleton_sublist, List.mem_range'_1]; omega
  · simp only [psum, List.map_cons, List.map_nil, List.sum_cons, List.sum_nil, add_zero]
    linear_combination h1 + add_self P 1

end
end IMU.Crc
