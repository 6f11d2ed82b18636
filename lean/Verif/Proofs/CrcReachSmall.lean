import Verif.Proofs.CrcReach
import Verif.Proofs.CrcOrders

/-! # Enumerating the codewords of small weight -/

namespace IMU.Crc
open Spec.Crc Polynomial

/-! ### Numbers for bits -/

/-- The number with the given bits, the least significant first. -/
def natOf : List Bool → Nat
  | [] => 0
  | b :: c => 2 * natOf c + b.toNat

theorem natOf_testBit (c : List Bool) : ∀ i, (natOf c).testBit i = c[i]?.getD false := by
  induction c with
  | nil => intro i; simp [natOf]
  | cons b c ih =>
    intro i
    cases i with
    | zero => cases b <;> simp [natOf, Nat.testBit_zero]
    | succ i =>
      rw [natOf, Nat.testBit_succ, List.getElem?_cons_succ, ← ih i]
      congr 1
      cases b <;> simp <;> omega

theorem natOf_lt (c : List Bool) : natOf c < 2 ^ c.length := by
  induction c with
  | nil => simp [natOf]
  | cons b c ih =>
    rw [natOf, List.length_cons, Nat.pow_succ]
    cases b <;> simp <;> omega

section
variable {w : Nat} (P : BitVec w)

/-- The value of the lower `w` bits of a number. -/
noncomputable def evN (v : Nat) : AdjoinRoot (divisor P) := evB P ((List.range w).map v.testBit)

theorem evN_xor (u v : Nat) : evN P (u ^^^ v) = evN P u + evN P v := by
  unfold evN
  rw [← evB_xor P _ _ (by simp)]
  congr 1
  apply List.ext_getElem
  · simp
  · intro i h1 h2; simp

theorem evN_natOf {c : List Bool} (hc : c.length = w) : evN P (natOf c) = evB P c := by
  unfold evN
  congr 1
  apply List.ext_getElem
  · simp [hc]
  · intro i h1 h2
    rw [List.getElem_map, List.getElem_range, natOf_testBit, List.getElem?_eq_getElem h2, Option.getD_some]

theorem evN_inj {u v : Nat} (hu : u < 2 ^ w) (hv : v < 2 ^ w) (h : evN P u = evN P v) : u = v := by
  have := evB_inj (by simp) (by simp) h
  apply Nat.eq_of_testBit_eq
  intro i
  by_cases hi : i < w
  · have h1 := congrArg (fun l => l[i]?) this
    simpa [hi] using h1
  · have hle : 2 ^ w ≤ 2 ^ i := Nat.pow_le_pow_right (by omega) (by omega)
    rw [Nat.testBit_lt_two_pow (by omega), Nat.testBit_lt_two_pow (by omega)]

theorem evN_one (hw : 0 < w) : evN P 1 = 1 := by
  have : (List.range w).map (Nat.testBit 1) = true :: List.replicate (w - 1) false := by
    apply List.ext_getElem
    · simp; omega
    · intro i h1 h2
      cases i with
      | zero => simp
      | succ i => simp [Nat.testBit_succ]
  unfold evN
  rw [this, evB]
  have hz : ∀ n, evB P (List.replicate n false) = 0 := by
    intro n
    induction n with
    | zero => rfl
    | succ n ih => rw [List.replicate_succ, evB, ih]; simp
  rw [hz]; simp

/-- The bits of `x ^ e`. -/
def itB (p one : List Bool) : Nat → List Bool
  | 0 => one
  | e + 1 => stepB p (itB p one e)

/-- The bits of 1. -/
def oneB (w : Nat) : List Bool := true :: List.replicate (w - 1) false

theorem evB_oneB (hw : 0 < w) : evB P (oneB w) = 1 := by
  have h := evN_one P hw
  unfold evN at h
  rw [← h]
  congr 1
  apply List.ext_getElem
  · simp [oneB]; omega
  · intro i h1 h2
    cases i with
    | zero => simp [oneB]
    | succ i => simp [oneB, Nat.testBit_succ]

theorem itB_length (hw : 0 < w) (e : Nat) : (itB (pb P) (oneB w) e).length = w := by
  induction e with
  | zero => simp [itB, oneB]; omega
  | succ e ih => exact stepB_length hw (pb_length P) ih

theorem evB_itB (hw : 0 < w) (e : Nat) : evB P (itB (pb P) (oneB w) e) = AdjoinRoot.root (divisor P) ^ e := by
  induction e with
  | zero => rw [itB, evB_oneB P hw, pow_zero]
  | succ e ih => rw [itB, evB_stepB P hw (itB_length P hw e), ih, pow_succ, mul_comm]

/-- `x ^ e` as a number. -/
def pwN (e : Nat) : Nat := natOf (itB (pb P) (oneB w) e)

theorem evN_pwN (hw : 0 < w) (e : Nat) : evN P (pwN P e) = AdjoinRoot.root (divisor P) ^ e := by
  rw [pwN, evN_natOf P (itB_length P hw e), evB_itB P hw]

theorem pwN_lt (hw : 0 < w) (e : Nat) : pwN P e < 2 ^ w := by
  have := natOf_lt (itB (pb P) (oneB w) e)
  rw [itB_length P hw] at this
  exact this

/-- The exclusive or of numbers. -/
def xs : List Nat → Nat
  | [] => 0
  | v :: S => v ^^^ xs S

theorem evN_xs (hw : 0 < w) (E : List Nat) : evN P (xs (E.map (pwN P))) = psum P E := by
  induction E with
  | nil =>
    have h := evN_xor P 0 0
    rw [Nat.xor_self] at h
    simp only [xs, List.map_nil, psum, List.sum_nil]
    linear_combination -h
  | cons e E ih => rw [List.map_cons, xs, evN_xor, ih, evN_pwN P hw]; simp [psum]

theorem xs_lt (hw : 0 < w) (E : List Nat) : xs (E.map (pwN P)) < 2 ^ w := by
  induction E with
  | nil => simp [xs, Nat.two_pow_pos]
  | cons e E ih => exact Nat.xor_lt_two_pow (pwN_lt P hw e) ih

end

/-! ### The enumeration -/

/-- Successive powers from the bits `c` on. -/
def powB (p : List Bool) : Nat → List Bool → List Nat
  | 0, _ => []
  | n + 1, c => natOf c :: powB p n (stepB p c)

theorem powB_eq {w : Nat} (P : BitVec w) (n : Nat) : ∀ k,
    powB (pb P) n (itB (pb P) (oneB w) k) = (List.range' k n).map (pwN P) := by
  induction n with
  | zero => intro k; rfl
  | succ n ih =>
    intro k
    rw [powB, List.range'_succ, List.map_cons, ← ih (k + 1)]
    rfl

/-- A set of numbers as the ones of one number. -/
noncomputable def bmOf : List Nat → Nat :=
  fun l => List.rec 0 (fun v _ ih => Nat.lor ih (Nat.shiftLeft 1 v)) l

/-- `v` is not in the set. -/
def absent (bm v : Nat) : Bool := Nat.beq (Nat.land (Nat.shiftRight bm v) 1) 0

/-- No exclusive or of `acc` with at most `k` of the numbers is in the set. -/
noncomputable def chk (bm : Nat) : List Nat → Nat → Nat → Bool :=
  fun l => List.rec (fun _ acc => absent bm acc)
    (fun v _ ih k acc => bif Nat.beq k 0 then absent bm acc else and (ih k acc) (ih (Nat.sub k 1) (Nat.xor acc v))) l

theorem absent_eq (bm v : Nat) : absent bm v = !bm.testBit v := by
  show Nat.beq ((bm >>> v) &&& 1) 0 = _
  rw [Nat.testBit]
  have : (bm >>> v) &&& 1 = 1 &&& (bm >>> v) := Nat.and_comm _ _
  rw [this]
  cases h : 1 &&& (bm >>> v) <;> rfl

theorem bmOf_mem {l : List Nat} {v : Nat} (h : v ∈ l) : (bmOf l).testBit v = true := by
  induction l with
  | nil => simp at h
  | cons u l ih =>
    have e : bmOf (u :: l) = bmOf l ||| (1 <<< u) := rfl
    rw [e, Nat.testBit_or, Nat.testBit_shiftLeft]
    rcases List.mem_cons.mp h with rfl | h
    · simp
    · rw [ih h]; rfl

theorem chk_nil (bm k acc : Nat) : chk bm [] k acc = absent bm acc := rfl
theorem chk_cons (bm v : Nat) (l : List Nat) (k acc : Nat) : chk bm (v :: l) k acc =
    bif Nat.beq k 0 then absent bm acc else (chk bm l k acc && chk bm l (k - 1) (acc ^^^ v)) := rfl

theorem chk_sound {bm : Nat} (l : List Nat) : ∀ {k acc : Nat} {S : List Nat}, chk bm l k acc = true → S.Sublist l →
    S.length ≤ k → absent bm (acc ^^^ xs S) = true := by
  induction l with
  | nil =>
    intro k acc S h hs _
    rw [List.sublist_nil.mp hs, xs, Nat.xor_zero]
    exact h
  | cons v l ih =>
    intro k acc S h hs hl
    rw [chk_cons] at h
    cases k with
    | zero =>
      have : S = [] := List.length_eq_zero_iff.mp (by omega)
      rw [this, xs, Nat.xor_zero]
      simpa using h
    | succ k =>
      have hb : Nat.beq (k + 1) 0 = false := rfl
      rw [hb, cond_false, Bool.and_eq_true] at h
      cases hs with
      | cons _ hs => exact ih h.1 hs hl
      | @cons_cons S _ _ hs =>
        have := ih h.2 hs (by simp at hl; omega)
        rw [Nat.xor_assoc] at this
        exact this

/-- The whole check: no codeword of weight at most `k` among the frames of `n` bits. -/
noncomputable def detCheck {w : Nat} (P : BitVec w) (k n : Nat) : Bool :=
  let L := powB (pb P) (n - 1) (stepB (pb P) (oneB w))
  chk (bmOf L) L (k - 2) 1

theorem det_of_check {w : Nat} {P : BitVec w} (hw : 0 < w) {k n : Nat} (hk : 2 ≤ k) (h : detCheck P k n = true) :
    Det P k n := by
  intro E h1 h2 h3
  have hL : powB (pb P) (n - 1) (stepB (pb P) (oneB w)) = (List.range' 1 (n - 1)).map (pwN P) := powB_eq P (n - 1) 1
  unfold detCheck at h
  simp only [hL] at h
  cases E with
  | nil =>
    simp only [psum, List.map_nil, List.sum_nil, add_zero] at h3
    have : Nontrivial (AdjoinRoot (divisor P)) :=
      AdjoinRoot.nontrivial _ (by rw [divisor_degree]; exact_mod_cast (by omega : w ≠ 0))
    exact one_ne_zero h3
  | cons e E =>
    have hs : E.Sublist (List.range' 1 (n - 1)) := (List.sublist_cons_self e E).trans h1
    have ha := chk_sound _ h (hs.map (pwN P)) (by simp at h2 ⊢; omega)
    have he : 1 ^^^ xs (E.map (pwN P)) = pwN P e := by
      apply evN_inj P (Nat.xor_lt_two_pow (Nat.one_lt_two_pow (by omega)) (xs_lt P hw E)) (pwN_lt P hw e)
      rw [evN_xor, evN_one P hw, evN_xs P hw, evN_pwN P hw]
      have h4 : psum P (e :: E) = AdjoinRoot.root (divisor P) ^ e + psum P E := by simp [psum]
      rw [h4] at h3
      have := add_self P (AdjoinRoot.root (divisor P) ^ e)
      linear_combination h3 - this
    rw [he, absent_eq, bmOf_mem (List.mem_map_of_mem (h1.subset (by simp)))] at ha
    simp at ha

/-! ### Witnesses -/

theorem sublist_range' {E : List Nat} : ∀ (m k : Nat), E.Pairwise (· < ·) → (∀ e ∈ E, k ≤ e ∧ e < k + m) →
    E.Sublist (List.range' k m) := by
  intro m
  induction m generalizing E with
  | zero =>
    intro k _ h
    cases E with
    | nil => simp
    | cons e E => have := h e (by simp); omega
  | succ m ih =>
    intro k hp h
    rw [List.range'_succ]
    cases E with
    | nil => simp
    | cons e E =>
      have hp' := List.pairwise_cons.mp hp
      by_cases he : e = k
      · subst he
        exact (ih (e + 1) hp'.2 fun x hx => by have := hp'.1 x hx; have := h x (by simp [hx]); omega).cons_cons _
      · refine (ih (k + 1) hp fun x hx => ?_).cons _
        have h1 := h x hx
        have h2 := h e (by simp)
        rcases List.mem_cons.mp hx with rfl | hx
        · omega
        · have := hp'.1 x hx; omega

/-- The powers with exponents `E` (of at most 17 bits) sum up to 1. -/
def missCheck {w : Nat} (P : BitVec w) (n : Nat) (E : List Nat) : Bool :=
  decide (E.Pairwise (· < ·)) && E.all (fun e => 1 ≤ e && e ≤ n && numMSB (digits 17 e) == e) &&
    E.foldr (fun e acc => xpow P (digits 17 e) ^^^ acc) 1#w == 0#w

theorem miss_of_check {w : Nat} {P : BitVec w} (hw : 0 < w) {n : Nat} {E : List Nat} (h : missCheck P n E = true) :
    E.Sublist (List.range' 1 n) ∧ 1 + psum P E = 0 := by
  simp only [missCheck, Bool.and_eq_true, beq_iff_eq, List.all_eq_true, decide_eq_true_eq] at h
  obtain ⟨⟨h1, h2⟩, h3⟩ := h
  refine ⟨sublist_range' n 1 h1 fun e he => by have := h2 e he; omega, ?_⟩
  have key : ∀ E : List Nat, (∀ e ∈ E, numMSB (digits 17 e) = e) →
      AdjoinRoot.mk (divisor P) (polyOf (E.foldr (fun e acc => xpow P (digits 17 e) ^^^ acc) 1#w)) = 1 + psum P E := by
    intro E
    induction E with
    | nil => intro _; simp [psum, polyOf_one hw]
    | cons e E ih =>
      intro h
      rw [List.foldr_cons, polyOf_xor, map_add, ih fun x hx => h x (by simp [hx]), mk_xpow hw, h e (by simp)]
      simp [psum]; ring
  rw [← key E fun e he => (h2 e he).2, h3, polyOf_zero, map_zero]

theorem reach_det {w : Nat} {P : BitVec w} (hw : 0 < w) (hP : P.getLsbD 0 = true) {k n : Nat} (E : List Nat) (hd : Det P k n)
    (hE : E.length + 1 ≤ k) (hm : missCheck P n E = true) : IsReach P k n :=
  reach_of hw hP hd (miss_of_check hw hm).1 hE (miss_of_check hw hm).2

/-- Both checks. -/
theorem reach_check {w : Nat} {P : BitVec w} (hw : 0 < w) (hP : P.getLsbD 0 = true) {k n : Nat} (E : List Nat) (hk : 2 ≤ k)
    (hE : E.length + 1 ≤ k) (hd : detCheck P k n = true) (hm : missCheck P n E = true) : IsReach P k n :=
  reach_of hw hP (det_of_check hw hk hd) (miss_of_check hw hm).1 hE (miss_of_check hw hm).2

/-- The same for an even divisor and odd `k`. -/
theorem reach_odd {w : Nat} {P : BitVec w} (hw : 0 < w) (hP : P.getLsbD 0 = true) (hodd : weight P % 2 = 1) {k n : Nat}
    (E : List Nat) (hk : 3 ≤ k) (hk' : k % 2 = 1) (hE : E.length + 1 ≤ k) (hd : detCheck P (k - 1) n = true)
    (hm : missCheck P n E = true) : IsReach P k n :=
  reach_of hw hP (det_odd hodd hk' (det_of_check hw (by omega) hd)) (miss_of_check hw hm).1 hE (miss_of_check hw hm).2

theorem reach_two {w : Nat} {P : BitVec w} (hw : 0 < w) (hP : P.getLsbD 0 = true) {T : Nat} (hT : IsOrder P T) : IsReach P 2 T :=
  reach_of hw hP (det_two hw hT) (sub_T hT.1) (by simp) (miss_two hT)

theorem reach_three {w : Nat} {P : BitVec w} (hw : 0 < w) (hP : P.getLsbD 0 = true) (hodd : weight P % 2 = 1) {T : Nat}
    (hT : IsOrder P T) : IsReach P 3 T :=
  reach_of hw hP (det_odd hodd rfl (det_two hw hT)) (sub_T hT.1) (by simp) (miss_two hT)

theorem reach_short {w : Nat} {P : BitVec w} (hw : 0 < w) (hP : P.getLsbD 0 = true) {k : Nat} (E : List Nat)
    (hE : E.length + 1 ≤ k) (hm : missCheck P w E = true) : IsReach P k w :=
  reach_of hw hP (det_short hw k) (miss_of_check hw hm).1 hE (miss_of_check hw hm).2

end IMU.Crc
