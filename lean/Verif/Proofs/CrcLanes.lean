import Verif.Proofs.CrcReachSmall

/-! # Many registers at once

Bit `i` of the number `S[j]` is bit `j` of the register in lane `i`. -/

namespace IMU.Crc
open Spec.Crc Polynomial

/-- The bits of the register in lane `i`, the least significant first. -/
def bitAt (S : List Nat) (i : Nat) : List Bool := S.map (·.testBit i)

/-- The register in lane `i` as a number. -/
def numAt (S : List Nat) (i : Nat) : Nat := natOf (bitAt S i)

theorem bitAt_length (S : List Nat) (i : Nat) : (bitAt S i).length = S.length := by simp [bitAt]

/-- Ones in the lowest `N` lanes. -/
def full (N : Nat) : Nat := Nat.sub (Nat.shiftLeft 1 N) 1

theorem full_testBit (N i : Nat) : (full N).testBit i = decide (i < N) := by
  show (1 <<< N - 1).testBit i = _
  rw [Nat.shiftLeft_eq, one_mul, Nat.testBit_two_pow_sub_one]

theorem of_full {x N : Nat} (h : Nat.land x (full N) = full N) {i : Nat} (hi : i < N) : x.testBit i = true := by
  have h1 : (x &&& full N).testBit i = (full N).testBit i := congrArg (Nat.testBit · i) h
  rw [Nat.testBit_and, full_testBit] at h1
  simpa [hi] using h1

/-! ### Packed registers

All registers in one number: bit `j N + i` is bit `j` of the register in lane `i`. -/

/-- The bits of the register in lane `i` of `N`. -/
def lane (N w X i : Nat) : List Bool := (List.range w).map fun j => X.testBit (j * N + i)

theorem lane_length (N w X i : Nat) : (lane N w X i).length = w := by simp [lane]

theorem lane_xor (N w X Y i : Nat) : lane N w (Nat.xor X Y) i = List.zipWith xor (lane N w X i) (lane N w Y i) := by
  have h : Nat.xor X Y = X ^^^ Y := rfl
  apply List.ext_getElem
  · simp [lane]
  · intro j h1 h2; simp [lane, h]

/-- The bits of a constant, at the distance `N`. -/
def spread (N : Nat) : List Bool → Nat
  | [] => 0
  | b :: c => Nat.add (Nat.shiftLeft (spread N c) N) (bif b then 1 else 0)

theorem mul_spread {N s i : Nat} (hs : s < 2 ^ N) (hi : i < N) (c : List Bool) :
    ∀ j, (s * spread N c).testBit (j * N + i) = (c[j]?.getD false && s.testBit i) := by
  induction c with
  | nil => intro j; simp [spread]
  | cons b c ih =>
    intro j
    have e : s * spread N (b :: c) = 2 ^ N * (s * spread N c) + (bif b then s else 0) := by
      show s * ((spread N c) <<< N + (bif b then 1 else 0)) = _
      rw [Nat.shiftLeft_eq]
      cases b <;> simp only [cond_true, cond_false] <;> ring
    have hb : (bif b then s else 0) < 2 ^ N := by cases b <;> simp [hs, Nat.two_pow_pos]
    rw [e, Nat.testBit_two_pow_mul_add _ hb]
    cases j with
    | zero => rw [if_pos (by omega)]; cases b <;> simp
    | succ j =>
      have : (j + 1) * N = j * N + N := by ring
      rw [if_neg (by omega), show (j + 1) * N + i - N = j * N + i by omega, ih j]
      simp

theorem low_lt (x N : Nat) : x &&& full N < 2 ^ N := by
  have : full N = 2 ^ N - 1 := by
    show 1 <<< N - 1 = _
    rw [Nat.shiftLeft_eq, one_mul]
  rw [this, Nat.and_two_pow_sub_one_eq_mod]
  exact Nat.mod_lt _ (Nat.two_pow_pos N)

theorem low_testBit {x N i : Nat} (hi : i < N) : (x &&& full N).testBit i = x.testBit i := by
  rw [Nat.testBit_and, full_testBit]; simp [hi]

/-- The constant `c` in the lanes of `s`. -/
theorem lane_mul {N w s i : Nat} (hi : i < N) {c : List Bool} (hc : c.length = w) :
    lane N w (Nat.mul (Nat.land s (full N)) (spread N c)) i = if s.testBit i then c else List.replicate w false := by
  have h : Nat.mul (Nat.land s (full N)) (spread N c) = (s &&& full N) * spread N c := rfl
  apply List.ext_getElem
  · split <;> simp [lane, hc]
  · intro j h1 h2
    have hj : j < c.length := by simpa [lane, hc] using h1
    simp only [lane, List.getElem_map, List.getElem_range]
    rw [h, mul_spread (low_lt s N) hi, low_testBit hi, List.getElem?_eq_getElem hj]
    split <;> rename_i hs <;> simp [hs]

/-- The registers times constants: `cs[j]` for bit `j`. -/
def lin (N : Nat) : List Nat → Nat → Nat → Nat
  | [], _, acc => acc
  | c :: cs, X, acc => lin N cs (Nat.shiftRight X N) (Nat.xor acc (Nat.mul (Nat.land X (full N)) c))

section
variable {w : Nat} (P : BitVec w)

theorem evB_false (n : Nat) : evB P (List.replicate n false) = 0 := by
  induction n with
  | zero => rfl
  | succ n ih => rw [List.replicate_succ, evB, ih]; simp

theorem lane_cons (N n X i : Nat) : lane N (n + 1) X i = X.testBit i :: lane N n (Nat.shiftRight X N) i := by
  have h : Nat.shiftRight X N = X >>> N := rfl
  unfold lane
  rw [List.range_succ_eq_map, List.map_cons, List.map_map]
  congr 1
  · simp
  · apply List.map_congr_left
    intro j _
    rw [Function.comp_apply, h, Nat.testBit_shiftRight]
    congr 1
    rw [Nat.succ_eq_add_one]; ring

/-- The sum of the constants for the ones. -/
noncomputable def lsum : List (List Bool) → List Bool → AdjoinRoot (divisor P)
  | c :: cs, b :: d => (if b then evB P c else 0) + lsum cs d
  | _, _ => 0

theorem evB_lin {N i : Nat} (hi : i < N) (cs : List (List Bool)) : ∀ (X acc : Nat), (∀ c ∈ cs, c.length = w) →
    evB P (lane N w (lin N (cs.map (spread N)) X acc) i) =
      lsum P cs (lane N cs.length X i) + evB P (lane N w acc i) := by
  induction cs with
  | nil => intro X acc h; simp [lin, lsum]
  | cons c cs ih =>
    intro X acc h
    rw [List.map_cons, lin, ih _ _ fun c hc => h c (by simp [hc]), List.length_cons, lane_cons, lane_xor,
      evB_xor P _ _ (by simp [lane]), lane_mul hi (h c (by simp)), lsum]
    cases X.testBit i <;> simp [evB_false]
    ring

/-- Every second of the constants `c`, `x c`, `x² c`, ... -/
def cols2 (p : List Bool) : Nat → List Bool → List (List Bool)
  | 0, _ => []
  | n + 1, c => c :: cols2 p n (stepB p (stepB p c))

theorem cols2_length (p : List Bool) (n : Nat) (c : List Bool) : (cols2 p n c).length = n := by
  induction n generalizing c with
  | zero => rfl
  | succ n ih => simp [cols2, ih]

theorem cols2_lengths (hw : 0 < w) (n : Nat) : ∀ (c : List Bool), c.length = w → ∀ d ∈ cols2 (pb P) n c, d.length = w := by
  induction n with
  | zero => intro c _ d hd; simp [cols2] at hd
  | succ n ih =>
    intro c hc d hd
    rcases List.mem_cons.mp hd with rfl | hd
    · exact hc
    · exact ih _ (stepB_length hw (pb_length P) (stepB_length hw (pb_length P) hc)) d hd

theorem lsum_cols2 (hw : 0 < w) (d : List Bool) : ∀ (c : List Bool), c.length = w →
    lsum P (cols2 (pb P) d.length c) d = evB P c * evB P d ^ 2 := by
  induction d with
  | nil => intro c _; simp [cols2, lsum, evB]
  | cons b d ih =>
    intro c hc
    have h1 := stepB_length hw (pb_length P) hc
    rw [List.length_cons, cols2, lsum, ih _ (stepB_length hw (pb_length P) h1), evB_stepB P hw h1, evB_stepB P hw hc, evB]
    have h2 := add_self P 1
    cases b
    · simp; ring
    · simp only [if_true]
      linear_combination -(evB P c * AdjoinRoot.root (divisor P) * evB P d) * h2

/-- The registers squared. -/
def sqX (N : Nat) (cs : List Nat) (X : Nat) : Nat := lin N cs X 0

theorem evB_sqX {N i X : Nat} (hw : 0 < w) (hi : i < N) :
    evB P (lane N w (sqX N ((cols2 (pb P) w (oneB w)).map (spread N)) X) i) = evB P (lane N w X i) ^ 2 := by
  have h1 : (oneB w).length = w := by simp [oneB]; omega
  unfold sqX
  rw [evB_lin P hi _ _ _ (cols2_lengths P hw w _ h1), cols2_length]
  have := lsum_cols2 P hw (lane N w X i) (oneB w) h1
  rw [lane_length] at this
  rw [this, evB_oneB P hw]
  have h0 : lane N w 0 i = List.replicate w false := by simp [lane]
  rw [h0, evB_false]; ring

/-- The registers times `x`. -/
def mulX (N w p X : Nat) : Nat :=
  Nat.xor (Nat.shiftLeft X N) (Nat.mul (Nat.land (Nat.shiftRight X (Nat.mul (Nat.sub w 1) N)) (full N)) p)

theorem evB_mulX {N i X : Nat} (hw : 0 < w) (hi : i < N) :
    evB P (lane N w (mulX N w (spread N (pb P)) X) i) = AdjoinRoot.root (divisor P) * evB P (lane N w X i) := by
  rw [← evB_stepB P hw (lane_length N w X i)]
  congr 1
  unfold mulX
  rw [lane_xor, lane_mul hi (pb_length P)]
  have e1 : Nat.shiftRight X (Nat.mul (Nat.sub w 1) N) = X >>> ((w - 1) * N) := rfl
  have e2 : Nat.shiftLeft X N = X <<< N := rfl
  have hl : (lane N w X i).getLastD false = X.testBit ((w - 1) * N + i) := by
    obtain ⟨n, rfl⟩ : ∃ n, w = n + 1 := ⟨w - 1, by omega⟩
    simp [lane, List.range_succ, List.getLastD_eq_getLast?]
  have hs : lane N w (X <<< N) i = false :: (lane N w X i).dropLast := by
    obtain ⟨n, rfl⟩ : ∃ n, w = n + 1 := ⟨w - 1, by omega⟩
    rw [lane_cons]
    congr 1
    · rw [Nat.testBit_shiftLeft]; simp; omega
    · have : Nat.shiftRight (X <<< N) N = X := by
        show X <<< N >>> N = X
        rw [Nat.shiftLeft_shiftRight]
      rw [this]
      simp [lane, List.range_succ]
  unfold stepB
  rw [hl, e1, e2, Nat.testBit_shiftRight, hs]
  split
  · rfl
  · apply List.ext_getElem
    · simp [lane]; omega
    · intro j h1 h2; simp

/-- `Y` in the lanes of `e`, `X` in the others. -/
def selX (N ones e X Y : Nat) : Nat := Nat.xor X (Nat.land (Nat.mul (Nat.land e (full N)) ones) (Nat.xor X Y))

theorem lane_selX {N w i e X Y : Nat} (hi : i < N) :
    lane N w (selX N (spread N (List.replicate w true)) e X Y) i = if e.testBit i then lane N w Y i else lane N w X i := by
  apply List.ext_getElem
  · split <;> simp [lane]
  · intro j h1 h2
    have hj : j < w := by simpa [lane] using h1
    have hm := mul_spread (low_lt e N) hi (List.replicate w true) j
    rw [low_testBit hi, List.getElem?_replicate, if_pos hj] at hm
    have hx : selX N (spread N (List.replicate w true)) e X Y =
        X ^^^ (((e &&& full N) * spread N (List.replicate w true)) &&& (X ^^^ Y)) := rfl
    simp only [lane, List.getElem_map, List.getElem_range]
    rw [hx, Nat.testBit_xor, Nat.testBit_and, Nat.testBit_xor, hm]
    split <;> rename_i he <;> simp [lane, he]

/-- `x` to the power of the exponents. -/
def powX (N w : Nat) (cs : List Nat) (p ones : Nat) : List Nat → Nat
  | [] => full N
  | e :: es => (fun a => selX N ones e a (mulX N w p a)) (sqX N cs (powX N w cs p ones es))

/-- `powX` with the constants for a polynomial. -/
def powP (N : Nat) (es : List Nat) : Nat :=
  powX N w ((cols2 (pb P) w (oneB w)).map (spread N)) (spread N (pb P)) (spread N (List.replicate w true)) es

theorem lane_full {N i : Nat} (hi : i < N) (hw : 0 < w) : evB P (lane N w (full N) i) = 1 := by
  have : lane N w (full N) i = oneB w := by
    apply List.ext_getElem
    · simp [lane, oneB]; omega
    · intro j h1 h2
      cases j with
      | zero => simp [lane, oneB, full_testBit, hi]
      | succ j =>
        have : (j + 1) * N = j * N + N := by ring
        simp only [lane, List.getElem_map, List.getElem_range, full_testBit, oneB, List.getElem_cons_succ, List.getElem_replicate]
        simp; omega
  rw [this, evB_oneB P hw]

theorem evB_powP {N i : Nat} (hw : 0 < w) (hi : i < N) (es : List Nat) :
    evB P (lane N w (powP P N es) i) = AdjoinRoot.root (divisor P) ^ numAt es i := by
  induction es with
  | nil => simp [powP, powX, lane_full P hi hw, numAt, bitAt, natOf]
  | cons e es ih =>
    have h0 : powP P N (e :: es) = selX N (spread N (List.replicate w true)) e
      (sqX N ((cols2 (pb P) w (oneB w)).map (spread N)) (powP P N es))
      (mulX N w (spread N (pb P)) (sqX N ((cols2 (pb P) w (oneB w)).map (spread N)) (powP P N es))) := rfl
    have hn : numAt (e :: es) i = 2 * numAt es i + (e.testBit i).toNat := rfl
    rw [h0, lane_selX hi, hn, pow_add, mul_comm 2, pow_mul, ← ih]
    split
    · rename_i he
      rw [evB_mulX P hw hi, evB_sqX P hw hi, he, Bool.toNat_true, pow_one, mul_comm]
    · rename_i he
      rw [evB_sqX P hw hi, Bool.eq_false_iff.mpr he, Bool.toNat_false, pow_zero, mul_one]

end

/-- The registers, bit by bit. -/
def slices (N : Nat) : Nat → Nat → List Nat
  | 0, _ => []
  | m + 1, X => Nat.land X (full N) :: slices N m (Nat.shiftRight X N)

theorem bitAt_slices {N i : Nat} (hi : i < N) (m : Nat) : ∀ X, bitAt (slices N m X) i = lane N m X i := by
  induction m with
  | zero => intro X; rfl
  | succ m ih =>
    intro X
    have h : (Nat.land X (full N)).testBit i = X.testBit i := low_testBit hi
    rw [lane_cons, ← ih, slices, bitAt, List.map_cons, h]
    rfl

theorem slices_length (N m X : Nat) : (slices N m X).length = m := by
  induction m generalizing X with
  | zero => rfl
  | succ m ih => simp [slices, ih]

/-! ### Comparing and adding -/

/-- The lanes in which `A < B`, or `A = B` and `lt`. -/
def ltS : List Nat → List Nat → Nat → Nat
  | a :: A, b :: B, lt => ltS A B (Nat.xor lt (Nat.land (Nat.xor a b) (Nat.xor lt b)))
  | _, _, lt => lt

theorem ltS_ok (i : Nat) : ∀ (A B : List Nat) (lt : Nat), A.length = B.length →
    ((ltS A B lt).testBit i = true ↔ numAt A i < numAt B i ∨ numAt A i = numAt B i ∧ lt.testBit i = true) := by
  intro A
  induction A with
  | nil => intro B lt h; cases B <;> simp_all [ltS, numAt, bitAt, natOf]
  | cons a A ih =>
    intro B lt h
    cases B with
    | nil => simp at h
    | cons b B =>
      rw [ltS, ih B _ (by simpa using h)]
      have hx : (Nat.xor lt (Nat.land (Nat.xor a b) (Nat.xor lt b))).testBit i =
          xor (lt.testBit i) (xor (a.testBit i) (b.testBit i) && xor (lt.testBit i) (b.testBit i)) := by
        show (lt ^^^ ((a ^^^ b) &&& (lt ^^^ b))).testBit i = _
        rw [Nat.testBit_xor, Nat.testBit_and, Nat.testBit_xor, Nat.testBit_xor]
      rw [hx]
      have ha : numAt (a :: A) i = 2 * numAt A i + (a.testBit i).toNat := rfl
      have hb : numAt (b :: B) i = 2 * numAt B i + (b.testBit i).toNat := rfl
      rw [ha, hb]
      cases a.testBit i <;> cases b.testBit i <;> cases lt.testBit i <;> simp <;> omega

/-- The sums, with the carries in front. -/
def addS : List Nat → List Nat → Nat → List Nat
  | a :: A, b :: B, c =>
    Nat.xor (Nat.xor a b) c :: addS A B (Nat.xor (Nat.land a b) (Nat.land c (Nat.xor a b)))
  | _, _, c => [c]

theorem addS_ok (i : Nat) : ∀ (A B : List Nat) (c : Nat), A.length = B.length →
    numAt (addS A B c) i = numAt A i + numAt B i + (c.testBit i).toNat := by
  intro A
  induction A with
  | nil => intro B c h; cases B <;> simp_all [addS, numAt, bitAt, natOf]
  | cons a A ih =>
    intro B c h
    cases B with
    | nil => simp at h
    | cons b B =>
      rw [addS]
      have h0 : numAt (Nat.xor (Nat.xor a b) c :: addS A B (Nat.xor (Nat.land a b) (Nat.land c (Nat.xor a b)))) i =
        2 * numAt (addS A B (Nat.xor (Nat.land a b) (Nat.land c (Nat.xor a b)))) i + ((Nat.xor (Nat.xor a b) c).testBit i).toNat := rfl
      have hx : (Nat.xor (Nat.xor a b) c).testBit i = xor (xor (a.testBit i) (b.testBit i)) (c.testBit i) := by
        show ((a ^^^ b) ^^^ c).testBit i = _
        rw [Nat.testBit_xor, Nat.testBit_xor]
      have hy : (Nat.xor (Nat.land a b) (Nat.land c (Nat.xor a b))).testBit i =
          xor (a.testBit i && b.testBit i) (c.testBit i && xor (a.testBit i) (b.testBit i)) := by
        show ((a &&& b) ^^^ (c &&& (a ^^^ b))).testBit i = _
        rw [Nat.testBit_xor, Nat.testBit_and, Nat.testBit_and, Nat.testBit_xor]
      have ha : numAt (a :: A) i = 2 * numAt A i + (a.testBit i).toNat := rfl
      have hb : numAt (b :: B) i = 2 * numAt B i + (b.testBit i).toNat := rfl
      rw [h0, ih B _ (by simpa using h), hx, hy, ha, hb]
      cases a.testBit i <;> cases b.testBit i <;> cases c.testBit i <;> simp <;> omega

theorem addS_length : ∀ (A B : List Nat) (c : Nat), A.length = B.length → (addS A B c).length = A.length + 1 := by
  intro A
  induction A with
  | nil => intro B c h; cases B <;> simp_all [addS]
  | cons a A ih =>
    intro B c h
    cases B with
    | nil => simp at h
    | cons b B => simp [addS, ih B _ (by simpa using h)]

/-- The same number in all of the lowest `N` lanes. -/
def constS (N : Nat) : Nat → Nat → List Nat
  | 0, _ => []
  | m + 1, v => (bif Nat.beq (Nat.mod v 2) 1 then full N else 0) :: constS N m (Nat.div v 2)

theorem constS_length (N m v : Nat) : (constS N m v).length = m := by
  induction m generalizing v with
  | zero => rfl
  | succ m ih => simp [constS, ih]

theorem constS_ok (N i : Nat) (hi : i < N) (m : Nat) : ∀ v, v < 2 ^ m → numAt (constS N m v) i = v := by
  induction m with
  | zero => intro v h; simp [constS, numAt, bitAt, natOf]; omega
  | succ m ih =>
    intro v h
    have h0 : numAt (constS N (m + 1) v) i = 2 * numAt (constS N m (v / 2)) i +
      ((bif Nat.beq (v % 2) 1 then full N else 0).testBit i).toNat := rfl
    rw [h0, ih (v / 2) (by rw [Nat.pow_succ] at h; omega)]
    rcases Nat.mod_two_eq_zero_or_one v with hv | hv
    · rw [hv]
      have : Nat.beq 0 1 = false := rfl
      rw [this, cond_false, Nat.zero_testBit, Bool.toNat_false]; omega
    · rw [hv]
      have : Nat.beq 1 1 = true := rfl
      rw [this, cond_true, full_testBit]
      simp [hi]; omega

/-- The registers of the lanes from `s` on. -/
def dropS (s : Nat) (S : List Nat) : List Nat := S.map (Nat.shiftRight · s)

theorem numAt_dropS (s i : Nat) (S : List Nat) : numAt (dropS s S) i = numAt S (i + s) := by
  unfold numAt bitAt dropS
  rw [List.map_map]
  congr 2
  funext a
  show (a >>> s).testBit i = _
  rw [Nat.testBit_shiftRight, Nat.add_comm]

theorem dropS_length (s : Nat) (S : List Nat) : (dropS s S).length = S.length := by simp [dropS]

/-- The registers increase from lane to lane. -/
def incS (N : Nat) (S : List Nat) : Bool := Nat.beq (Nat.land (ltS S (dropS 1 S) 0) (full (N - 1))) (full (N - 1))

theorem incS_ok {N : Nat} {S : List Nat} (h : incS N S = true) {i j : Nat} (hij : i < j) (hj : j < N) :
    numAt S i < numAt S j := by
  have step : ∀ i, i + 1 < N → numAt S i < numAt S (i + 1) := by
    intro i hi
    have := of_full (Nat.eq_of_beq_eq_true h) (i := i) (by omega)
    rw [ltS_ok i S _ 0 (by rw [dropS_length]), numAt_dropS] at this
    simpa using this
  induction j with
  | zero => omega
  | succ j ih =>
    by_cases he : i = j
    · subst he; exact step i hj
    · exact Nat.lt_trans (ih (by omega) (by omega)) (step j hj)

end IMU.Crc
