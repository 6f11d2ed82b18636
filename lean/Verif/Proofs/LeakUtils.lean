import Verif.Proofs.LeakJson
import Verif.Proofs.Utils
import Verif.Model.LeakUtils
import Verif.Spec.LeakNumber

/-!
# What reading a number shows
-/

namespace IMU.Utils
open T Spec Spec.LeakNumber
open Base64 (Reads)
open Json (reads_tail reads_drop reads_take)

/-! ### The observed code is the code -/

theorem load_same {p : Ptr} {m m' : Mem} {v : Byte} (h : load p m = .ok v m') : m' = m := by
  unfold load at h
  split at h
  · split at h
    · injection h with _ h; exact h.symm
    · exact absurd h (by simp)
  · exact absurd h (by simp)

theorem erase_isDigit (cs : Bool) (p : Ptr) : erase (isDigitT cs p) = (do
    let c ← load p
    return decide (48 ≤ charVal cs c ∧ charVal cs c ≤ 57)) := by
  simp only [isDigitT, erase_bind, erase_load, erase_branch, erase_ite, erase_pure, pure_bind_C]
  funext m
  simp only [C.bind_run]
  cases h : load p m with
  | ub e => rfl
  | ok c m' =>
    obtain rfl := load_same h
    by_cases h48 : 48 ≤ charVal cs c
    · simp [h48, C.bind_run, h]
    · simp [h48]

theorem constAt_pow {e : Byte} (h : e.toNat < 10) : Base64.constAt pow10 e.toNat = pure (pow10[e.toNat]'(by simpa [pow10] using h)) := by
  unfold Base64.constAt
  rw [List.getElem?_eq_getElem (by simpa [pow10] using h)]

theorem erase_pow (e : Byte) (old : U32) : erase (quickUint32Pow10T e old) = pure (quickUint32Pow10 e old) := by
  simp only [quickUint32Pow10T, erase_bind, erase_branch, erase_ite, erase_pure, pure_bind_C, erase_constAt, quickUint32Pow10]
  by_cases h : e.toNat < 10
  · rw [if_pos (decide_eq_true h), constAt_pow h, dif_pos h, pure_bind_C]; rfl
  · rw [if_neg (by simpa using h), dif_neg h]

theorem erase_leave (n : Nat) : erase (leaveT n) = pure () := by
  unfold leaveT
  simp only [erase_bind, erase_branch, erase_ite, erase_pure, pure_bind_C]
  split <;> rfl

theorem erase_loop (cs : Bool) (str : Ptr) (length : Byte) (n : Nat) : ∀ (i : Nat) (acc : U32),
    erase (stringLoopT cs str length n i acc) = stringLoop cs str length n i acc := by
  induction n with
  | zero => intro i acc; rfl
  | succ n ih =>
    intro i acc
    simp only [stringLoopT, erase_bind, erase_branch, erase_ite, erase_pure, pure_bind_C, erase_isDigit, erase_load,
      erase_pow, erase_leave, ih, stringLoop]
    funext m
    simp only [C.bind_run]
    cases h : load (str.addN i) m with
    | ub e => rfl
    | ok c m' =>
      obtain rfl := load_same h
      by_cases hd : 48 ≤ charVal cs c ∧ charVal cs c ≤ 57
      · simp [hd, C.bind_run, h]
      · simp [hd]

theorem erase_stringToUint32 (cs : Bool) (str : Ptr) (n : Byte) :
    erase (stringToUint32T cs str n) = stringToUint32 cs str n := by
  simp only [stringToUint32T, erase_bind, erase_branch, erase_ite, erase_pure, pure_bind_C, erase_isDigit, erase_load,
    erase_loop, stringToUint32]
  congr 1
  funext r m
  cases hc : (n == 10#8)
  · simp
  · cases hr : r.1
    · simp
    · simp only [Bool.and_self, if_true, C.bind_run]
      cases h : load (str.addN 9) m with
      | ub e => rfl
      | ok c m' =>
        obtain rfl := load_same h
        by_cases hd : 48 ≤ charVal cs c ∧ charVal cs c ≤ 57
        · simp only [hd, and_self, decide_true, if_true, C.bind_run, h, C.pure_run]
          simp only [decide_eq_true_eq]
          by_cases h1 : r.2 > 0xFFFFFFFF#32 / 10#32
          · rw [if_pos h1, if_pos (Or.inl h1)]
          · rw [if_neg h1]
            by_cases h2 : r.2 = 0xFFFFFFFF#32 / 10#32
            · rw [if_pos h2]
              by_cases h3 : (c - 48#8).signExtend 32 > 0xFFFFFFFF#32 % 10#32
              · rw [if_pos h3, if_pos (Or.inr ⟨h2, h3⟩)]
              · rw [if_neg h3, if_neg (fun e => e.elim h1 (fun e => h3 e.2))]
            · rw [if_neg h2, if_neg (fun e => e.elim h1 (fun e => h2 e.1))]
        · simp [hd]

/-! ### The exact list -/

/-- One character. -/
def charShown (cs : Bool) (b o : Nat) (c : Byte) : List Leak :=
  match side cs c with
  | .below => [.read (ptr b o), .branch false]
  | .digit => [.read (ptr b o), .branch true, .read (ptr b o), .branch true]
  | .above => [.read (ptr b o), .branch true, .read (ptr b o), .branch false]

/-- The loop, with at most nine characters. -/
def loopShown (cs : Bool) (b : Nat) : Nat → List Byte → List Leak
  | _, [] => [.branch false]
  | o, c :: s => .branch true :: .branch true :: (charShown cs b o c ++
      if IsDigit c then .read (ptr b o) :: .branch true :: .table s.length :: loopShown cs b (o + 1) s
      else [.branch true, .branch false])

/-- The comparison with `2^32`. -/
def levelShown (l : Nat) : List Leak :=
  if l = 0 then [.branch false, .branch false]
  else if l = 1 then [.branch false, .branch true, .branch false]
  else if l = 2 then [.branch false, .branch true, .branch true]
  else [.branch true]

/-- A text of ten characters. -/
def tenShown (cs : Bool) (b o : Nat) (p : List Byte) (c : Byte) : List Leak :=
  .branch true :: (loopShown cs b o p ++ .branch true :: .branch (decide (∀ x ∈ p, IsDigit x)) ::
    if ∀ x ∈ p, IsDigit x then
      charShown cs b (o + 9) c ++ if IsDigit c then .read (ptr b (o + 9)) :: levelShown (level (decimal (p ++ [c]))) else []
    else [])

/-- A text of more than ten characters. -/
def longShown (cs : Bool) (b o : Nat) (c : Byte) : List Leak :=
  .branch false :: .branch true :: .branch true :: (charShown cs b o c ++
    if IsDigit c then [.read (ptr b o), .branch false, .branch true, .branch false, .branch false]
    else [.branch true, .branch false, .branch false])

/-- The whole function. -/
def numShown (cs : Bool) (b o : Nat) (s : List Byte) : List Leak :=
  if s.length < 10 then .branch false :: (loopShown cs b o s ++ [.branch false])
  else if s.length = 10 then tenShown cs b o (s.take 9) (s.getD 9 0#8)
  else longShown cs b o (s.getD 0 0#8)

theorem side_digit (cs : Bool) (c : Byte) : side cs c = .digit ↔ IsDigit c := by
  unfold side; split <;> rename_i h
  · simp [h]
  · split <;> simp [h]

theorem runs_isDigit (cs : Bool) {m : Mem} {b o : Nat} {c : Byte} (h : load (ptr b o) m = .ok c m) :
    Runs (isDigitT cs (ptr b o)) m (decide (IsDigit c)) (charShown cs b o c) m := by
  unfold isDigitT charShown side
  by_cases hd : IsDigit c
  · have hv := (charVal_digit cs c).2 hd
    rw [decide_eq_true hd, if_pos hd]
    refine Runs.bind (t := [_]) (u := [_, _, _]) (Runs.load h) (Runs.bind (t := [_]) (u := [_, _])
      (Runs.branchv (decide_eq_true hv.1) m) ?_)
    exact Runs.bind (t := [_]) (u := [_]) (Runs.load h) (Runs.branchv (decide_eq_true hv.2) m)
  · rw [decide_eq_false hd, if_neg hd]
    have hv : ¬ (48 ≤ charVal cs c ∧ charVal cs c ≤ 57) := fun e => hd ((charVal_digit cs c).1 e)
    by_cases hlt : charVal cs c < 48
    · rw [if_pos hlt]
      refine Runs.bind (t := [_]) (u := [_]) (Runs.load h) (Runs.bind (t := [_]) (u := [])
        (Runs.branchv (decide_eq_false (by omega)) m) ?_)
      exact Runs.pure _ _
    · rw [if_neg hlt]
      refine Runs.bind (t := [_]) (u := [_, _, _]) (Runs.load h) (Runs.bind (t := [_]) (u := [_, _])
        (Runs.branchv (decide_eq_true (by omega)) m) ?_)
      exact Runs.bind (t := [_]) (u := [_]) (Runs.load h) (Runs.branchv (decide_eq_false (by omega)) m)

theorem runs_pow {e : Byte} (old : U32) (h : e.toNat < 10) (m : Mem) :
    Runs (quickUint32Pow10T e old) m (true, BitVec.ofNat 32 (10 ^ e.toNat)) [.branch true, .table e.toNat] m := by
  have hp := pow10_eq e old h
  unfold quickUint32Pow10 at hp
  rw [dif_pos h] at hp
  refine Runs.bind (t := [_]) (u := [_]) (Runs.branchv (decide_eq_true h) m) ?_
  rw [if_pos rfl]
  refine Runs.bind (m1 := m) (t := [_]) (u := []) (a := pow10[e.toNat]'(by simpa [pow10] using h)) ?_ ?_
  · refine Runs.bind (t := [_]) (u := []) (Runs.emit _ m) (Runs.quiet ?_)
    rw [List.getElem?_eq_getElem (by simpa [pow10] using h)]; rfl
  · have e2 := (Prod.mk.inj hp).2
    rw [← e2]; exact Runs.pure _ _

theorem runs_pow_big {e : Byte} (old : U32) (h : ¬ e.toNat < 10) (m : Mem) :
    Runs (quickUint32Pow10T e old) m (false, old) [.branch false] m := by
  refine Runs.bind (t := [_]) (u := []) (Runs.branchv (decide_eq_false h) m) ?_
  exact Runs.pure _ _

theorem runs_leave (n : Nat) (m : Mem) : Runs (leaveT (n + 1)) m () [.branch true, .branch false] m := by
  refine Runs.bind (t := [_]) (u := [_]) (Runs.branchv (decide_eq_true (by omega)) m) ?_
  rw [if_pos rfl]
  exact Runs.bind (t := [_]) (u := []) (Runs.branch _ m) (Runs.pure _ _)

theorem loop_runs (cs : Bool) {m : Mem} {b o : Nat} {length : Byte} (hL : length.toNat ≤ 9) : ∀ (s : List Byte) (i : Nat) (acc : U32),
    i + s.length = length.toNat → Reads m b (o + i) s →
    ∃ v, Runs (stringLoopT cs (ptr b o) length s.length i acc) m (decide (∀ c ∈ s, IsDigit c), v) (loopShown cs b (o + i) s) m := by
  intro s
  induction s with
  | nil =>
    intro i acc _ _
    exact ⟨acc, Runs.bind (t := [_]) (u := []) (Runs.branch _ m) ((Runs.pure _ _).of_eq rfl)⟩
  | cons c s ih =>
    intro i acc hi hr
    have hl : load ((ptr b o).addN i) m = .ok c m := by rw [ptr_addN]; exact hr.load0
    simp only [List.length_cons] at hi
    simp only [List.length_cons, stringLoopT, loopShown, ptr_addN]
    have hdg := runs_isDigit cs hr.load0
    by_cases hd : IsDigit c
    · have hpw : (length - (BitVec.ofNat 8 i + 1#8)).toNat = s.length := by
        have h1 : length.toNat < 256 := length.isLt
        simp only [BitVec.toNat_sub, BitVec.toNat_add, BitVec.toNat_ofNat]
        norm_num
        omega
      obtain ⟨v, hv⟩ := ih (i + 1) (acc + (c - 48#8).signExtend 32 * BitVec.ofNat 32 (10 ^ s.length)) (by omega)
        (by have := reads_tail hr; rwa [show o + i + 1 = o + (i + 1) by omega] at this)
      have hp := runs_pow (e := length - (BitVec.ofNat 8 i + 1#8)) 0#32 (by omega) m
      rw [hpw] at hp
      refine ⟨v, ?_⟩
      rw [if_pos hd]
      have e1 : decide (∀ x ∈ c :: s, IsDigit x) = decide (∀ x ∈ s, IsDigit x) := by simp [hd]
      rw [e1]
      rw [decide_eq_true hd] at hdg
      refine Runs.bind (t := [_]) (Runs.branch _ m) (Runs.bind (t := [_]) (Runs.branch _ m) (Runs.bind hdg ?_))
      rw [if_pos rfl]
      refine Runs.bind (t := [_]) (Runs.load hr.load0) (Runs.bind (t := [_, _]) hp ?_)
      rw [if_pos rfl]
      exact hv
    · refine ⟨acc, ?_⟩
      rw [if_neg hd]
      have e1 : decide (∀ x ∈ c :: s, IsDigit x) = false := by simp [hd]
      rw [e1]
      rw [decide_eq_false hd] at hdg
      refine Runs.bind (t := [_]) (Runs.branch _ m) (Runs.bind (t := [_]) (Runs.branch _ m) (Runs.bind hdg ?_))
      rw [if_neg Bool.false_ne_true]
      exact Runs.bind (t := [_, _]) (u := []) (runs_leave _ m) (Runs.pure _ _)

theorem long_runs (cs : Bool) {m : Mem} {b o : Nat} {length : Byte} {c : Byte} (hL : 11 ≤ length.toNat)
    (hl : load (ptr b o) m = .ok c m) :
    ∃ v, Runs (stringLoopT cs (ptr b o) length length.toNat 0 0#32) m (false, v)
      (.branch true :: .branch true :: (charShown cs b o c ++
        if IsDigit c then [.read (ptr b o), .branch false, .branch true, .branch false] else [.branch true, .branch false])) m := by
  obtain ⟨n, hn⟩ : ∃ n, length.toNat = n + 1 + 1 := ⟨length.toNat - 2, by omega⟩
  rw [hn]
  simp only [stringLoopT, ptr_addN, Nat.add_zero]
  have hp : ¬ (length - (BitVec.ofNat 8 0 + 1#8)).toNat < 10 := by
    have h1 : length.toNat < 256 := length.isLt
    simp only [BitVec.toNat_sub, BitVec.toNat_add, BitVec.toNat_ofNat]
    norm_num
    omega
  have hdg := runs_isDigit cs hl
  by_cases hd : IsDigit c
  · rw [decide_eq_true hd] at hdg
    rw [if_pos hd]
    refine ⟨0#32 + (c - 48#8).signExtend 32 * 0#32, Runs.bind (t := [_]) (Runs.branch _ m) (Runs.bind (t := [_]) (Runs.branch _ m) (Runs.bind hdg ?_))⟩
    rw [if_pos rfl]
    refine Runs.bind (t := [_]) (u := [_, _, _]) (Runs.load hl) (Runs.bind (t := [_]) (u := [_, _]) (runs_pow_big _ hp m) ?_)
    rw [if_neg Bool.false_ne_true]
    exact Runs.bind (t := [_, _]) (u := []) (runs_leave _ m) (Runs.pure _ _)
  · rw [decide_eq_false hd] at hdg
    rw [if_neg hd]
    refine ⟨0#32, Runs.bind (t := [_]) (Runs.branch _ m) (Runs.bind (t := [_]) (Runs.branch _ m) (Runs.bind hdg ?_))⟩
    rw [if_neg Bool.false_ne_true]
    exact Runs.bind (t := [_, _]) (u := []) (runs_leave _ m) (Runs.pure _ _)

end IMU.Utils
