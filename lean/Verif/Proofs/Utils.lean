import Verif.C.Lemmas
import Verif.Model.Utils
import Verif.Spec.Utils
import Mathlib.Tactic.Ring
import Mathlib.Tactic.Linarith

namespace IMU.Utils
open Spec

/-! ## decimal strings -/

theorem decimal_aux (s : List Byte) (a : Nat) :
    s.foldl (fun acc c => acc * 10 + (c.toNat - 48)) a = a * 10 ^ s.length + decimal s := by
  unfold decimal
  induction s generalizing a with
  | nil => simp
  | cons c s ih =>
    simp only [List.foldl_cons, List.length_cons]
    rw [ih, ih (0 * 10 + (c.toNat - 48))]
    ring

theorem decimal_cons (c : Byte) (s : List Byte) :
    decimal (c :: s) = (c.toNat - 48) * 10 ^ s.length + decimal s := by
  have h := decimal_aux s (0 * 10 + (c.toNat - 48))
  simpa [decimal] using h

theorem decimal_append_singleton (s : List Byte) (c : Byte) :
    decimal (s ++ [c]) = decimal s * 10 + (c.toNat - 48) := by
  simp [decimal, List.foldl_append]

theorem decimal_lt (s : List Byte) (h : ∀ c ∈ s, IsDigit c) : decimal s < 10 ^ s.length := by
  induction s with
  | nil => simp [decimal]
  | cons c s ih =>
    rw [decimal_cons, List.length_cons, Nat.pow_succ]
    have h1 := ih (fun c hc => h c (List.mem_cons_of_mem _ hc))
    have h2 := h c (List.mem_cons_self)
    unfold IsDigit at h2
    have : c.toNat - 48 ≤ 9 := by omega
    nlinarith

theorem charVal_digit (cs : Bool) (c : Byte) :
    (48 ≤ charVal cs c ∧ charVal cs c ≤ 57) ↔ IsDigit c := by
  revert c; cases cs <;> decide +kernel

theorem digit_toNat (c : Byte) (h : IsDigit c) :
    ((c - 48#8).signExtend 32).toNat = c.toNat - 48 := by
  revert c; decide +kernel

theorem pow10_eq (e : Byte) (old : U32) (h : e.toNat < 10) :
    quickUint32Pow10 e old = (true, BitVec.ofNat 32 (10 ^ e.toNat)) := by
  have : ∀ e : Byte, ∀ (h : e.toNat < 10), pow10[e.toNat] = BitVec.ofNat 32 (10 ^ e.toNat) := by
    decide +kernel
  unfold quickUint32Pow10
  rw [dif_pos h, this e h]

theorem slice_succ {α} (l : List α) (i n : Nat) (h : i < l.length) :
    slice l i (n+1) = l[i] :: slice l (i+1) n := by
  unfold slice
  rw [List.drop_eq_getElem_cons h, List.take_succ_cons]

theorem slice_succ_last {α} (l : List α) (i n : Nat) (h : i + n < l.length) :
    slice l i (n+1) = slice l i n ++ [l[i+n]] := by
  unfold slice
  rw [List.take_add_one]
  simp [h]

/-- The loop with at most nine characters. -/
theorem stringLoop_spec (cs : Bool) (m : Mem) (b o : Nat) (length : Byte) (hL : length.toNat ≤ 9)
    (hm : o + length.toNat ≤ (m.bytes b).length) :
    ∀ (n i : Nat) (acc : U32), i + n = length.toNat →
      ((∀ c ∈ slice (m.bytes b) (o+i) n, IsDigit c) →
        acc.toNat + decimal (slice (m.bytes b) (o+i) n) < 2^32 →
        stringLoop cs (ptr b o) length n i acc m =
          .ok (true, BitVec.ofNat 32 (acc.toNat + decimal (slice (m.bytes b) (o+i) n))) m) ∧
      ((¬ ∀ c ∈ slice (m.bytes b) (o+i) n, IsDigit c) →
        ∃ v, stringLoop cs (ptr b o) length n i acc m = .ok (false, v) m) := by
  intro n
  induction n with
  | zero =>
    intro i acc hi
    constructor
    · intro _ _; simp [stringLoop, slice_zero, decimal]
    · intro h; simp [slice_zero] at h
  | succ n ih =>
    intro i acc hi
    have hlt : o + i < (m.bytes b).length := by omega
    rw [slice_succ _ _ _ hlt]
    generalize hc : (m.bytes b)[o+i] = c
    have hload : load ((ptr b o).addN i) m = .ok c m := by
      rw [ptr_addN, load_lt hlt, hc]
    have hpw : (length - (BitVec.ofNat 8 i + 1#8)).toNat = n := by
      have h1 : length.toNat < 256 := length.isLt
      simp only [BitVec.toNat_sub, BitVec.toNat_add, BitVec.toNat_ofNat]
      norm_num
      omega
    have hn10 : n < 10 := by omega
    have hpow : quickUint32Pow10 (length - (BitVec.ofNat 8 i + 1#8)) 0#32 =
        (true, BitVec.ofNat 32 (10 ^ n)) := by
      rw [pow10_eq _ _ (by omega), hpw]
    have hs : (slice (m.bytes b) (o + i + 1) n).length = n := slice_length _ _ _ (by omega)
    have hstep : IsDigit c → stringLoop cs (ptr b o) length (n+1) i acc m =
        stringLoop cs (ptr b o) length n (i+1)
          (acc + (c - 48#8).signExtend 32 * BitVec.ofNat 32 (10^n)) m := by
      intro hd
      have := (charVal_digit cs c).2 hd
      simp only [stringLoop, C.bind_run, hload, this, and_self, if_true, hpow]
    have := ih (i+1) (acc + (c - 48#8).signExtend 32 * BitVec.ofNat 32 (10^n)) (by omega)
    rw [show o + (i+1) = o + i + 1 by omega] at this
    constructor
    · intro hall hb
      have hd : IsDigit c := hall c (List.mem_cons_self)
      rw [hstep hd]
      rw [decimal_cons, hs] at hb ⊢
      have hp9 : 10 ^ n ≤ 10 ^ 8 := Nat.pow_le_pow_right (by norm_num) (by omega)
      have hmul : ((c - 48#8).signExtend 32 * BitVec.ofNat 32 (10^n)).toNat =
          (c.toNat - 48) * 10^n := by
        rw [BitVec.toNat_mul, digit_toNat c hd, BitVec.toNat_ofNat,
          Nat.mod_eq_of_lt (by omega : 10^n < 2^32), Nat.mod_eq_of_lt]
        have : c.toNat - 48 ≤ 9 := by unfold IsDigit at hd; omega
        nlinarith
      have hadd : (acc + (c - 48#8).signExtend 32 * BitVec.ofNat 32 (10^n)).toNat =
          acc.toNat + (c.toNat - 48) * 10^n := by
        rw [BitVec.toNat_add, hmul, Nat.mod_eq_of_lt (by omega)]
      rw [hadd] at this
      rw [this.1 (fun c hc => hall c (List.mem_cons_of_mem _ hc)) (by omega)]
      simp only [Nat.add_assoc]
    · intro hnot
      by_cases hd : IsDigit c
      · rw [hstep hd]
        apply this.2
        intro hall; apply hnot
        intro x hx
        rcases List.mem_cons.1 hx with h | h
        · rw [h]; exact hd
        · exact hall x h
      · refine ⟨acc, ?_⟩
        have : ¬ (48 ≤ charVal cs c ∧ charVal cs c ≤ 57) := fun h => hd ((charVal_digit cs c).1 h)
        simp only [stringLoop, C.bind_run, hload, this, if_false, C.pure_run]

/-- More than ten characters: the first iteration already fails. -/
theorem stringLoop_long (cs : Bool) (m : Mem) (b o : Nat) (length : Byte) (hL : 11 ≤ length.toNat)
    (hm : o + length.toNat ≤ (m.bytes b).length) :
    ∃ v, stringLoop cs (ptr b o) length length.toNat 0 0#32 m = .ok (false, v) m := by
  obtain ⟨n, hn⟩ : ∃ n, length.toNat = n + 1 := ⟨length.toNat - 1, by omega⟩
  rw [hn]
  have hlt : o + 0 < (m.bytes b).length := by omega
  have hload : load ((ptr b o).addN 0) m = .ok ((m.bytes b)[o+0]) m := by
    rw [ptr_addN, load_lt hlt]
  have hp : ¬ (length - (BitVec.ofNat 8 0 + 1#8)).toNat < 10 := by
    have h1 : length.toNat < 256 := length.isLt
    simp only [BitVec.toNat_sub, BitVec.toNat_add, BitVec.toNat_ofNat]
    norm_num
    omega
  simp only [stringLoop, C.bind_run, hload, quickUint32Pow10, hp, dif_neg, not_false_iff,
    Bool.false_eq_true, if_false]
  split <;> exact ⟨_, rfl⟩

theorem stringToUint32_spec (cs : Bool) (m : Mem) (b o : Nat) (len : Byte)
    (hm : o + len.toNat ≤ (m.bytes b).length) :
    ∃ r n, stringToUint32 cs (ptr b o) len m = .ok (r, n) m ∧
      (r = true ↔ len.toNat ≤ 10 ∧ (∀ c ∈ slice (m.bytes b) o len.toNat, IsDigit c) ∧
        decimal (slice (m.bytes b) o len.toNat) < 2^32) ∧
      (r = true → n.toNat = decimal (slice (m.bytes b) o len.toNat)) := by
  have hsl := slice_length _ _ _ hm
  rcases Nat.lt_trichotomy len.toNat 10 with h | h | h
  · have hne : (len == 10#8) = false := by
      rw [beq_eq_false_iff_ne]; intro h'; rw [h'] at h; exact absurd h (by decide)
    have hs := stringLoop_spec cs m b o len (by omega) hm len.toNat 0 0#32 (by omega)
    simp only [Nat.add_zero, BitVec.toNat_zero, Nat.zero_add, Nat.reducePow] at hs
    by_cases hall : ∀ c ∈ slice (m.bytes b) o len.toNat, IsDigit c
    · have hlt : decimal (slice (m.bytes b) o len.toNat) < 4294967296 := by
        have h1 := decimal_lt _ hall
        rw [hsl] at h1
        have h2 : 10 ^ len.toNat ≤ 10 ^ 9 := Nat.pow_le_pow_right (by norm_num) (by omega)
        omega
      refine ⟨true, BitVec.ofNat 32 (decimal (slice (m.bytes b) o len.toNat)), ?_, ?_, ?_⟩
      · simp [stringToUint32, hne, hs.1 hall (by simpa using hlt)]
      · simp only [true_iff]; exact ⟨by omega, hall, hlt⟩
      · intro _; simp only [BitVec.toNat_ofNat]; exact Nat.mod_eq_of_lt (by omega)
    · obtain ⟨v, hv⟩ := hs.2 hall
      refine ⟨false, v, ?_, ?_, ?_⟩
      · simp [stringToUint32, hne, hv]
      · simp only [Bool.false_eq_true, false_iff]; intro h'; exact hall h'.2.1
      · simp
  · have he : (len == 10#8) = true := by
      rw [beq_iff_eq]; exact BitVec.eq_of_toNat_eq (by rw [h]; rfl)
    have hl9 : (len - 1#8).toNat = 9 := by
      have : len = 10#8 := by simpa using he
      subst this; rfl
    have hs := stringLoop_spec cs m b o (len - 1#8) (by omega) (by omega) 9 0 0#32 (by omega)
    simp only [Nat.add_zero, BitVec.toNat_zero, Nat.zero_add] at hs
    rw [h] at hm hsl ⊢
    have hlt9 : o + 9 < (m.bytes b).length := by omega
    have hlast := slice_succ_last (m.bytes b) o 9 hlt9
    simp only [Nat.reduceAdd] at hlast
    rw [hlast]
    generalize hc : (m.bytes b)[o+9] = c
    have hload : load ((ptr b o).addN 9) m = .ok c m := by
      rw [ptr_addN, load_lt hlt9, hc]
    generalize hS : slice (m.bytes b) o 9 = S at hs
    have hSl : S.length = 9 := by rw [← hS]; exact slice_length _ _ _ (by omega)
    rw [decimal_append_singleton]
    by_cases hall : ∀ c ∈ S, IsDigit c
    · have hlt := decimal_lt _ hall
      rw [hSl] at hlt
      have hrun := hs.1 hall (by omega)
      by_cases hd : IsDigit c
      · have hcv := (charVal_digit cs c).2 hd
        have hdig := digit_toNat c hd
        have hall' : ∀ x ∈ S ++ [c], IsDigit x := by
          intro x hx; rcases List.mem_append.1 hx with h | h
          · exact hall x h
          · simp at h; rw [h]; exact hd
        have hc9 : c.toNat - 48 ≤ 9 := by unfold IsDigit at hd; omega
        have hA : (BitVec.ofNat 32 (decimal S)).toNat = decimal S := by
          rw [BitVec.toNat_ofNat, Nat.mod_eq_of_lt (by omega)]
        have hcond : (BitVec.ofNat 32 (decimal S) > 0xFFFFFFFF#32 / 10#32 ∨
            (BitVec.ofNat 32 (decimal S) = 0xFFFFFFFF#32 / 10#32 ∧
              (c - 48#8).signExtend 32 > 0xFFFFFFFF#32 % 10#32)) ↔
            ¬ (decimal S * 10 + (c.toNat - 48) < 2^32) := by
          rw [gt_iff_lt, gt_iff_lt, BitVec.lt_def, BitVec.lt_def, ← BitVec.toNat_inj, hA, hdig]
          rw [show (0xFFFFFFFF#32 / 10#32).toNat = 429496729 from rfl,
            show (0xFFFFFFFF#32 % 10#32).toNat = 5 from rfl]
          omega
        by_cases hov : decimal S * 10 + (c.toNat - 48) < 2^32
        · refine ⟨true, BitVec.ofNat 32 (decimal S) * 10#32 + (c - 48#8).signExtend 32, ?_, ?_, ?_⟩
          · have hn := (not_congr hcond).2 (by simpa using hov)
            simp only [stringToUint32, he, if_true, C.bind_run, hl9, hrun, Bool.and_self, hload,
              hcv, and_self, hn, if_false, C.pure_run]
          · simp only [true_iff]; exact ⟨by omega, hall', hov⟩
          · intro _
            rw [BitVec.toNat_add, BitVec.toNat_mul, hA, hdig,
              show (10#32).toNat = 10 from rfl]
            omega
        · refine ⟨false, BitVec.ofNat 32 (decimal S), ?_, ?_, ?_⟩
          · have hn := hcond.2 hov
            simp only [stringToUint32, he, if_true, C.bind_run, hl9, hrun, Bool.and_self, hload,
              hcv, and_self, hn, C.pure_run]
          · simp only [Bool.false_eq_true, false_iff]; intro h'; exact hov h'.2.2
          · simp
      · have hcv : ¬ (48 ≤ charVal cs c ∧ charVal cs c ≤ 57) := fun h => hd ((charVal_digit cs c).1 h)
        refine ⟨false, BitVec.ofNat 32 (decimal S), ?_, ?_, ?_⟩
        · simp only [stringToUint32, he, if_true, C.bind_run, hl9, hrun, Bool.and_self, hload,
              hcv, if_false, C.pure_run]
        · simp only [Bool.false_eq_true, false_iff]; intro h'
          exact hd (h'.2.1 c (by simp))
        · simp
    · obtain ⟨v, hv⟩ := hs.2 hall
      refine ⟨false, v, ?_, ?_, ?_⟩
      · simp [stringToUint32, he, hl9, hv]
      · simp only [Bool.false_eq_true, false_iff]; intro h'
        exact hall (fun x hx => h'.2.1 x (List.mem_append_left _ hx))
      · simp
  · have hne : (len == 10#8) = false := by
      rw [beq_eq_false_iff_ne]; intro h'; rw [h'] at h; exact absurd h (by decide)
    obtain ⟨v, hv⟩ := stringLoop_long cs m b o len (by omega) hm
    refine ⟨false, v, ?_, ?_, ?_⟩
    · simp [stringToUint32, hne, hv]
    · simp only [Bool.false_eq_true, false_iff]; intro h'; omega
    · simp

end IMU.Utils
