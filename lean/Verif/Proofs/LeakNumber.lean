import Verif.Proofs.LeakUtils

/-!
# What reading a number shows: the whole function, and what can be told from it
-/

namespace IMU.Utils
open T Spec Spec.LeakNumber
open Base64 (Reads)
open Json (reads_tail reads_drop reads_take)

theorem levelShown_zero {v : Nat} (h : v < 4294967290) : levelShown (level v) = [.branch false, .branch false] := by
  rw [show level v = 0 by unfold level; rw [if_pos h]]; rfl
theorem levelShown_one {v : Nat} (h : ¬ v < 4294967290) (h2 : v < 4294967296) :
    levelShown (level v) = [.branch false, .branch true, .branch false] := by
  rw [show level v = 1 by unfold level; rw [if_neg h, if_pos h2]]; rfl
theorem levelShown_two {v : Nat} (h : ¬ v < 4294967296) (h2 : v < 4294967300) :
    levelShown (level v) = [.branch false, .branch true, .branch true] := by
  rw [show level v = 2 by unfold level; rw [if_neg (by omega), if_neg h, if_pos h2]]; rfl
theorem levelShown_three {v : Nat} (h : ¬ v < 4294967300) : levelShown (level v) = [.branch true] := by
  rw [show level v = 3 by unfold level; rw [if_neg (by omega), if_neg (by omega), if_neg h]]; rfl

theorem slice_reads {m : Mem} {b o n : Nat} (h : o + n ≤ (m.bytes b).length) : Reads m b o (slice (m.bytes b) o n) := by
  intro i hi
  rw [slice_length _ _ _ h] at hi
  unfold slice
  rw [List.getElem?_take, if_pos hi, List.getElem?_drop]

theorem number_runs (cs : Bool) {m : Mem} {b o : Nat} {n : Byte} (hm : o + n.toNat ≤ (m.bytes b).length) :
    ∃ r, Runs (stringToUint32T cs (ptr b o) n) m r (numShown cs b o (slice (m.bytes b) o n.toNat)) m := by
  have hsl : (slice (m.bytes b) o n.toNat).length = n.toNat := slice_length _ _ _ hm
  have hR : Reads m b o (slice (m.bytes b) o n.toNat) := slice_reads hm
  unfold numShown stringToUint32T
  rw [hsl]
  rcases Nat.lt_trichotomy n.toNat 10 with h | h | h
  · have hne : (n == 10#8) = false := by
      rw [beq_eq_false_iff_ne]; intro h'; rw [h'] at h; exact absurd h (by decide)
    obtain ⟨v, hv⟩ := loop_runs (o := o) cs (length := n) (by omega) (slice (m.bytes b) o n.toNat) 0 0#32 (by omega) hR
    rw [hsl] at hv
    rw [if_pos h]
    refine ⟨(decide (∀ c ∈ slice (m.bytes b) o n.toNat, IsDigit c), v), Runs.bind (t := [_]) (Runs.branchv hne m) (Runs.bind (u := [_]) hv ?_)⟩
    exact Runs.bind (t := [_]) (u := []) (Runs.branch _ m) (Runs.pure _ _)
  · have he : (n == 10#8) = true := by
      rw [beq_iff_eq]; exact BitVec.eq_of_toNat_eq (by rw [h]; rfl)
    have hl9 : (n - 1#8).toNat = 9 := by
      have : n = 10#8 := by simpa using he
      subst this; rfl
    rw [if_neg (by omega), if_pos h]
    rw [h] at hsl hR hm ⊢
    have hlast := slice_succ_last (m.bytes b) o 9 (by omega)
    simp only [Nat.reduceAdd] at hlast
    have hS9 : (slice (m.bytes b) o 9).length = 9 := slice_length _ _ _ (by omega)
    have htk : (slice (m.bytes b) o 10).take 9 = slice (m.bytes b) o 9 := by
      rw [hlast]; exact List.take_left' hS9
    have hgd : (slice (m.bytes b) o 10).getD 9 0#8 = (m.bytes b)[o + 9] := by
      rw [hlast, List.getD_eq_getElem?_getD, List.getElem?_append_right (by omega), hS9]; rfl
    rw [htk, hgd]
    have hld : load (ptr b (o + 9)) m = .ok ((m.bytes b)[o + 9]) m := load_lt (by omega)
    obtain ⟨v, hv⟩ := loop_runs (m := m) (b := b) (o := o) cs (length := n - 1#8) (by omega) (slice (m.bytes b) o 9) 0 0#32 (by omega)
      (slice_reads (by omega))
    rw [hS9] at hv
    have hs := stringLoop_spec cs m b o (n - 1#8) (by omega) (by omega) 9 0 0#32 (by omega)
    simp only [Nat.add_zero, BitVec.toNat_zero, Nat.zero_add] at hs hv
    generalize (m.bytes b)[o + 9] = c at hld
    generalize slice (m.bytes b) o 9 = S at hs hv hS9
    unfold tenShown
    simp only [ptr_addN]
    by_cases hall : ∀ x ∈ S, IsDigit x
    · have hlt := decimal_lt _ hall
      rw [hS9] at hlt
      have hval := hs.1 hall (by omega)
      rw [← erase_loop, Runs.erase hv] at hval
      have hv2 : v = BitVec.ofNat 32 (decimal S) := by
        injection hval with e _
        exact (Prod.mk.inj e).2
      rw [decide_eq_true hall] at hv ⊢
      rw [if_pos hall]
      have hA : v.toNat = decimal S := by rw [hv2, BitVec.toNat_ofNat, Nat.mod_eq_of_lt (by omega)]
      have hdg := runs_isDigit cs hld
      by_cases hd : IsDigit c
      · rw [decide_eq_true hd] at hdg
        rw [if_pos hd]
        have hdig := digit_toNat c hd
        have hc9 : c.toNat - 48 ≤ 9 := by unfold IsDigit at hd; omega
        have d1 : v > 0xFFFFFFFF#32 / 10#32 ↔ ¬ decimal (S ++ [c]) < 4294967300 := by
          rw [decimal_append_singleton, gt_iff_lt, BitVec.lt_def, hA, show (0xFFFFFFFF#32 / 10#32).toNat = 429496729 from rfl]
          omega
        have d2 : v = 0xFFFFFFFF#32 / 10#32 ↔ decimal S = 429496729 := by
          rw [← BitVec.toNat_inj, hA, show (0xFFFFFFFF#32 / 10#32).toNat = 429496729 from rfl]
        have d3 : (c - 48#8).signExtend 32 > 0xFFFFFFFF#32 % 10#32 ↔ 5 < c.toNat - 48 := by
          rw [gt_iff_lt, BitVec.lt_def, hdig, show (0xFFFFFFFF#32 % 10#32).toNat = 5 from rfl]
        have hsum := decimal_append_singleton S c
        have fin : ∃ r, Runs (do
            let b ← T.branch (decide (v > 0xFFFFFFFF#32 / 10#32))
            if b then return (false, v)
            else
              let b ← T.branch (decide (v = 0xFFFFFFFF#32 / 10#32))
              if b then
                let b ← T.branch (decide ((c - 48#8).signExtend 32 > 0xFFFFFFFF#32 % 10#32))
                if b then return (false, v)
                else return (true, v * 10#32 + (c - 48#8).signExtend 32)
              else return (true, v * 10#32 + (c - 48#8).signExtend 32)) m r (levelShown (level (decimal (S ++ [c])))) m := by
          by_cases h1 : v > 0xFFFFFFFF#32 / 10#32
          · rw [levelShown_three (d1.1 h1)]
            refine ⟨(false, v), Runs.bind (t := [_]) (u := []) (Runs.branchv (decide_eq_true h1) m) ?_⟩
            exact Runs.pure _ _
          · have h1' := (not_congr d1).1 h1
            by_cases h2 : v = 0xFFFFFFFF#32 / 10#32
            · have h2' := d2.1 h2
              by_cases h3 : (c - 48#8).signExtend 32 > 0xFFFFFFFF#32 % 10#32
              · have h3' := d3.1 h3
                rw [levelShown_two (by omega) (by omega)]
                refine ⟨(false, v), Runs.bind (t := [_]) (u := [_, _]) (Runs.branchv (decide_eq_false h1) m) ?_⟩
                refine Runs.bind (t := [_]) (u := [_]) (Runs.branchv (decide_eq_true h2) m) ?_
                refine Runs.bind (t := [_]) (u := []) (Runs.branchv (decide_eq_true h3) m) ?_
                exact Runs.pure _ _
              · have h3' := (not_congr d3).1 h3
                rw [levelShown_one (by omega) (by omega)]
                refine ⟨(true, v * 10#32 + (c - 48#8).signExtend 32), Runs.bind (t := [_]) (u := [_, _]) (Runs.branchv (decide_eq_false h1) m) ?_⟩
                refine Runs.bind (t := [_]) (u := [_]) (Runs.branchv (decide_eq_true h2) m) ?_
                refine Runs.bind (t := [_]) (u := []) (Runs.branchv (decide_eq_false h3) m) ?_
                exact Runs.pure _ _
            · have h2' := (not_congr d2).1 h2
              rw [levelShown_zero (by omega)]
              refine ⟨(true, v * 10#32 + (c - 48#8).signExtend 32), Runs.bind (t := [_]) (u := [_]) (Runs.branchv (decide_eq_false h1) m) ?_⟩
              refine Runs.bind (t := [_]) (u := []) (Runs.branchv (decide_eq_false h2) m) ?_
              exact Runs.pure _ _
        obtain ⟨r, hr⟩ := fin
        refine ⟨r, Runs.bind (t := [_]) (Runs.branchv he m) ?_⟩
        rw [if_pos rfl, hl9]
        refine Runs.bind hv ?_
        refine Runs.bind (t := [_]) (Runs.branchv rfl m) ?_
        rw [if_pos rfl]
        refine Runs.bind (t := [_]) (Runs.branchv rfl m) ?_
        rw [if_pos rfl]
        refine Runs.bind hdg ?_
        rw [if_pos rfl]
        exact Runs.bind (t := [_]) (Runs.load hld) hr
      · rw [decide_eq_false hd] at hdg
        rw [if_neg hd]
        refine ⟨(false, v), Runs.bind (t := [_]) (Runs.branchv he m) ?_⟩
        rw [if_pos rfl, hl9]
        refine Runs.bind hv ?_
        refine Runs.bind (t := [_]) (Runs.branchv rfl m) ?_
        rw [if_pos rfl]
        refine Runs.bind (t := [_]) (Runs.branchv rfl m) ?_
        rw [if_pos rfl]
        refine Runs.bind hdg ?_
        exact Runs.pure _ _
    · rw [decide_eq_false hall] at hv ⊢
      rw [if_neg hall]
      refine ⟨(false, v), Runs.bind (t := [_]) (Runs.branchv he m) ?_⟩
      rw [if_pos rfl, hl9]
      refine Runs.bind hv ?_
      refine Runs.bind (t := [_]) (u := [_]) (Runs.branchv rfl m) ?_
      rw [if_pos rfl]
      refine Runs.bind (t := [_]) (u := []) (Runs.branchv rfl m) ?_
      exact Runs.pure _ _
  · have hne : (n == 10#8) = false := by
      rw [beq_eq_false_iff_ne]; intro h'; rw [h'] at h; exact absurd h (by decide)
    rw [if_neg (by omega), if_neg (by omega)]
    have hgd : (slice (m.bytes b) o n.toNat).getD 0 0#8 = (m.bytes b)[o] := by
      obtain ⟨k, hk⟩ : ∃ k, n.toNat = k + 1 := ⟨n.toNat - 1, by omega⟩
      rw [hk, slice_succ _ _ _ (by omega)]; rfl
    rw [hgd]
    obtain ⟨v, hv⟩ := long_runs (b := b) (o := o) cs (length := n) (by omega) (load_lt (m := m) (by omega))
    refine ⟨(false, v), (Runs.bind (t := [_]) (Runs.branchv hne m) (Runs.bind (u := [.branch false]) hv ?_)).of_eq ?_⟩
    · exact Runs.bind (t := [_]) (u := []) (Runs.branch _ m) (Runs.pure _ _)
    · unfold longShown
      split <;> simp

/-! ### What can be told -/

theorem char_parse (cs : Bool) (b o : Nat) (c c' : Byte) (x x' : List Leak) :
    charShown cs b o c ++ x = charShown cs b o c' ++ x' ↔ side cs c = side cs c' ∧ x = x' := by
  unfold charShown
  cases side cs c <;> cases side cs c' <;> simp

theorem char_parse1 (cs : Bool) (b o : Nat) (c c' : Byte) (x : List Leak) :
    charShown cs b o c ++ x = charShown cs b o c' ↔ side cs c = side cs c' ∧ x = [] := by
  have := char_parse cs b o c c' x []
  rwa [List.append_nil] at this

theorem char_parse2 (cs : Bool) (b o : Nat) (c c' : Byte) (x : List Leak) :
    charShown cs b o c = charShown cs b o c' ++ x ↔ side cs c = side cs c' ∧ [] = x := by
  have := char_parse cs b o c c' [] x
  rwa [List.append_nil] at this

theorem char_parse3 (cs : Bool) (b o : Nat) (c c' : Byte) :
    charShown cs b o c = charShown cs b o c' ↔ side cs c = side cs c' := by
  have := char_parse cs b o c c' [] []
  simpa using this

theorem loop_parse (cs : Bool) (b : Nat) : ∀ (s s' : List Byte) (o : Nat) (x x' : List Leak), s.length = s'.length →
    (loopShown cs b o s ++ x = loopShown cs b o s' ++ x' ↔ front cs s = front cs s' ∧ x = x') := by
  intro s
  induction s with
  | nil =>
    intro s' o x x' h
    obtain rfl := List.eq_nil_of_length_eq_zero h.symm
    simp [loopShown]
  | cons c s ih =>
    intro s' o x x' h
    cases s' with
    | nil => simp at h
    | cons c' s' =>
      have hl : s.length = s'.length := by simpa using h
      simp only [loopShown, List.cons_append, List.append_assoc, List.cons.injEq, true_and, char_parse, front]
      by_cases hd : IsDigit c
      · by_cases hd' : IsDigit c'
        · simp only [hd, hd', if_true, List.cons_append, List.cons.injEq, true_and, hl, ih s' (o + 1) x x' hl,
            (side_digit cs c).2 hd, (side_digit cs c').2 hd', Prod.mk.injEq, Nat.add_right_cancel_iff, Prod.ext_iff]
        · have h1 : side cs c ≠ side cs c' := by
            rw [(side_digit cs c).2 hd]; exact fun e => hd' ((side_digit cs c').1 e.symm)
          simp [hd, hd', h1]
      · by_cases hd' : IsDigit c'
        · have h1 : side cs c ≠ side cs c' := by
            rw [(side_digit cs c').2 hd']; exact fun e => hd ((side_digit cs c).1 e)
          simp [hd, hd', h1]
        · simp [hd, hd']

theorem front_all (cs : Bool) {s : List Byte} (h : ∀ c ∈ s, IsDigit c) : front cs s = (s.length, none) := by
  induction s with
  | nil => rfl
  | cons c s ih =>
    simp only [front, if_pos (h c (List.mem_cons_self)), ih (fun x hx => h x (List.mem_cons_of_mem _ hx)), List.length_cons]

theorem front_none (cs : Bool) (s : List Byte) : (front cs s).2 = none ↔ ∀ c ∈ s, IsDigit c := by
  induction s with
  | nil => simp [front]
  | cons c s ih =>
    by_cases hd : IsDigit c <;> simp [front, hd, ih]

theorem front_snoc (cs : Bool) (p : List Byte) (c : Byte) : front cs (p ++ [c]) =
    if ∀ x ∈ p, IsDigit x then (if IsDigit c then (p.length + 1, none) else (p.length, some (side cs c))) else front cs p := by
  induction p with
  | nil => simp [front]
  | cons a p ih =>
    by_cases hd : IsDigit a
    · simp only [List.cons_append, front, hd, if_true, ih, List.forall_mem_cons, true_and, List.length_cons]
      by_cases hp : ∀ x ∈ p, IsDigit x
      · rw [if_pos hp, if_pos hp]
        by_cases hc : IsDigit c
        · rw [if_pos hc, if_pos hc]
        · rw [if_neg hc, if_neg hc]
      · rw [if_neg hp, if_neg hp]
    · simp [front, hd]

theorem level_le (v : Nat) : level v ≤ 3 := by
  unfold level
  split
  · omega
  · split
    · omega
    · split <;> omega

theorem level_parse {v v' : Nat} : levelShown (level v) = levelShown (level v') ↔ level v = level v' := by
  constructor
  · intro h
    have h1 := level_le v
    have h2 := level_le v'
    generalize level v = a at *
    generalize level v' = a' at *
    have e1 : a = 0 ∨ a = 1 ∨ a = 2 ∨ a = 3 := by omega
    have e2 : a' = 0 ∨ a' = 1 ∨ a' = 2 ∨ a' = 3 := by omega
    rcases e1 with rfl | rfl | rfl | rfl <;> rcases e2 with rfl | rfl | rfl | rfl <;>
      first | rfl | exact absurd h (by decide)
  · intro h; rw [h]

theorem ten_parse (cs : Bool) (b o : Nat) {p p' : List Byte} (c c' : Byte) (hl : p.length = 9) (hl' : p'.length = 9) :
    tenShown cs b o p c = tenShown cs b o p' c' ↔ front cs (p ++ [c]) = front cs (p' ++ [c']) ∧
      (if ∀ x ∈ p ++ [c], IsDigit x then level (decimal (p ++ [c])) else 0) =
        (if ∀ x ∈ p' ++ [c'], IsDigit x then level (decimal (p' ++ [c'])) else 0) := by
  have hmem : ∀ (q : List Byte) (e : Byte), (∀ x ∈ q ++ [e], IsDigit x) ↔ (∀ x ∈ q, IsDigit x) ∧ IsDigit e := by
    intro q e; simp [or_imp, forall_and]
  unfold tenShown
  simp only [List.cons.injEq, true_and, loop_parse cs b p p' o _ _ (hl.trans hl'.symm), front_snoc, hmem]
  by_cases hp : ∀ x ∈ p, IsDigit x
  · by_cases hp' : ∀ x ∈ p', IsDigit x
    · simp only [if_pos hp, if_pos hp', front_all cs hp, front_all cs hp', hl, hl', List.cons.injEq, true_and,
        eq_true hp, eq_true hp', char_parse]
      by_cases hc : IsDigit c
      · by_cases hc' : IsDigit c'
        · simp [hc, hc', (side_digit cs c).2 hc, (side_digit cs c').2 hc', level_parse, char_parse]
        · have h1 : side cs c ≠ side cs c' := by
            rw [(side_digit cs c).2 hc]; exact fun e => hc' ((side_digit cs c').1 e.symm)
          simp [hc, hc', h1, char_parse1, char_parse2]
      · by_cases hc' : IsDigit c'
        · have h1 : side cs c ≠ side cs c' := by
            rw [(side_digit cs c').2 hc']; exact fun e => hc ((side_digit cs c).1 e)
          simp [hc, hc', h1, char_parse1, char_parse2]
        · simp [hc, hc', char_parse3]
    · have h1 : front cs p ≠ front cs p' := by
        intro e; exact hp' ((front_none cs p').1 (by rw [← e]; exact (front_none cs p).2 hp))
      have h2 : (if IsDigit c then (p.length + 1, (none : Option Side)) else (p.length, some (side cs c))) ≠ front cs p' := by
        intro e
        have : (front cs p').1 < p'.length := by
          clear e h1 hl hl'
          induction p' with
          | nil => simp at hp'
          | cons a q ih =>
            by_cases ha : IsDigit a
            · simp only [front, ha, if_true, List.length_cons]
              have := ih (fun h => hp' (by simpa [ha] using h))
              omega
            · simp [front, ha]
        rw [← e] at this
        split at this <;> simp at this <;> omega
      simp only [if_pos hp, if_neg hp', eq_false h1, eq_false h2, false_and]
  · by_cases hp' : ∀ x ∈ p', IsDigit x
    · have h1 : front cs p ≠ front cs p' := by
        intro e; exact hp ((front_none cs p).1 (by rw [e]; exact (front_none cs p').2 hp'))
      have h2 : front cs p ≠ (if IsDigit c' then (p'.length + 1, (none : Option Side)) else (p'.length, some (side cs c'))) := by
        intro e
        have : (front cs p).1 < p.length := by
          clear e h1 hl hl'
          induction p with
          | nil => simp at hp
          | cons a q ih =>
            by_cases ha : IsDigit a
            · simp only [front, ha, if_true, List.length_cons]
              have := ih (fun h => hp (by simpa [ha] using h))
              omega
            · simp [front, ha]
        rw [e] at this
        split at this <;> simp at this <;> omega
      simp only [if_neg hp, if_pos hp', eq_false h1, eq_false h2, false_and]
    · simp only [if_neg hp, if_neg hp', eq_false hp, eq_false hp', false_and, if_false, and_true]

theorem numShown_iff (cs : Bool) (b o : Nat) (s s' : List Byte) (h : s.length = s'.length) :
    numShown cs b o s = numShown cs b o s' ↔ told cs s = told cs s' := by
  unfold numShown told
  rw [← h]
  by_cases h1 : s.length < 10
  · simp only [if_pos h1, if_neg (show ¬ 10 < s.length by omega), show s.length ≠ 10 by omega, false_and, if_false,
      Prod.mk.injEq, and_true, List.cons.injEq, true_and, loop_parse cs b s s' o _ _ h]
  · by_cases h2 : s.length = 10
    · have hs : s = s.take 9 ++ [s.getD 9 0#8] := by
        have := List.take_append_drop 9 s
        conv_lhs => rw [← this]
        rw [List.drop_eq_getElem_cons (by omega), List.drop_eq_nil_of_le (by omega), List.getD_eq_getElem?_getD, List.getElem?_eq_getElem (by omega)]; rfl
      have hs' : s' = s'.take 9 ++ [s'.getD 9 0#8] := by
        have := List.take_append_drop 9 s'
        conv_lhs => rw [← this]
        rw [List.drop_eq_getElem_cons (by omega), List.drop_eq_nil_of_le (by omega), List.getD_eq_getElem?_getD, List.getElem?_eq_getElem (by omega)]; rfl
      have := ten_parse cs b o (s.getD 9 0#8) (s'.getD 9 0#8) (p := s.take 9) (p' := s'.take 9) (by simp; omega) (by simp; omega)
      rw [← hs, ← hs'] at this
      rw [if_neg h1, if_pos h2, if_neg h1, if_pos h2, this]
      simp only [h2, lt_irrefl, if_false, true_and, Prod.mk.injEq]
    · obtain ⟨c, t, rfl⟩ : ∃ c t, s = c :: t := by cases s with
        | nil => simp at h1
        | cons c t => exact ⟨c, t, rfl⟩
      obtain ⟨c', t', rfl⟩ : ∃ c t, s' = c :: t := by cases s' with
        | nil => simp at h
        | cons c t => exact ⟨c, t, rfl⟩
      have h3 : 10 < (c :: t).length := by omega
      rw [if_neg h1, if_neg h2, if_neg h1, if_neg h2]
      simp only [if_pos h3, h2, false_and, if_false, Prod.mk.injEq, and_true, longShown, List.cons.injEq, true_and, char_parse,
        List.getD_cons_zero, List.take_succ_cons, List.take_zero, front]
      by_cases hd : IsDigit c
      · by_cases hd' : IsDigit c'
        · simp [hd, hd', (side_digit cs c).2 hd, (side_digit cs c').2 hd']
        · simp [hd, hd']
      · by_cases hd' : IsDigit c'
        · simp [hd, hd']
        · simp [hd, hd']

end IMU.Utils
