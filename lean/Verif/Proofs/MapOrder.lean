import Verif.Proofs.Rollback
import Verif.Spec.MapOrder
import Mathlib.Tactic.ByContra
import Mathlib.Data.List.Perm.Basic

/-! # The log of a map in terms of what was offered -/

namespace IMU.Props
open Spec Utils IMU.Map

theorem mapRun_append (n : Nat) (ops ops' : List MapOp) : ∀ log : List (Bytes × Bytes),
    (mapRun n log (ops ++ ops')).1 = (mapRun n log ops).1 ++ (mapRun n (mapRun n log ops).2 ops').1 ∧
    (mapRun n log (ops ++ ops')).2 = (mapRun n (mapRun n log ops).2 ops').2 := by
  induction ops with
  | nil => intro log; exact ⟨rfl, rfl⟩
  | cons op ops ih =>
    intro log
    obtain ⟨h1, h2⟩ := ih (mapStep n log op).2
    constructor
    · rw [List.cons_append, mapRun, h1, mapRun]; rfl
    · rw [List.cons_append, mapRun, h2, mapRun]

theorem inserted_append (ops ops' : List MapOp) : inserted (ops ++ ops') = inserted ops ++ inserted ops' := by
  induction ops with
  | nil => rfl
  | cons op ops ih => cases op <;> simp [inserted, ih]

theorem firsts_append (ks : List Bytes) (k : Bytes) :
    firsts (ks ++ [k]) = if k ∈ firsts ks then firsts ks else firsts ks ++ [k] := by
  unfold firsts
  rw [List.foldl_append]; rfl

theorem mem_firsts (ks : List Bytes) (k : Bytes) : k ∈ firsts ks ↔ k ∈ ks := by
  induction ks using List.reverseRecOn with
  | nil => simp [firsts]
  | append_singleton ks a ih =>
    rw [firsts_append]
    split
    · rename_i h
      rw [List.mem_append, List.mem_singleton, ih]
      constructor
      · exact .inl
      · rintro (h1 | rfl)
        · exact h1
        · exact ih.1 h
    · rw [List.mem_append, List.mem_append, ih]

theorem firsts_nodup (ks : List Bytes) : (firsts ks).Nodup := by
  induction ks using List.reverseRecOn with
  | nil => simp [firsts]
  | append_singleton ks a ih =>
    rw [firsts_append]
    split
    · exact ih
    · rename_i h
      rw [List.nodup_append]
      refine ⟨ih, by simp, ?_⟩
      rintro x hx y hy rfl
      rw [List.mem_singleton] at hy
      exact h (hy ▸ hx)

/-- The log holds the pairs whose keys are among the first `n`. -/
theorem log_eq (n : Nat) (ops : List MapOp) :
    (mapRun n [] ops).2 = (inserted ops).filter fun e => decide (e.1 ∈ (firsts ((inserted ops).map Prod.fst)).take n) := by
  induction ops using List.reverseRecOn with
  | nil => rfl
  | append_singleton ops op ih =>
    rw [(mapRun_append n ops [op] []).2, inserted_append, List.map_append]
    cases op with
    | get k => simpa [mapRun, mapStep, inserted] using ih
    | ins k v =>
      show (mapStep n (mapRun n [] ops).2 (.ins k v)).2 = _
      set ps := inserted ops with hps
      set ks := ps.map Prod.fst with hks
      have hmem : ∀ x, x ∈ (mapRun n [] ops).2.map Prod.fst ↔ x ∈ (firsts ks).take n := by
        intro x
        rw [ih, List.mem_map]
        constructor
        · rintro ⟨e, he, rfl⟩
          exact of_decide_eq_true (List.mem_filter.1 he).2
        · intro hx
          have hx' : x ∈ ks := (mem_firsts ks x).1 (List.mem_of_mem_take hx)
          obtain ⟨e, he, rfl⟩ := List.mem_map.1 hx'
          exact ⟨e, List.mem_filter.2 ⟨he, by simpa using hx⟩, rfl⟩
      have hcnt : distinctKeys (mapRun n [] ops).2 = ((firsts ks).take n).length := by
        have : ((mapRun n [] ops).2.map Prod.fst).toFinset = ((firsts ks).take n).toFinset := by
          ext x; simp only [List.mem_toFinset]; exact hmem x
        rw [distinctKeys, this, List.toFinset_card_of_nodup ((firsts_nodup ks).sublist (List.take_sublist _ _))]
      have hone : List.map Prod.fst (inserted [MapOp.ins k v]) = [k] := rfl
      rw [hone, firsts_append, show inserted [MapOp.ins k v] = [(k, v)] from rfl, List.filter_append]
      by_cases hin : k ∈ firsts ks
      · rw [if_pos hin, ← ih]
        by_cases ht : k ∈ (firsts ks).take n
        · simp [mapStep, (hmem k).2 ht, ht]
        · have hnl : ¬ ((firsts ks).take n).length < n := by
            intro hl
            rw [List.length_take] at hl
            rw [List.take_of_length_le (by omega)] at ht
            exact ht hin
          rw [← hcnt] at hnl
          simp [mapStep, mt (hmem k).1 ht, ht, hnl]
      · rw [if_neg hin]
        have hnk : k ∉ (firsts ks).take n := fun h => hin (List.mem_of_mem_take h)
        have hold : (ps.filter fun e => decide (e.1 ∈ (firsts ks ++ [k]).take n)) = (mapRun n [] ops).2 := by
          rw [ih]
          apply List.filter_congr
          intro e he
          have hek : e.1 ≠ k := by
            rintro rfl
            exact hin ((mem_firsts ks _).2 (List.mem_map.2 ⟨e, he, rfl⟩))
          rw [List.take_append, decide_eq_decide, List.mem_append]
          constructor
          · rintro (h | h)
            · exact h
            · exact absurd (by simpa using List.mem_of_mem_take h) hek
          · exact .inl
        rw [hold]
        by_cases hroom : (firsts ks).length < n
        · have h1 : k ∈ (firsts ks ++ [k]).take n := by
            rw [List.take_of_length_le (by simp; omega)]; simp
          have h2 : distinctKeys (mapRun n [] ops).2 < n := by rw [hcnt, List.length_take]; omega
          simp [mapStep, h1, h2]
        · have h1 : k ∉ (firsts ks ++ [k]).take n := by
            rw [List.take_append_of_le_length (by omega)]; exact hnk
          have h2 : ¬ distinctKeys (mapRun n [] ops).2 < n := by rw [hcnt, List.length_take]; omega
          simp [mapStep, h1, h2, mt (hmem k).1 hnk]

theorem latest_filter (ps : List (Bytes × Bytes)) (P : Bytes → Bool) (k : Bytes) :
    latest (ps.filter fun e => P e.1) k = if P k then latest ps k else none := by
  induction ps using List.reverseRecOn with
  | nil => simp [latest]
  | append_singleton ps e ih =>
    rw [List.filter_append]
    have hl : latest (ps ++ [e]) k = if e.1 = k then some e.2 else latest ps k := latest_append ps e.1 e.2 k
    rw [hl]
    by_cases hp : P e.1 = true
    · rw [List.filter_cons_of_pos (p := fun e : Bytes × Bytes => P e.1) hp, List.filter_nil, latest_append, ih]
      by_cases hk : e.1 = k
      · subst hk; simp [hp]
      · simp [hk]
    · rw [List.filter_cons_of_neg (p := fun e : Bytes × Bytes => P e.1) hp, List.filter_nil, List.append_nil, ih]
      by_cases hk : e.1 = k
      · subst hk; simp [hp]
      · simp [hk]

/-- Logs with the same latest values behave alike. -/
theorem mapRun_congr (n : Nat) (ops : List MapOp) : ∀ {l1 l2 : List (Bytes × Bytes)},
    (∀ k, latest l1 k = latest l2 k) → (mapRun n l1 ops).1 = (mapRun n l2 ops).1 := by
  induction ops with
  | nil => intro l1 l2 _; rfl
  | cons op ops ih =>
    intro l1 l2 h
    have hkey : ∀ k, k ∈ l1.map Prod.fst ↔ k ∈ l2.map Prod.fst := by
      intro k; rw [← latest_isSome, ← latest_isSome, h]
    have hcnt : distinctKeys l1 = distinctKeys l2 := by
      unfold distinctKeys
      congr 1
      ext k; simp only [List.mem_toFinset]; exact hkey k
    have hstep : (mapStep n l1 op).1 = (mapStep n l2 op).1 ∧
        ∀ k, latest (mapStep n l1 op).2 k = latest (mapStep n l2 op).2 k := by
      cases op with
      | get k => exact ⟨by simp [mapStep, h], h⟩
      | ins k v =>
        simp only [mapStep, hkey k, hcnt]
        split
        · exact ⟨rfl, fun k' => by rw [latest_append, latest_append, h]⟩
        · exact ⟨rfl, h⟩
    rw [mapRun, mapRun, hstep.1, ih hstep.2]

/-- With different keys the order does not matter for the latest values. -/
theorem latest_perm {l1 l2 : List (Bytes × Bytes)} (hp : l1.Perm l2) (hnd : (l1.map Prod.fst).Nodup) (k : Bytes) :
    latest l1 k = latest l2 k := by
  have t1 := tracks_self hnd
  have t2 := tracks_self (es := l2) ((hp.map Prod.fst).nodup_iff.1 hnd)
  apply Option.ext
  intro v
  rw [t1.mem, t2.mem]
  exact hp.mem_iff

section
variable {n ks vs kb ko vb vo : Nat}

/-- The entries lie in the order in which their keys came first. -/
theorem order_all (cs : List MapCall) : ∀ {map : MapT} {m : Mem} {es : List (Bytes × Bytes)} {pre : List MapOp},
    IMU.Map.Rep n ks vs n kb ko vb vo map m es → Tracks (mapRun n [] pre).2 es →
    es.map Prod.fst = (firsts ((inserted pre).map Prod.fst)).take n → (∀ c ∈ cs, c.Valid kb vb ks vs) →
    ∃ os map' m' es', mapExecAll kb vb vs map m cs = .ok (os, map', m') ∧
      IMU.Map.Rep n ks vs n kb ko vb vo map' m' es' ∧
      es'.map Prod.fst = (firsts ((inserted (pre ++ cs.map (·.op ks vs))).map Prod.fst)).take n := by
  induction cs with
  | nil => intro map m es pre h _ hk _; exact ⟨[], map, m, es, rfl, h, by simpa using hk⟩
  | cons c cs ih =>
    intro map m es pre h ht hk hv
    have hvc := hv c List.mem_cons_self
    obtain ⟨map1, m1, es1, h1, h2, h3, -⟩ := map_step h rfl ht c hvc
    obtain ⟨o, map2, m2, es2, g1, g2, g3, -⟩ := map_keys_step h c hvc
    rw [h1] at g1
    simp only [Except.ok.injEq, Prod.mk.injEq] at g1
    obtain ⟨-, rfl, rfl⟩ := g1
    obtain rfl : es1 = es2 := by rw [← entries_eq h2, ← entries_eq g2]
    have ht1 : Tracks (mapRun n [] (pre ++ [c.op ks vs])).2 es1 := by
      rw [(mapRun_append n pre [_] []).2]; exact h3
    have hmem : ∀ k, k ∈ es1.map Prod.fst ↔
        k ∈ (firsts ((inserted (pre ++ [c.op ks vs])).map Prod.fst)).take n := by
      intro k
      rw [← ht1.keys, log_eq, List.mem_map]
      constructor
      · rintro ⟨e, he, rfl⟩
        exact of_decide_eq_true (List.mem_filter.1 he).2
      · intro hx
        have hx' := (mem_firsts _ k).1 (List.mem_of_mem_take hx)
        obtain ⟨e, he, rfl⟩ := List.mem_map.1 hx'
        exact ⟨e, List.mem_filter.2 ⟨he, by simpa using hx⟩, rfl⟩
    have hperm : (es1.map Prod.fst).Perm ((firsts ((inserted (pre ++ [c.op ks vs])).map Prod.fst)).take n) :=
      (List.perm_ext_iff_of_nodup h2.nodup ((firsts_nodup _).sublist (List.take_sublist _ _))).2 hmem
    have hk1 : es1.map Prod.fst = (firsts ((inserted (pre ++ [c.op ks vs])).map Prod.fst)).take n := by
      obtain ⟨t, ht'⟩ := g3
      have hsame : (firsts ((inserted (pre ++ [c.op ks vs])).map Prod.fst)).take n = es.map Prod.fst ∨
          ∃ k, (firsts ((inserted (pre ++ [c.op ks vs])).map Prod.fst)).take n = es.map Prod.fst ++ [k] := by
        rw [inserted_append, List.map_append, hk]
        generalize (inserted pre).map Prod.fst = K
        cases c.op ks vs with
        | get k => left; simp [inserted]
        | ins k v =>
          show (firsts (K ++ [k])).take n = _ ∨ ∃ k', (firsts (K ++ [k])).take n = _
          rw [firsts_append]
          split
          · exact .inl rfl
          · by_cases hl : (firsts K).length < n
            · right
              refine ⟨k, ?_⟩
              rw [List.take_of_length_le (by simp; omega), List.take_of_length_le (by omega)]
            · left
              rw [List.take_append_of_le_length (by omega)]
      rw [← ht'] at hperm ⊢
      rcases hsame with hs | ⟨k, hs⟩
      · rw [hs] at hperm ⊢
        have : t.Perm [] := by
          have := hperm
          rw [← List.append_nil (es.map Prod.fst), List.append_assoc, List.nil_append] at this
          exact (List.perm_append_left_iff _).1 this
        rw [this.eq_nil, List.append_nil]
      · rw [hs] at hperm ⊢
        rw [List.perm_singleton.1 ((List.perm_append_left_iff _).1 hperm)]
    obtain ⟨os, map', m', es', f1, f2, f3⟩ := ih h2 ht1 hk1 fun c hc => hv c (List.mem_cons_of_mem _ hc)
    refine ⟨_ :: os, map', m', es', by simp only [mapExecAll, h1, f1]; rfl, f2, ?_⟩
    rw [f3, List.append_assoc, List.map_cons]; rfl

end

end IMU.Props
