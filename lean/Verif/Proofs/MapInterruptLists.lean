import Verif.Proofs.MapInterruptRuns

namespace IMU.Map
open Spec

/-- The entries at the first `c` places. -/
def table (fk fv : Nat → Bytes) (c : Nat) : List (Bytes × Bytes) := (List.range c).map fun j => (fk j, fv j)

section
variable {fk fv : Nat → Bytes} {c : Nat}

theorem table_length : (table fk fv c).length = c := by simp [table]

theorem table_get {j : Nat} (h : j < c) : (table fk fv c)[j]? = some (fk j, fv j) := by
  simp [table, h]

theorem table_succ : table fk fv (c + 1) = table fk fv c ++ [(fk c, fv c)] := by
  simp [table, List.range_succ]

theorem table_congr {fk' fv' : Nat → Bytes} (h : ∀ j, j < c → fk' j = fk j ∧ fv' j = fv j) :
    table fk' fv' c = table fk fv c := by
  apply List.map_congr_left
  intro j hj
  rw [List.mem_range] at hj
  rw [(h j hj).1, (h j hj).2]

theorem table_putV {j : Nat} (x : Bytes) : table fk (put fv j x) c = (table fk fv c).set j (fk j, x) := by
  apply List.ext_getElem?
  intro i
  by_cases hi : i < c
  · rw [table_get hi]
    by_cases hij : i = j
    · subst hij
      rw [List.getElem?_set_self (by rw [table_length]; exact hi), put_same]
    · rw [List.getElem?_set_ne (Ne.symm hij), table_get hi, put_ne _ _ hij]
  · rw [List.getElem?_eq_none (by rw [table_length]; omega), List.getElem?_eq_none (by rw [List.length_set, table_length]; omega)]

theorem table_beyond {i j : Nat} (x y : Bytes) (hi : c ≤ i) (hj : c ≤ j) :
    table (put fk i x) (put fv j y) c = table fk fv c :=
  table_congr fun l hl => ⟨put_ne _ _ (by omega), put_ne _ _ (by omega)⟩

theorem valueOf_first {k : Bytes} {j : Nat} (hj : j < c) (hk : fk j = k) (hf : ∀ l, l < j → fk l ≠ k) :
    valueOf (table fk fv c) k = some (fv j) := by
  unfold valueOf
  have : (table fk fv c).find? (fun e => e.1 == k) = some (fk j, fv j) := by
    rw [List.find?_eq_some_iff_getElem]
    refine ⟨by simpa using hk, j, by rw [table_length]; exact hj, ?_, ?_⟩
    · have := table_get (fk := fk) (fv := fv) hj
      rw [List.getElem?_eq_getElem (by rw [table_length]; exact hj)] at this
      exact Option.some.inj this
    · intro l hl
      have := table_get (fk := fk) (fv := fv) (show l < c by omega)
      rw [List.getElem?_eq_getElem (by rw [table_length]; omega)] at this
      rw [Option.some.inj this]
      simpa using hf l hl
  rw [this]; rfl

theorem valueOf_none {k : Bytes} (hf : ∀ l, l < c → fk l ≠ k) : valueOf (table fk fv c) k = none := by
  unfold valueOf
  rw [Option.map_eq_none_iff, List.find?_eq_none]
  intro e he
  simp only [table, List.mem_map, List.mem_range] at he
  obtain ⟨l, hl, rfl⟩ := he
  simpa using hf l hl

theorem table_keys {k : Bytes} : k ∈ (table fk fv c).map Prod.fst ↔ ∃ j, j < c ∧ fk j = k := by
  simp only [table, List.map_map, List.mem_map, List.mem_range, Function.comp]

theorem first_of {k : Bytes} (h : ∃ j, j < c ∧ fk j = k) : ∃ j, j < c ∧ fk j = k ∧ ∀ l, l < j → fk l ≠ k := by
  classical
  obtain ⟨h1, h2⟩ := Nat.find_spec h
  exact ⟨Nat.find h, h1, h2, fun l hl he => Nat.find_min h hl ⟨by omega, he⟩⟩

theorem put_found {n : Nat} {k x : Bytes} {j : Nat} (hj : j < c) (hk : fk j = k)
    (inj : ∀ i l, i < c → l < c → fk i = fk l → i = l) :
    entryPut n (table fk fv c) k x = (true, table fk (put fv j x) c) := by
  unfold entryPut
  rw [if_pos (table_keys.2 ⟨j, hj, hk⟩)]
  congr 1
  simp only [table, List.map_map]
  apply List.map_congr_left
  intro i hi
  rw [List.mem_range] at hi
  simp only [Function.comp]
  by_cases hij : i = j
  · subst hij; rw [if_pos hk, put_same, hk]
  · rw [if_neg (fun h => hij (inj i j hi hj (by rw [h, hk]))), put_ne _ _ hij]

theorem put_new {n : Nat} {k x : Bytes} (hno : ∀ l, l < c → fk l ≠ k) (hc : c < n) :
    entryPut n (table fk fv c) k x = (true, table fk fv c ++ [(k, x)]) := by
  unfold entryPut
  rw [if_neg (fun h => by obtain ⟨j, h1, h2⟩ := table_keys.1 h; exact hno j h1 h2), if_pos (by rw [table_length]; exact hc)]

theorem put_full {n : Nat} {k x : Bytes} (hno : ∀ l, l < c → fk l ≠ k) (hc : c = n) :
    entryPut n (table fk fv c) k x = (false, table fk fv c) := by
  unfold entryPut
  rw [if_neg (fun h => by obtain ⟨j, h1, h2⟩ := table_keys.1 h; exact hno j h1 h2), if_neg (by rw [table_length]; omega)]

end

theorem mixed_swap (S : Nat → Bool) (a b : Bytes) (h : a.length = b.length) :
    mixed (fun i => !S i) a b = mixed S b a := by
  apply List.ext_getElem?; intro i
  rw [mixed_get _ _ _ _ h, mixed_get _ _ _ _ h.symm]
  cases S i <;> simp

theorem mixed_over (S : Nat → Bool) (a b x : Bytes) (h : a.length = b.length) (h' : a.length = x.length) :
    mixed (fun i => !S i) b (mixed S a x) = mixed S a b := by
  apply List.ext_getElem?; intro i
  rw [mixed_get _ _ _ _ (by rw [mixed_length]; omega), mixed_get _ _ _ _ h', mixed_get _ _ _ _ h]
  cases S i <;> simp

end IMU.Map
