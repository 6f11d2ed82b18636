import Verif.Proofs.MapInterruptLists

namespace IMU.Map
open Spec

/-- A handler that does nothing. -/
def idle : Handler := fun map => pure (false, map)

theorem memcpy_split {dst src : Ptr} {n : Nat} {m m' : Mem} (S : Nat → Bool) (h : memcpy dst src n m = .ok () m') :
    ∃ m1, memcpyPart S dst src n m = .ok () m1 ∧ memcpyPart (fun i => !S i) dst src n m1 = .ok () m' := by
  unfold memcpy at h
  split at h
  · simp [C.ub] at h
  · rename_i hov
    by_cases hn : n = 0
    · subst hn
      simp [C.bind_run, loadN, storeN] at h
      subst h
      exact ⟨m, by simp [memcpyPart, hov, C.bind_run, loadN, storeN], by simp [memcpyPart, hov, C.bind_run, loadN, storeN]⟩
    · simp only [C.bind_run] at h
      unfold loadN at h
      rw [if_neg hn] at h
      split at h
      swap
      · simp at h
      rename_i s mm hs
      split at hs
      swap
      · simp at hs
      rename_i hsrc
      simp only [Res.ok.injEq] at hs
      obtain ⟨rfl, rfl⟩ := hs
      have hlen : (slice (m.bytes src.blk) src.off.toNat n).length = n := slice_length _ _ _ (by omega)
      unfold storeN at h
      rw [if_neg (fun e => by rw [e] at hlen; simp at hlen; omega)] at h
      split at h
      swap
      · simp at h
      rename_i hdst
      rw [hlen] at hdst
      obtain ⟨sb, so⟩ := src
      obtain ⟨db, dof⟩ := dst
      simp only at hsrc hdst
      obtain ⟨so, rfl⟩ := Int.eq_ofNat_of_zero_le hsrc.1
      obtain ⟨dof, rfl⟩ := Int.eq_ofNat_of_zero_le hdst.1
      simp only [Int.toNat_natCast, Res.ok.injEq, true_and] at h hlen
      have hno : db ≠ sb ∨ dof + n ≤ so ∨ so + n ≤ dof := by
        by_cases e : db = sb
        · subst e
          have := hov
          rw [overlaps_ptr] at this
          simp at this
          omega
        · exact .inl e
      have hd : dof + n ≤ (m.bytes db).length := by omega
      have hs : so + n ≤ (m.bytes sb).length := by omega
      have h1 := memcpyPart_ok (m := m) S hd hs hno
      have hl1 : (mixed S (slice (m.bytes sb) so n) (slice (m.bytes db) dof n)).length = n := by
        rw [mixed_length]; exact slice_length _ _ _ hd
      set m1 := m.upd db (splice (m.bytes db) dof (mixed S (slice (m.bytes sb) so n) (slice (m.bytes db) dof n))) with hm1
      have hL : ∀ x, (m1.bytes x).length = (m.bytes x).length := fun x => length_upd_splice (by omega) x
      have h2 := memcpyPart_ok (m := m1) (fun i => !S i) (b := db) (o := dof) (b' := sb) (o' := so) (n := n)
        (by rw [hL]; exact hd) (by rw [hL]; exact hs) hno
      refine ⟨m1, h1, ?_⟩
      rw [h2]
      have e1 : slice (m1.bytes sb) so n = slice (m.bytes sb) so n :=
        slice_upd_apart (by omega) (by omega)
      have e2 : slice (m1.bytes db) dof n = mixed S (slice (m.bytes sb) so n) (slice (m.bytes db) dof n) :=
        slice_upd_same (by omega) hl1
      rw [e1, e2, mixed_rest _ _ _ (by rw [hlen, slice_length _ _ _ hd]), ← h, hm1]
      simp only [Res.ok.injEq, true_and]
      apply Mem.ext'
      · intro x
        simp only [Mem.upd_bytes]
        by_cases hx : x = db
        · simp only [hx, if_true]
          apply List.ext_getElem?
          intro i
          rw [getElem?_splice _ _ _ (by rw [splice_length _ _ _ (by omega)]; omega), getElem?_splice _ _ _ (by omega),
            getElem?_splice _ _ _ (by omega), hl1, hlen]
          split
          · rfl
          · split
            · rfl
            · rfl
        · simp only [if_neg hx]
      · intro x; rfl

theorem loop_ge (map : MapT) (key : Ptr) : ∀ (r : Nat) (i : Int) (m m' : Mem) (x : Int), 0 ≤ i →
    getIndexLoop map key r i m = .ok x m' → x = -1 ∨ i ≤ x := by
  intro r
  induction r with
  | zero => intro i m m' x _ h; simp [getIndexLoop] at h; exact .inl h.1.symm
  | succ r ih =>
    intro i m m' x hi h
    simp only [getIndexLoop, C.bind_run] at h
    split at h
    swap
    · simp at h
    split at h
    swap
    · simp at h
    split at h
    · simp at h; exact .inr (by omega)
    · rcases ih _ _ _ _ (by omega) h with h | h
      · exact .inl h
      · exact .inr (by omega)

theorem loop_split (map : MapT) (key : Ptr) (b : Nat) : ∀ (a : Nat) (i : Int) (m m' : Mem) (x : Int), 0 ≤ i →
    getIndexLoop map key (a + b) i m = .ok x m' →
    ∃ y, getIndexLoop map key a i m = .ok y m ∧
      (y ≠ -1 → x = y ∧ m' = m) ∧ (y = -1 → getIndexLoop map key b (i + a) m = .ok x m') := by
  intro a
  induction a with
  | zero =>
    intro i m m' x _ h
    refine ⟨-1, rfl, fun h => absurd rfl h, fun _ => ?_⟩
    rw [Nat.zero_add] at h
    simpa using h
  | succ a ih =>
    intro i m m' x hi h
    rw [show a + 1 + b = a + b + 1 by omega] at h
    simp only [getIndexLoop, C.bind_run] at h ⊢
    cases h1 : i32 (i * map.key_size) m with
    | ub e => rw [h1] at h; simp at h
    | ok s m1 =>
      have e1 := Props.i32_mem _ _ _ _ h1
      subst e1
      rw [h1] at h; simp only at h ⊢
      cases h2 : memeq (map.keys.addZ s) key (toSizeT map.key_size) m1 with
      | ub e => rw [h2] at h; simp at h
      | ok t m2 =>
        have e2 := Props.memeq_mem _ _ _ _ _ _ h2
        subst e2
        rw [h2] at h; simp only at h ⊢
        cases t with
        | true =>
          simp only [if_true, C.pure_run, Res.ok.injEq] at h ⊢
          exact ⟨i, by simp, fun _ => ⟨h.1.symm, h.2.symm⟩, fun h => by omega⟩
        | false =>
          simp only [Bool.false_eq_true, if_false] at h ⊢
          obtain ⟨y, g1, g2, g3⟩ := ih _ _ _ _ (by omega) h
          refine ⟨y, g1, g2, fun hy => ?_⟩
          have := g3 hy
          rw [show i + ((a + 1 : Nat) : Int) = i + 1 + (a : Int) by omega]
          exact this

theorem getIndexInt_idle {p : Option Nat} {map : MapT} {key : Ptr} {m m' : Mem} {x : Int}
    (h : getIndex map key map.current_size m = .ok x m') : getIndexInt p idle map key m = .ok (x, false, map) m' := by
  cases p with
  | none => simp only [getIndexInt, C.bind_run, h, C.pure_run]
  | some k =>
    unfold getIndex at h
    have hsz : map.current_size.toNat = min k map.current_size.toNat + (map.current_size.toNat - k) := by omega
    rw [hsz] at h
    obtain ⟨y, g1, g2, g3⟩ := loop_split map key _ _ _ _ _ _ (by omega) h
    simp only [getIndexInt]
    rw [C.bind_ok g1]
    have hi : idle map m = .ok (false, map) m := rfl
    rw [C.bind_ok hi]
    by_cases hy : y ≠ -1
    · simp only [if_pos hy]
      obtain ⟨rfl, rfl⟩ := g2 hy
      rfl
    · simp only [if_neg hy]
      have := g3 (by omega)
      rw [Int.zero_add] at this
      rw [C.bind_ok this]
      rfl

theorem copyInt_idle {p : Option (Nat → Bool)} {map : MapT} {dst src : Ptr} {k : Nat} {m m' : Mem}
    (h : memcpy dst src k m = .ok () m') : copyInt p idle false map dst src k m = .ok (false, map) m' := by
  cases p with
  | none => simp only [copyInt, C.bind_run, h, C.pure_run]
  | some S =>
    obtain ⟨m1, h1, h2⟩ := memcpy_split S h
    simp only [copyInt]
    have hi : idle map m1 = .ok (false, map) m1 := rfl
    rw [C.bind_ok h1, C.bind_ok hi, C.bind_ok h2]
    rfl

theorem insertInt_idle (p : Point) {map : MapT} {key value : Ptr} {m m' : Mem} {r : Bool} {map' : Option MapT}
    (h : insert (some map) key value m = .ok (r, map') m') :
    ∃ mp, map' = some mp ∧ insertInt p idle map key value m = .ok (false, r, mp) m' := by
  simp only [insert, C.bind_run] at h
  cases h1 : getIndex map key map.current_size m with
  | ub e => rw [h1] at h; simp at h
  | ok x m1 =>
    rw [h1] at h; simp only at h
    simp only [insertInt]
    rw [C.bind_ok (getIndexInt_idle h1)]
    by_cases hx : x = -1
    · simp only [if_pos hx] at h ⊢
      by_cases hc : map.current_size ≠ map.max_map_size
      · simp only [if_pos hc] at h ⊢
        simp only [C.bind_run] at h
        cases h2 : i32 (map.current_size * map.key_size) m1 with
        | ub e => rw [h2] at h; simp at h
        | ok o2 m2 =>
          rw [h2] at h; simp only at h
          cases h3 : memcpy (map.keys.addZ o2) key (toSizeT map.key_size) m2 with
          | ub e => rw [h3] at h; simp at h
          | ok u3 m3 =>
            rw [h3] at h; simp only at h
            cases h4 : i32 (map.current_size * map.value_size) m3 with
            | ub e => rw [h4] at h; simp at h
            | ok o4 m4 =>
              rw [h4] at h; simp only at h
              cases h5 : memcpy (map.values.addZ o4) value (toSizeT map.value_size) m4 with
              | ub e => rw [h5] at h; simp at h
              | ok u5 m5 =>
                rw [h5] at h; simp only at h
                cases h6 : i32 (map.current_size + 1) m5 with
                | ub e => rw [h6] at h; simp at h
                | ok o6 m6 =>
                  rw [h6] at h
                  simp only [C.pure_run, Res.ok.injEq, Prod.mk.injEq] at h
                  obtain ⟨⟨rfl, rfl⟩, rfl⟩ := h
                  refine ⟨_, rfl, ?_⟩
                  have hi : ∀ mm, idle map mm = .ok (false, map) mm := fun _ => rfl
                  have hp : ∀ mm, (pure (false, map) : C (Bool × MapT)) mm = .ok (false, map) mm := fun _ => rfl
                  cases p <;>
                  · simp only
                    first | rw [C.bind_ok (hi m1)] | rw [C.bind_ok (hp m1)]
                    simp only
                    rw [C.bind_ok h2, C.bind_ok (copyInt_idle h3)]
                    simp only
                    rw [C.bind_ok h4, C.bind_ok (copyInt_idle h5)]
                    simp only
                    first | rw [C.bind_ok (hi m5)] | rw [C.bind_ok (hp m5)]
                    simp only
                    rw [C.bind_ok h6]
                    rfl
      · simp only [if_neg hc] at h ⊢
        simp only [C.pure_run, Res.ok.injEq, Prod.mk.injEq] at h
        obtain ⟨⟨rfl, rfl⟩, rfl⟩ := h
        exact ⟨_, rfl, rfl⟩
    · simp only [if_neg hx] at h ⊢
      simp only [C.bind_run] at h
      cases h4 : i32 (x * map.value_size) m1 with
      | ub e => rw [h4] at h; simp at h
      | ok o4 m4 =>
        rw [h4] at h; simp only at h
        cases h5 : memcpy (map.values.addZ o4) value (toSizeT map.value_size) m4 with
        | ub e => rw [h5] at h; simp at h
        | ok u5 m5 =>
          rw [h5] at h
          simp only [C.pure_run, Res.ok.injEq, Prod.mk.injEq] at h
          obtain ⟨⟨rfl, rfl⟩, rfl⟩ := h
          refine ⟨_, rfl, ?_⟩
          rw [C.bind_ok h4, C.bind_ok (copyInt_idle h5)]
          rfl

theorem getValueInt_idle (p : Point) {map : MapT} {key value : Ptr} {m m' : Mem} {r : Bool}
    (h : getValue (some map) key value m = .ok r m') :
    getValueInt p idle map key value m = .ok (false, r, map) m' := by
  simp only [getValue, C.bind_run] at h
  cases h1 : getIndex map key map.current_size m with
  | ub e => rw [h1] at h; simp at h
  | ok x m1 =>
    rw [h1] at h; simp only at h
    simp only [getValueInt]
    rw [C.bind_ok (getIndexInt_idle h1)]
    by_cases hx : x ≠ -1
    · simp only [if_pos hx] at h ⊢
      simp only [C.bind_run] at h
      cases h4 : i32 (x * map.value_size) m1 with
      | ub e => rw [h4] at h; simp at h
      | ok o4 m4 =>
        rw [h4] at h; simp only at h
        cases h5 : memcpy value (map.values.addZ o4) (toSizeT map.value_size) m4 with
        | ub e => rw [h5] at h; simp at h
        | ok u5 m5 =>
          rw [h5] at h
          simp only [C.pure_run, Res.ok.injEq] at h
          obtain ⟨rfl, rfl⟩ := h
          rw [C.bind_ok h4, C.bind_ok (copyInt_idle h5)]
          rfl
    · simp only [if_neg hx] at h ⊢
      simp only [C.pure_run, Res.ok.injEq] at h
      obtain ⟨rfl, rfl⟩ := h
      rfl

end IMU.Map
