import Verif.Model.Sort
import Verif.C.Lemmas

/-! # Sorts of arrays whose offsets exceed `int32_t` -/

namespace IMU.Sort
open Utils

/-- Whatever happens, it is not for want of rounds. -/
def NoFuel {α} (x : C α) : Prop := ∀ m, x m ≠ .ub .fuel

theorem NoFuel.pure {α} (a : α) : NoFuel (Pure.pure a : C α) := by intro m h; cases h

theorem NoFuel.bind {α β} {x : C α} {f : α → C β} (hx : NoFuel x) (hf : ∀ a, NoFuel (f a)) : NoFuel (x >>= f) := by
  intro m h
  rw [C.bind_run] at h
  split at h
  · exact hf _ _ h
  · rename_i e he
    cases h
    exact hx m he

theorem NoFuel.ite {α} {c : Prop} [Decidable c] {x y : C α} (hx : NoFuel x) (hy : NoFuel y) : NoFuel (if c then x else y) := by
  split
  · exact hx
  · exact hy

theorem NoFuel.forN {σ} {body : Nat → σ → C σ} (hb : ∀ k s, NoFuel (body k s)) (n i : Nat) (s : σ) : NoFuel (forN n i body s) := by
  induction n generalizing i s with
  | zero => exact NoFuel.pure s
  | succ n ih => exact NoFuel.bind (hb i s) (fun s' => ih (i + 1) s')

theorem NoFuel.forDown {σ} {body : Nat → σ → C σ} (hb : ∀ k s, NoFuel (body k s)) (n : Nat) (s : σ) : NoFuel (forDown n body s) := by
  induction n generalizing s with
  | zero => exact NoFuel.pure s
  | succ n ih => exact NoFuel.bind (hb n s) (fun s' => ih s')

theorem noFuel_i32 (x : Int) : NoFuel (i32 x) := by
  intro m h
  unfold i32 at h
  split at h
  · cases h
  · cases h

theorem noFuel_load (p : Ptr) : NoFuel (load p) := by
  intro m h
  unfold load at h
  split at h
  · split at h <;> cases h
  · cases h

theorem noFuel_store (p : Ptr) (v : Byte) : NoFuel (store p v) := by
  intro m h
  unfold store at h
  split at h <;> cases h

theorem noFuel_loadN (p : Ptr) (n : Nat) : NoFuel (loadN p n) := by
  intro m h
  unfold loadN at h
  split at h
  · cases h
  · split at h <;> cases h

theorem noFuel_storeN (p : Ptr) (s : List Byte) : NoFuel (storeN p s) := by
  intro m h
  unfold storeN at h
  split at h
  · cases h
  · split at h <;> cases h

theorem noFuel_memcpy (p q : Ptr) (n : Nat) : NoFuel (memcpy p q n) := by
  unfold memcpy
  split
  · intro m h; cases h
  · exact NoFuel.bind (noFuel_loadN _ _) (fun s => noFuel_storeN _ _)

theorem noFuel_elemAt (p : Ptr) (sz i : Int) : NoFuel (elemAt p sz i) :=
  NoFuel.bind (noFuel_i32 _) (fun _ => NoFuel.pure _)

theorem noFuel_compareFun (cmp : Cmp) (sz : Int) (p q : Ptr) : NoFuel (compareFun cmp sz p q) :=
  NoFuel.bind (noFuel_loadN _ _) (fun _ => NoFuel.bind (noFuel_loadN _ _) (fun _ => NoFuel.pure _))

theorem noFuel_compareAt (cmp : Cmp) (p : Ptr) (sz i j : Int) : NoFuel (compareAt cmp p sz i j) :=
  NoFuel.bind (noFuel_elemAt _ _ _) (fun _ => NoFuel.bind (noFuel_elemAt _ _ _) (fun _ => noFuel_compareFun _ _ _ _))

theorem noFuel_swapElements (p q : Ptr) (sz : U32) : NoFuel (swapElements p q sz) := by
  unfold swapElements
  exact NoFuel.forDown (fun k s => NoFuel.bind (noFuel_load _) (fun _ => NoFuel.bind (noFuel_load _) (fun _ =>
    NoFuel.bind (noFuel_store _ _) (fun _ => noFuel_store _ _)))) _ _

theorem noFuel_swapElems (p : Ptr) (sz i j : Int) : NoFuel (swapElems p sz i j) :=
  NoFuel.bind (noFuel_elemAt _ _ _) (fun _ => NoFuel.bind (noFuel_elemAt _ _ _) (fun _ => noFuel_swapElements _ _ _))

/-- A computation that does not end well has undefined behaviour. -/
theorem ub_of {α} {x : C α} {m : Mem} (hf : x m ≠ .ub .fuel) (hn : ∀ a m', x m ≠ .ok a m') : ∃ e, x m = .ub e ∧ e ≠ .fuel := by
  cases h : x m with
  | ok a m' => exact absurd h (hn a m')
  | ub e => exact ⟨e, rfl, fun he => hf (by rw [h, he])⟩

theorem bind_of_ok {α β} {x : C α} {f : α → C β} {m m' : Mem} {b : β} (h : (x >>= f) m = .ok b m') :
    ∃ a m1, x m = .ok a m1 ∧ f a m1 = .ok b m' := by
  rw [C.bind_run] at h
  split at h
  · rename_i a m1 he; exact ⟨a, m1, he, h⟩
  · cases h

theorem forN_of_ok {σ} {body : Nat → σ → C σ} (n : Nat) : ∀ {i : Nat} {s s' : σ} {m m' : Mem},
    forN n i body s m = .ok s' m' → ∀ k, i ≤ k → k < i + n → ∃ s1 m1 s2 m2, body k s1 m1 = .ok s2 m2 := by
  induction n with
  | zero => intro i s s' m m' _ k h1 h2; omega
  | succ n ih =>
    intro i s s' m m' h k h1 h2
    obtain ⟨s1, m1, a1, a2⟩ := bind_of_ok (x := body i s) (f := fun s => forN n (i + 1) body s) h
    by_cases hk : k = i
    · subst hk; exact ⟨s, m, s1, m1, a1⟩
    · exact ih a2 k (by omega) (by omega)

theorem i32_of_ok {x y : Int} {m m' : Mem} (h : i32 x m = .ok y m') : x ≤ 2147483647 := by
  unfold i32 at h
  split at h
  · rename_i hc; exact hc.2
  · cases h

theorem elemAt_of_ok {p r : Ptr} {sz i : Int} {m m' : Mem} (h : elemAt p sz i m = .ok r m') : i * sz ≤ 2147483647 := by
  obtain ⟨k, m1, a1, -⟩ := bind_of_ok h
  exact i32_of_ok a1

theorem compareAt_of_ok {cmp : Cmp} {p : Ptr} {sz i j : Int} {m m' : Mem} {r : Bool} (h : compareAt cmp p sz i j m = .ok r m') :
    i * sz ≤ 2147483647 ∧ j * sz ≤ 2147483647 := by
  obtain ⟨k, m1, a1, a2⟩ := bind_of_ok h
  obtain ⟨k2, m2, b1, -⟩ := bind_of_ok a2
  exact ⟨elemAt_of_ok a1, elemAt_of_ok b1⟩

end IMU.Sort
