import Verif.Proofs.SortBase
import Verif.Model.SortEffects
import Verif.Spec.SortEffects

/-!
# Computations that differ in private memory only; counting
-/

namespace IMU
open Utils

/-- Objects that the one computation may use as it likes, and what it keeps true of them. -/
structure Priv where
  objs : Nat → Prop
  inv : Mem → Prop
  concerns : Spec.Concerns objs inv

instance : CoeFun Priv fun _ => Nat → Prop := ⟨Priv.objs⟩

/-- Nothing is private. -/
def Priv.none : Priv := ⟨fun _ => False, fun _ => True, fun _ _ _ _ _ => trivial⟩

/-- The memories agree on every byte object outside `P`, and what is to be true of `P` is so in the second. -/
def AgreeOff (P : Priv) (m m' : Mem) : Prop := (∀ b, ¬ P b → m'.bytes b = m.bytes b) ∧ P.inv m'

theorem AgreeOff.refl {P : Priv} {m : Mem} (h : P.inv m) : AgreeOff P m m := ⟨fun _ _ => rfl, h⟩

theorem AgreeOff.upd {P : Priv} {m m' : Mem} (h : AgreeOff P m m') {b : Nat} (hb : ¬ P b) (s : List Byte) :
    AgreeOff P (m.upd b s) (m'.upd b s) := by
  refine ⟨fun c hc => ?_, P.concerns m' _ (fun c hc => ?_) rfl h.2⟩
  · simp only [Mem.upd_bytes]
    split
    · rfl
    · exact h.1 c hc
  · simp only [Mem.upd_bytes]
    rw [if_neg]
    rintro rfl
    exact hb hc

/-- Whenever `x` succeeds, `y` succeeds with the same value, on memories that agree outside `P`. -/
def Sim {α : Type} (P : Priv) (x y : C α) : Prop :=
  ∀ m m' a m1, AgreeOff P m m' → x m = .ok a m1 → ∃ m1', y m' = .ok a m1' ∧ AgreeOff P m1 m1'

variable {P : Priv} {α β : Type}

theorem Sim.pure (a : α) : Sim P (pure a : C α) (pure a) := by
  intro m m' a' m1 h hx
  simp only [C.pure_run, Res.ok.injEq] at hx ⊢
  obtain ⟨rfl, rfl⟩ := hx
  exact ⟨m', ⟨rfl, rfl⟩, h⟩

theorem Sim.bind {x y : C α} {f g : α → C β} (h : Sim P x y) (hf : ∀ a, Sim P (f a) (g a)) :
    Sim P (x >>= f) (y >>= g) := by
  intro m m' b m2 hm hx
  rw [C.bind_run] at hx
  cases he : x m with
  | ub e => rw [he] at hx; simp at hx
  | ok a m1 =>
    rw [he] at hx
    obtain ⟨m1', h1, h2⟩ := h m m' a m1 hm he
    obtain ⟨m2', h3, h4⟩ := hf a m1 m1' b m2 h2 hx
    exact ⟨m2', by rw [C.bind_run, h1]; exact h3, h4⟩

theorem Sim.ite {c : Prop} [Decidable c] {x y x' y' : C α} (h : Sim P x y) (h' : Sim P x' y') :
    Sim P (if c then x else x') (if c then y else y') := by
  split
  · exact h
  · exact h'

theorem Sim.ub (e e' : UB) : Sim P (C.ub e : C α) (C.ub e') := by
  intro m m' a m1 _ hx; cases hx

theorem Sim.forN {σ : Type} (n : Nat) : ∀ (i : Nat) (f g : Nat → σ → C σ) (s : σ), (∀ i s, Sim P (f i s) (g i s)) →
    Sim P (forN n i f s) (forN n i g s) := by
  induction n with
  | zero => intro i f g s _; exact Sim.pure s
  | succ n ih => intro i f g s h; exact Sim.bind (h i s) (fun s => ih (i + 1) f g s h)

theorem Sim.forDown {σ : Type} (n : Nat) : ∀ (f g : Nat → σ → C σ) (s : σ), (∀ i s, Sim P (f i s) (g i s)) →
    Sim P (forDown n f s) (forDown n g s) := by
  induction n with
  | zero => intro f g s _; exact Sim.pure s
  | succ n ih => intro f g s h; exact Sim.bind (h n s) (fun s => ih f g s h)

theorem Sim.i32 (x : Int) : Sim P (i32 x) (i32 x) := by
  unfold IMU.i32; exact Sim.ite (Sim.pure x) (Sim.ub _ _)

theorem Sim.load {p : Ptr} (hp : ¬ P p.blk) : Sim P (load p) (load p) := by
  intro m m' a m1 h hx
  unfold IMU.load at hx ⊢
  rw [h.1 p.blk hp]
  split at hx
  · rename_i h0
    rw [if_pos h0]
    split at hx
    · rename_i v hv
      simp only [Res.ok.injEq] at hx
      obtain ⟨rfl, rfl⟩ := hx
      exact ⟨m', rfl, h⟩
    · simp at hx
  · simp at hx

theorem Sim.store {p : Ptr} (hp : ¬ P p.blk) (v : Byte) : Sim P (store p v) (store p v) := by
  intro m m' a m1 h hx
  unfold IMU.store at hx ⊢
  rw [h.1 p.blk hp]
  split at hx
  · rename_i h0
    rw [if_pos h0]
    simp only [Res.ok.injEq, true_and] at hx
    subst hx
    exact ⟨_, rfl, h.upd hp _⟩
  · simp at hx

theorem Sim.loadN {p : Ptr} (hp : ¬ P p.blk) (n : Nat) : Sim P (loadN p n) (loadN p n) := by
  intro m m' a m1 h hx
  unfold IMU.loadN at hx ⊢
  rw [h.1 p.blk hp]
  split at hx
  · rename_i h0
    rw [if_pos h0]
    simp only [Res.ok.injEq] at hx
    obtain ⟨rfl, rfl⟩ := hx
    exact ⟨m', rfl, h⟩
  · rename_i h0
    rw [if_neg h0]
    split at hx
    · rename_i h1
      rw [if_pos h1]
      simp only [Res.ok.injEq] at hx
      obtain ⟨rfl, rfl⟩ := hx
      exact ⟨m', rfl, h⟩
    · simp at hx

theorem Sim.storeN {p : Ptr} (hp : ¬ P p.blk) (s : List Byte) : Sim P (storeN p s) (storeN p s) := by
  intro m m' a m1 h hx
  unfold IMU.storeN at hx ⊢
  rw [h.1 p.blk hp]
  split at hx
  · rename_i h0
    rw [if_pos h0]
    simp only [Res.ok.injEq, true_and] at hx
    subst hx
    exact ⟨m', rfl, h⟩
  · rename_i h0
    rw [if_neg h0]
    split at hx
    · rename_i h1
      rw [if_pos h1]
      simp only [Res.ok.injEq, true_and] at hx
      subst hx
      exact ⟨_, rfl, h.upd hp _⟩
    · simp at hx

theorem Sim.memcpy {p q : Ptr} (hp : ¬ P p.blk) (hq : ¬ P q.blk) (n : Nat) : Sim P (memcpy p q n) (memcpy p q n) :=
  Sim.ite (Sim.ub _ _) (Sim.bind (Sim.loadN hq n) (fun s => Sim.storeN hp s))

theorem Sim.swapElements {p q : Ptr} (hp : ¬ P p.blk) (hq : ¬ P q.blk) (size : U32) :
    Sim P (swapElements p q size) (swapElements p q size) :=
  Sim.forDown _ _ _ _ fun i _ => Sim.bind (Sim.load (p := p.addN i) hp) fun _ =>
    Sim.bind (Sim.load (p := q.addN i) hq) fun _ => Sim.bind (Sim.store (p := p.addN i) hp _) fun _ =>
      Sim.store (p := q.addN i) hq _

/-! ### Counting: the length of the log `w` -/

/-- Between `lo` and `hi` entries are added to the log `w`. -/
def Calls (w : Nat) (x : C α) (lo hi : Nat) : Prop :=
  ∀ m a m1, x m = .ok a m1 → (m.words w).length + lo ≤ (m1.words w).length ∧
    (m1.words w).length ≤ (m.words w).length + hi

variable {w : Nat}

theorem Calls.mono {x : C α} {lo hi lo' hi' : Nat} (h : Calls w x lo hi) (h1 : lo' ≤ lo) (h2 : hi ≤ hi') :
    Calls w x lo' hi' := fun m a m1 hx => by have := h m a m1 hx; omega

theorem Calls.pure (a : α) : Calls w (pure a : C α) 0 0 := by
  intro m a m1 hx
  simp only [C.pure_run, Res.ok.injEq] at hx
  obtain ⟨-, rfl⟩ := hx
  omega

theorem Calls.bind {x : C α} {f : α → C β} {lo hi lo' hi' : Nat} (h : Calls w x lo hi) (hf : ∀ a, Calls w (f a) lo' hi') :
    Calls w (x >>= f) (lo + lo') (hi + hi') := by
  intro m b m2 hx
  rw [C.bind_run] at hx
  cases he : x m with
  | ub e => rw [he] at hx; simp at hx
  | ok a m1 =>
    rw [he] at hx
    have h1 := h m a m1 he
    have h2 := hf a m1 b m2 hx
    omega

/-- First something that is not counted. -/
theorem Calls.bind0 {x : C α} {f : α → C β} {lo hi : Nat} (h : Calls w x 0 0) (hf : ∀ a, Calls w (f a) lo hi) :
    Calls w (x >>= f) lo hi := (Calls.bind h hf).mono (by omega) (by omega)

theorem Calls.ite {c : Prop} [Decidable c] {x y : C α} {lo hi : Nat} (h : Calls w x lo hi) (h' : Calls w y lo hi) :
    Calls w (if c then x else y) lo hi := by
  split
  · exact h
  · exact h'

theorem Calls.ub (e : UB) (lo hi : Nat) : Calls w (C.ub e : C α) lo hi := by
  intro m a m1 hx; cases hx

/-- Everything that does not touch word objects. -/
theorem Calls.of_words {x : C α} (h : ∀ m a m1, x m = .ok a m1 → m1.words = m.words) : Calls w x 0 0 := by
  intro m a m1 hx; rw [h m a m1 hx]; omega

theorem Calls.forN {σ : Type} (n : Nat) : ∀ (i : Nat) (f : Nat → σ → C σ) (s : σ) (lo hi : Nat),
    (∀ i s, Calls w (f i s) lo hi) → Calls w (forN n i f s) (n * lo) (n * hi) := by
  induction n with
  | zero => intro i f s lo hi _; exact (Calls.pure s).mono (by omega) (by omega)
  | succ n ih =>
    intro i f s lo hi h
    refine (Calls.bind (h i s) (fun s => ih (i + 1) f s lo hi h)).mono ?_ ?_
    · rw [Nat.succ_mul]; omega
    · rw [Nat.succ_mul]; omega

theorem Calls.forDown {σ : Type} (n : Nat) : ∀ (f : Nat → σ → C σ) (s : σ) (lo hi : Nat),
    (∀ i s, Calls w (f i s) lo hi) → Calls w (forDown n f s) (n * lo) (n * hi) := by
  induction n with
  | zero => intro f s lo hi _; exact (Calls.pure s).mono (by omega) (by omega)
  | succ n ih =>
    intro f s lo hi h
    refine (Calls.bind (h n s) (fun s => ih f s lo hi h)).mono ?_ ?_
    · rw [Nat.succ_mul]; omega
    · rw [Nat.succ_mul]; omega

theorem Calls.i32 (x : Int) : Calls w (i32 x) 0 0 := by
  unfold IMU.i32; exact Calls.ite (Calls.pure x) (Calls.ub _ _ _)

theorem Calls.load (p : Ptr) : Calls w (load p) 0 0 := .of_words fun m a m1 hx => by
  unfold IMU.load at hx
  repeat' split at hx
  all_goals first
    | (simp only [Res.ok.injEq] at hx; rw [hx.2])
    | (cases hx; done)

theorem Calls.store (p : Ptr) (v : Byte) : Calls w (store p v) 0 0 := .of_words fun m a m1 hx => by
  unfold IMU.store at hx
  split at hx
  · simp only [Res.ok.injEq] at hx; rw [← hx.2]; rfl
  · cases hx

theorem Calls.loadN (p : Ptr) (n : Nat) : Calls w (loadN p n) 0 0 := .of_words fun m a m1 hx => by
  unfold IMU.loadN at hx
  repeat' split at hx
  all_goals first
    | (simp only [Res.ok.injEq] at hx; rw [hx.2])
    | (cases hx; done)

theorem Calls.storeN (p : Ptr) (s : List Byte) : Calls w (storeN p s) 0 0 := .of_words fun m a m1 hx => by
  unfold IMU.storeN at hx
  repeat' split at hx
  · simp only [Res.ok.injEq] at hx; rw [hx.2]
  · simp only [Res.ok.injEq] at hx; rw [← hx.2]; rfl
  · cases hx

theorem Calls.memcpy (p q : Ptr) (n : Nat) : Calls w (memcpy p q n) 0 0 :=
  Calls.ite (Calls.ub _ _ _) (Calls.bind (Calls.loadN q n) (fun s => Calls.storeN p s))

theorem Calls.swapElements (p q : Ptr) (size : U32) : Calls w (swapElements p q size) 0 0 :=
  (Calls.forDown _ _ _ 0 0 fun _ _ => Calls.bind (Calls.load _) fun _ => Calls.bind (Calls.load _) fun _ =>
    Calls.bind (Calls.store _ _) fun _ => Calls.store _ _).mono (by omega) (by omega)

end IMU
