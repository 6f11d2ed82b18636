import Verif.Proofs.Leak

/-!
# Computations that show the same whatever the contents of memory
-/

namespace IMU
namespace T
variable {α β σ : Type}

/-- Whenever `x` succeeds, an observer sees `tr`. -/
def Shows (x : T α) (tr : List Leak) : Prop := ∀ m a t m', x m = .ok (a, t) m' → t = tr

theorem bind_cases {x : T α} {f : α → T β} {m : Mem} {b : β} {t : List Leak} {m' : Mem}
    (h : (x >>= f) m = .ok (b, t) m') :
    ∃ a t1 m1 t2, x m = .ok (a, t1) m1 ∧ f a m1 = .ok (b, t2) m' ∧ t = t1 ++ t2 := by
  change (match x m with
    | .ok (a, t) m' => (match f a m' with | .ok (b, u) m'' => .ok (b, t ++ u) m'' | .ub e => .ub e)
    | .ub e => .ub e : Res (β × List Leak)) = _ at h
  cases hx : x m with
  | ub e => rw [hx] at h; cases h
  | ok at' m1 =>
    obtain ⟨a, t1⟩ := at'
    rw [hx] at h
    simp only at h
    cases hf : f a m1 with
    | ub e => rw [hf] at h; cases h
    | ok bu m2 =>
      obtain ⟨b', t2⟩ := bu
      rw [hf] at h
      simp only [Res.ok.injEq, Prod.mk.injEq] at h
      obtain ⟨⟨rfl, rfl⟩, rfl⟩ := h
      exact ⟨a, t1, m1, t2, rfl, hf, rfl⟩

theorem quiet_cases {x : C α} {m : Mem} {a : α} {t : List Leak} {m' : Mem} (h : quiet x m = .ok (a, t) m') :
    x m = .ok a m' ∧ t = [] := by
  unfold quiet at h
  cases hx : x m with
  | ub e => rw [hx] at h; cases h
  | ok a' m1 =>
    rw [hx] at h
    simp only [Res.ok.injEq, Prod.mk.injEq] at h
    obtain ⟨⟨rfl, rfl⟩, rfl⟩ := h
    exact ⟨rfl, rfl⟩

theorem Shows.pure (a : α) : Shows (pure a : T α) [] := by
  intro m b t m' h
  cases h; rfl

theorem Shows.bind {x : T α} {f : α → T β} {t1 t2 : List Leak} (h : Shows x t1) (hf : ∀ a, Shows (f a) t2) :
    Shows (x >>= f) (t1 ++ t2) := by
  intro m b t m' hx
  obtain ⟨a, u1, m1, u2, h1, h2, rfl⟩ := bind_cases hx
  rw [h m a u1 m1 h1, hf a m1 b u2 m' h2]

theorem Shows.quiet (x : C α) : Shows (quiet x) [] := fun _ _ _ _ h => (quiet_cases h).2

theorem Shows.emit (t : List Leak) : Shows (emit t) t := by
  intro m a u m' h
  cases h; rfl

theorem Shows.branch_bind {b : Bool} {f : Bool → T β} {t : List Leak} (hf : Shows (f b) t) :
    Shows (branch b >>= f) (.branch b :: t) := by
  intro m c u m' hx
  obtain ⟨a, u1, m1, u2, h1, h2, rfl⟩ := bind_cases hx
  cases h1
  rw [hf _ c u2 m' h2]; rfl

theorem Shows.load (p : Ptr) : Shows (loadT p) ([.read p] ++ []) :=
  Shows.bind (Shows.emit _) fun _ => Shows.quiet _

theorem Shows.store (p : Ptr) (v : Byte) : Shows (storeT p v) ([.write p] ++ []) :=
  Shows.bind (Shows.emit _) fun _ => Shows.quiet _

/-- What a loop shows whose round `i` shows `tr i`. -/
def loopShows (tr : Nat → List Leak) : Nat → Nat → List Leak
  | 0, _ => [.branch false]
  | n + 1, i => .branch true :: (tr i ++ loopShows tr n (i + 1))

theorem Shows.forNT {tr : Nat → List Leak} {body : Nat → σ → T σ} (hb : ∀ i s, Shows (body i s) (tr i)) (n : Nat) :
    ∀ i s, Shows (forNT n i body s) (loopShows tr n i) := by
  induction n with
  | zero => intro i s; exact Shows.branch_bind (Shows.pure s)
  | succ n ih => intro i s; exact Shows.branch_bind (Shows.bind (hb i s) fun s => ih (i + 1) s)

theorem Shows.localArray {x : T α} {tr : List Leak} (h : Shows x tr) (b : Nat) (init : List Byte) :
    Shows (localArrayT b init x) tr := by
  intro m a t m' hx
  unfold localArrayT IMU.localArray at hx
  cases h1 : x (m.upd b init) with
  | ub e => rw [h1] at hx; cases hx
  | ok at' m1 =>
    rw [h1] at hx
    simp only [Res.ok.injEq] at hx
    obtain ⟨rfl, -⟩ := hx
    exact h _ _ _ _ h1

end T

open T

theorem ChaCha.shows_deser (p : Ptr) : ∃ tr, Shows (ChaCha.deserialize32LET p) tr :=
  ⟨_, Shows.bind (Shows.load _) fun _ => Shows.bind (Shows.load _) fun _ => Shows.bind (Shows.load _) fun _ =>
    Shows.bind (Shows.load _) fun _ => Shows.pure _⟩

theorem ChaCha.shows_ser (p : Ptr) : ∃ tr, ∀ v, Shows (ChaCha.serialize32LET p v) tr :=
  ⟨_, fun _ => Shows.bind (Shows.store _ _) fun _ => Shows.bind (Shows.store _ _) fun _ => Shows.bind (Shows.store _ _) fun _ =>
    Shows.store _ _⟩

theorem ChaCha.shows_readWords (k n : Ptr) : ∃ tr, ∀ c, Shows (ChaCha.readWordsT k c n) tr := by
  choose d hd using ChaCha.shows_deser
  exact ⟨_, fun c => Shows.bind (hd _) fun _ => Shows.bind (hd _) fun _ => Shows.bind (hd _) fun _ =>
    Shows.bind (hd _) fun _ => Shows.bind (hd _) fun _ => Shows.bind (hd _) fun _ => Shows.bind (hd _) fun _ =>
    Shows.bind (hd _) fun _ => Shows.bind (hd _) fun _ => Shows.bind (hd _) fun _ => Shows.bind (hd _) fun _ =>
    Shows.pure _⟩

theorem Shows.bind' {x : T α} {f : α → T β} {t1 t2 tr : List Leak} (e : tr = t1 ++ t2) (h : Shows x t1)
    (hf : ∀ a, Shows (f a) t2) : Shows (x >>= f) tr := e ▸ Shows.bind h hf

/-- What sixteen writes of a word show. -/
def ChaCha.outShows (d : Ptr → List Leak) (o : Ptr) : List Nat → List Leak
  | [] => []
  | [i] => d (o.addN i)
  | i :: l => d (o.addN i) ++ ChaCha.outShows d o l

theorem ChaCha.shows_block (k n o : Ptr) : ∃ tr, ∀ c, Shows (ChaCha.blockT k c n o) tr := by
  obtain ⟨r, hr⟩ := ChaCha.shows_readWords k n
  choose d hd using ChaCha.shows_ser
  obtain ⟨lt, hl⟩ : ∃ lt, ∀ x : ChaCha.Vars, Shows (IMU.forNT 10 0 (fun _ x => quiet (ChaCha.rounds x)) x) lt :=
    ⟨_, fun x => Shows.forNT (tr := fun _ => []) (fun _ _ => Shows.quiet _) 10 0 x⟩
  refine ⟨r ++ (lt ++ (r ++ ChaCha.outShows d o [0, 4, 8, 12, 16, 20, 24, 28, 32, 36, 40, 44, 48, 52, 56, 60])), fun c => ?_⟩
  unfold ChaCha.blockT
  refine Shows.bind (hr c) fun x => Shows.bind (hl x) fun x => Shows.bind (hr c) fun y => ?_
  iterate 15 refine Shows.bind' rfl (hd _ _) fun _ => ?_
  exact hd _ _

theorem ChaCha.shows_cryptBlock (ks : Nat) (p k n r : Ptr) (l : Nat) (j : U32) :
    ∃ tr, ∀ inc, Shows (ChaCha.cryptBlockT ks p k n inc r j l) tr := by
  obtain ⟨b, hb⟩ := ChaCha.shows_block k n (ptr ks 0)
  refine ⟨b ++ loopShows (fun i => ([.read (p.addN (j * 64#32 + BitVec.ofNat 32 i).toNat)] ++ []) ++
    (([.read ((ptr ks 0).addN i)] ++ []) ++ ([.write (r.addN (j * 64#32 + BitVec.ofNat 32 i).toNat)] ++ []))) l 0,
    fun inc => ?_⟩
  unfold ChaCha.cryptBlockT
  refine Shows.localArray (Shows.bind (hb _) fun _ => ?_) _ _
  refine Shows.forNT (fun i _ => ?_) _ _ _
  exact Shows.bind (Shows.load _) fun _ => Shows.bind (Shows.load _) fun _ => Shows.store _ _

theorem ChaCha.shows_crypt (ks : Nat) (p : Ptr) (len : U32) (k n r : Ptr) :
    ∃ tr, ∀ inc, Shows (ChaCha.cryptT ks p len k n inc r) tr := by
  choose b hb using ChaCha.shows_cryptBlock ks p k n r
  refine ⟨loopShows (fun j => b 64 (BitVec.ofNat 32 j)) (len / 64#32).toNat 0 ++ (.branch (decide (0#32 ≠ len % 64#32)) ::
    if 0#32 ≠ len % 64#32 then b (len % 64#32).toNat (len / 64#32) else []), fun inc => ?_⟩
  unfold ChaCha.cryptT
  refine Shows.bind (Shows.forNT (tr := fun j => b 64 (BitVec.ofNat 32 j)) (fun j _ => hb _ _ _) _ _ _) fun _ =>
    Shows.branch_bind (t := if 0#32 ≠ len % 64#32 then b (len % 64#32).toNat (len / 64#32) else []) ?_
  by_cases h : 0#32 ≠ len % 64#32
  · rw [if_pos h, if_pos (by simpa using h)]
    exact hb _ _ _
  · rw [if_neg h, if_neg (by simpa using h)]
    exact Shows.pure _

end IMU
