import Verif.Proofs.Leak
import Verif.Proofs.LeakConst
import Verif.Proofs.CrcBase
import Verif.Proofs.Base64Decode
import Verif.Spec.Leak

/-!
# What the table lookups of the CRC functions and of Base64_encode tell
-/

namespace IMU
open T Spec.Leak

theorem lookups_append (t u : List Leak) : lookups (t ++ u) = lookups t ++ lookups u := List.filterMap_append

theorem loadT_cases {p : Ptr} {m : Mem} {v : Byte} {t : List Leak} {m' : Mem} (h : loadT p m = .ok (v, t) m') :
    load p m = .ok v m ∧ m' = m ∧ lookups t = [] := by
  obtain ⟨_, u1, m1, u2, h1, h2, rfl⟩ := bind_cases h
  cases h1
  obtain ⟨h3, rfl⟩ := quiet_cases h2
  replace h2 := h3
  have : m' = m := by
    unfold load at h2
    split at h2
    · split at h2
      · cases h2; rfl
      · cases h2
    · cases h2
  subst this
  exact ⟨h2, rfl, rfl⟩

theorem storeT_cases {p : Ptr} {w : Byte} {m : Mem} {v : Unit} {t : List Leak} {m' : Mem}
    (h : storeT p w m = .ok (v, t) m') : store p w m = .ok () m' ∧ lookups t = [] := by
  obtain ⟨_, u1, m1, u2, h1, h2, rfl⟩ := bind_cases h
  cases h1
  obtain ⟨h3, rfl⟩ := quiet_cases h2
  replace h2 := h3
  exact ⟨h2, rfl⟩

theorem branch_cases {β : Type} {b : Bool} {f : Bool → T β} {m : Mem} {v : β} {t : List Leak} {m' : Mem}
    (h : (branch b >>= f) m = .ok (v, t) m') : ∃ u, f b m = .ok (v, u) m' ∧ lookups t = lookups u := by
  obtain ⟨a, u1, m1, u2, h1, h2, rfl⟩ := bind_cases h
  cases h1
  exact ⟨u2, h2, rfl⟩

theorem pure_cases {α : Type} {a : α} {m : Mem} {v : α} {t : List Leak} {m' : Mem}
    (h : (pure a : T α) m = .ok (v, t) m') : v = a ∧ m' = m ∧ t = [] := by
  cases h; exact ⟨rfl, rfl, rfl⟩

theorem constAtT_cases {α : Type} {l : List α} {i : Nat} {m : Mem} {v : α} {t : List Leak} {m' : Mem}
    (h : constAtT l i m = .ok (v, t) m') : l[i]? = some v ∧ m' = m ∧ lookups t = [i] := by
  obtain ⟨_, u1, m1, u2, h1, h2, rfl⟩ := bind_cases h
  cases h1
  obtain ⟨h3, rfl⟩ := quiet_cases h2
  replace h2 := h3
  cases hl : l[i]? with
  | none => rw [hl] at h2; cases h2
  | some w => rw [hl] at h2; cases h2; exact ⟨rfl, rfl, rfl⟩

theorem erase_ok {α : Type} {x : T α} {m : Mem} {v : α} {t : List Leak} {m' : Mem} (h : x m = .ok (v, t) m') :
    erase x m = .ok v m' := by
  unfold erase; rw [h]

/-! ### CRC -/

namespace Crc

theorem reflectLoop_lookups (nb : Byte) (n : Nat) : ∀ {bit : Nat} {d r : U32} {m : Mem} {v : U32} {t : List Leak} {m' : Mem},
    reflectLoopT nb n bit d r m = .ok (v, t) m' → lookups t = [] := by
  induction n with
  | zero =>
    intro bit d r m v t m' h
    obtain ⟨u, h, e⟩ := branch_cases h
    rw [e, (pure_cases h).2.2]; rfl
  | succ n ih =>
    intro bit d r m v t m' h
    obtain ⟨u, h, e⟩ := branch_cases h
    obtain ⟨u', h, e'⟩ := branch_cases h
    rw [e, e']
    split at h
    · obtain ⟨a, u1, m1, u2, h1, h2, rfl⟩ := bind_cases h
      rw [(quiet_cases h1).2]
      exact ih h2
    · exact ih h

theorem input_cases {b o i : Nat} {ri : Bool} {m : Mem} {v : Byte} {t : List Leak} {m' : Mem}
    (h : inputT (ptr b o) ri i m = .ok (v, t) m') :
    m' = m ∧ lookups t = [] ∧ ∃ d, (m.bytes b)[o + i]? = some d ∧ v = if ri then d.reverse else d := by
  unfold inputT at h
  obtain ⟨u, h, e⟩ := branch_cases h
  obtain ⟨d, u1, m1, u2, h1, h2, rfl⟩ := bind_cases h
  obtain ⟨hd, rfl, e1⟩ := loadT_cases h1
  rw [e, lookups_append, e1]
  have hd : (m1.bytes b)[o + i]? = some d := by
    rw [ptr_addN] at hd
    cases hx : (m1.bytes b)[o + i]? with
    | none => rw [load_oob (List.getElem?_eq_none_iff.mp hx)] at hd; cases hd
    | some x => rw [load_ok hx] at hd; cases hd; rfl
  cases ri with
  | false =>
    obtain ⟨rfl, rfl, rfl⟩ := pure_cases h2
    exact ⟨rfl, rfl, v, hd, rfl⟩
  | true =>
    obtain ⟨r, u3, m3, u4, h3, h4, rfl⟩ := bind_cases h2
    obtain ⟨rfl, rfl, rfl⟩ := pure_cases h4
    have hr := erase_ok h3
    rw [Crc.erase_reflect] at hr
    obtain ⟨y, hy, hy'⟩ := reflect8 d m1
    rw [hy] at hr
    cases hr
    exact ⟨rfl, by rw [lookups_append, reflectLoop_lookups _ _ h3]; rfl, d, hd, hy'⟩

/-- The table indices of a run over the bytes `ds`. -/
def indices {σ : Type} (idx : σ → Byte → Nat) (step : σ → Byte → σ) : σ → List Byte → List Nat
  | _, [] => []
  | s, d :: ds => idx s d :: indices idx step (step s d) ds

theorem indices_inj {σ : Type} {idx : σ → Byte → Nat} {step : σ → Byte → σ}
    (hi : ∀ s d e, idx s d = idx s e → d = e) : ∀ (ds es : List Byte) (s : σ), indices idx step s ds = indices idx step s es →
    ds = es := by
  intro ds
  induction ds with
  | nil =>
    intro es s h
    cases es with
    | nil => rfl
    | cons e es => cases h
  | cons d ds ih =>
    intro es s h
    cases es with
    | nil => cases h
    | cons e es =>
      simp only [indices, List.cons.injEq] at h
      obtain rfl := hi s d e h.1
      rw [ih es _ h.2]

theorem slice_cons {l : List Byte} {i : Nat} {d : Byte} (h : l[i]? = some d) (n : Nat) :
    slice l i (n + 1) = d :: slice l (i + 1) n := by
  obtain ⟨hi, rfl⟩ := List.getElem?_eq_some_iff.mp h
  unfold slice
  rw [List.drop_eq_getElem_cons hi, List.take_succ_cons]

theorem loop_lookups {σ : Type} {b o : Nat} {round : Nat → σ → T σ} {idx : σ → Byte → Nat} {step : σ → Byte → σ}
    (hr : ∀ {i s m a t m'}, round i s m = .ok (a, t) m' →
      m' = m ∧ ∃ d, (m.bytes b)[o + i]? = some d ∧ a = step s d ∧ lookups t = [idx s d]) (n : Nat) :
    ∀ {i s m a t m'}, forNT n i round s m = .ok (a, t) m' →
      m' = m ∧ lookups t = indices idx step s (slice (m.bytes b) (o + i) n) := by
  induction n with
  | zero =>
    intro i s m a t m' h
    obtain ⟨u, h, e⟩ := branch_cases h
    obtain ⟨rfl, rfl, rfl⟩ := pure_cases h
    refine ⟨rfl, ?_⟩
    rw [e]
    rfl
  | succ n ih =>
    intro i s m a t m' h
    obtain ⟨u, h, e⟩ := branch_cases h
    obtain ⟨a1, u1, m1, u2, h1, h2, rfl⟩ := bind_cases h
    obtain ⟨rfl, d, hd, rfl, e1⟩ := hr h1
    obtain ⟨rfl, e2⟩ := ih h2
    refine ⟨rfl, ?_⟩
    rw [e, lookups_append, e1, e2, slice_cons hd]
    rfl

theorem finish_lookups {w : Nat} {nb : Byte} {c x : BitVec w} {ro fx : Bool} {m : Mem} {v : BitVec w} {t : List Leak}
    {m' : Mem} (h : finishT nb c x ro fx m = .ok (v, t) m') : lookups t = [] := by
  unfold finishT at h
  obtain ⟨u, h, e⟩ := branch_cases h
  obtain ⟨a1, u1, m1, u2, h1, h2, rfl⟩ := bind_cases h
  obtain ⟨u3, h3, e3⟩ := branch_cases h2
  rw [e, lookups_append, e3, (pure_cases h3).2.2]
  split at h1
  · obtain ⟨a2, u4, m2, u5, h4, h5, rfl⟩ := bind_cases h1
    rw [lookups_append, reflectLoop_lookups _ _ h4, (pure_cases h5).2.2]; rfl
  · rw [(pure_cases h1).2.2]; rfl

/-- The byte that a round processes. -/
abbrev inp (ri : Bool) (d : Byte) : Byte := if ri then d.reverse else d

/-- The table index and the new value of a round for 8, 16 and 32 bits. -/
def idx8 (ri : Bool) (s d : Byte) : Nat := (s ^^^ inp ri d).toNat
def step8 (tab : List Byte) (ri : Bool) (s d : Byte) : Byte := (tab[idx8 ri s d]?).getD 0
def idx16 (ri : Bool) (s : U16) (d : Byte) : Nat := ((s.setWidth 32 >>> 8 ^^^ (inp ri d).setWidth 32).setWidth 8).toNat
def step16 (tab : List U16) (ri : Bool) (s : U16) (d : Byte) : U16 :=
  (s.setWidth 32 <<< 8 ^^^ ((tab[idx16 ri s d]?).getD 0).setWidth 32).setWidth 16
def idx32 (ri : Bool) (s : U32) (d : Byte) : Nat := ((s >>> 24 ^^^ (inp ri d).setWidth 32).setWidth 8).toNat
def step32 (tab : List U32) (ri : Bool) (s : U32) (d : Byte) : U32 := s <<< 8 ^^^ (tab[idx32 ri s d]?).getD 0

theorem inp_inj {ri : Bool} {d e : Byte} (h : inp ri d = inp ri e) : d = e := by
  cases ri with
  | false => exact h
  | true =>
    have := congrArg BitVec.reverse h
    simpa [inp] using this

theorem round8_cases {tab : List Byte} {b o : Nat} {ri : Bool} {i : Nat} {s : Byte} {m : Mem} {a : Byte} {t : List Leak}
    {m' : Mem} (h : round8T tab (ptr b o) ri i s m = .ok (a, t) m') :
    m' = m ∧ ∃ d, (m.bytes b)[o + i]? = some d ∧ a = step8 tab ri s d ∧ lookups t = [idx8 ri s d] := by
  unfold round8T at h
  obtain ⟨v, u1, m1, u2, h1, h2, rfl⟩ := bind_cases h
  obtain ⟨rfl, e1, d, hd, rfl⟩ := input_cases h1
  obtain ⟨ht, rfl, e2⟩ := constAtT_cases h2
  exact ⟨rfl, d, hd, by unfold step8 idx8; rw [ht]; rfl, by rw [lookups_append, e1, e2]; rfl⟩

theorem round16_cases {tab : List U16} {b o : Nat} {ri : Bool} {i : Nat} {s : U16} {m : Mem} {a : U16} {t : List Leak}
    {m' : Mem} (h : round16T tab (ptr b o) ri i s m = .ok (a, t) m') :
    m' = m ∧ ∃ d, (m.bytes b)[o + i]? = some d ∧ a = step16 tab ri s d ∧ lookups t = [idx16 ri s d] := by
  unfold round16T at h
  obtain ⟨v, u1, m1, u2, h1, h2, rfl⟩ := bind_cases h
  obtain ⟨rfl, e1, d, hd, rfl⟩ := input_cases h1
  obtain ⟨e, u3, m3, u4, h3, h4, rfl⟩ := bind_cases h2
  obtain ⟨ht, rfl, e2⟩ := constAtT_cases h3
  obtain ⟨rfl, rfl, rfl⟩ := pure_cases h4
  exact ⟨rfl, d, hd, by unfold step16 idx16; rw [ht]; rfl, by rw [lookups_append, lookups_append, e1, e2]; rfl⟩

theorem round32_cases {tab : List U32} {b o : Nat} {ri : Bool} {i : Nat} {s : U32} {m : Mem} {a : U32} {t : List Leak}
    {m' : Mem} (h : round32T tab (ptr b o) ri i s m = .ok (a, t) m') :
    m' = m ∧ ∃ d, (m.bytes b)[o + i]? = some d ∧ a = step32 tab ri s d ∧ lookups t = [idx32 ri s d] := by
  unfold round32T at h
  obtain ⟨v, u1, m1, u2, h1, h2, rfl⟩ := bind_cases h
  obtain ⟨rfl, e1, d, hd, rfl⟩ := input_cases h1
  obtain ⟨e, u3, m3, u4, h3, h4, rfl⟩ := bind_cases h2
  obtain ⟨ht, rfl, e2⟩ := constAtT_cases h3
  obtain ⟨rfl, rfl, rfl⟩ := pure_cases h4
  exact ⟨rfl, d, hd, by unfold step32 idx32; rw [ht]; rfl, by rw [lookups_append, lookups_append, e1, e2]; rfl⟩

theorem xor_cancel {w : Nat} {s x y : BitVec w} (h : s ^^^ x = s ^^^ y) : x = y := by
  have := congrArg (s ^^^ ·) h
  simpa [← BitVec.xor_assoc] using this

theorem idx8_inj {ri : Bool} (s d e : Byte) (h : idx8 ri s d = idx8 ri s e) : d = e :=
  inp_inj (xor_cancel (BitVec.eq_of_toNat_eq h))

theorem low8 (x y : Byte) (s : U32) (h : ((s ^^^ x.setWidth 32).setWidth 8).toNat = ((s ^^^ y.setWidth 32).setWidth 8).toNat) :
    x = y := by
  have h := BitVec.eq_of_toNat_eq h
  rw [BitVec.setWidth_xor, BitVec.setWidth_xor] at h
  have := xor_cancel h
  simpa using this

theorem idx16_inj {ri : Bool} (s : U16) (d e : Byte) (h : idx16 ri s d = idx16 ri s e) : d = e := inp_inj (low8 _ _ _ h)

theorem idx32_inj {ri : Bool} (s : U32) (d e : Byte) (h : idx32 ri s d = idx32 ri s e) : d = e := inp_inj (low8 _ _ _ h)

/-- What a whole call looks up. -/
theorem base_lookups {w : Nat} {b o : Nat} {round : Nat → BitVec w → T (BitVec w)} {idx : BitVec w → Byte → Nat}
    {step : BitVec w → Byte → BitVec w} {nb : Byte} {fx : BitVec w} {ro fo : Bool}
    (hr : ∀ {i s m a t m'}, round i s m = .ok (a, t) m' →
      m' = m ∧ ∃ d, (m.bytes b)[o + i]? = some d ∧ a = step s d ∧ lookups t = [idx s d]) {n : Nat} {s : BitVec w} {m : Mem}
    {a : BitVec w} {t : List Leak} {m' : Mem}
    (h : (forNT n 0 round s >>= fun c => finishT nb c fx ro fo) m = .ok (a, t) m') :
    lookups t = indices idx step s (slice (m.bytes b) o n) := by
  obtain ⟨v, u1, m1, u2, h1, h2, rfl⟩ := bind_cases h
  obtain ⟨rfl, e1⟩ := loop_lookups (round := round) hr n h1
  rw [lookups_append, e1, finish_lookups h2, List.append_nil]
  rfl

theorem base8_lookups {tab : List Byte} {b o : Nat} {n : U32} {i x : Byte} {ro ri fx : Bool} {m m' : Mem} {v : Byte}
    {t : List Leak} (h : base8T tab (ptr b o) n i x ro ri fx m = .ok (v, t) m') :
    lookups t = indices (idx8 ri) (step8 tab ri) i (slice (m.bytes b) o n.toNat) :=
  base_lookups (round := round8T tab (ptr b o) ri) (idx := idx8 ri) (step := step8 tab ri) (fun h => round8_cases h) h

theorem base16_lookups {tab : List U16} {b o : Nat} {n : U32} {i x : U16} {ro ri fx : Bool} {m m' : Mem} {v : U16}
    {t : List Leak} (h : base16T tab (ptr b o) n i x ro ri fx m = .ok (v, t) m') :
    lookups t = indices (idx16 ri) (step16 tab ri) i (slice (m.bytes b) o n.toNat) :=
  base_lookups (round := round16T tab (ptr b o) ri) (idx := idx16 ri) (step := step16 tab ri) (fun h => round16_cases h) h

theorem base32_lookups {tab : List U32} {b o : Nat} {n : U32} {i x : U32} {ro ri fx : Bool} {m m' : Mem} {v : U32}
    {t : List Leak} (h : base32T tab (ptr b o) n i x ro ri fx m = .ok (v, t) m') :
    lookups t = indices (idx32 ri) (step32 tab ri) i (slice (m.bytes b) o n.toNat) :=
  base_lookups (round := round32T tab (ptr b o) ri) (idx := idx32 ri) (step := step32 tab ri) (fun h => round32_cases h) h

end Crc

/-! ### Base64_encode -/

namespace Base64
open Spec.Base64

theorem putIdxT_cases {p : Ptr} {i : U32} {m : Mem} {v : Unit} {t : List Leak} {m' : Mem}
    (h : putIdxT p i m = .ok (v, t) m') : (∃ w, store p w m = .ok () m') ∧ lookups t = [i.toNat] := by
  unfold putIdxT at h
  obtain ⟨w, u1, m1, u2, h1, h2, rfl⟩ := bind_cases h
  obtain ⟨-, rfl, e1⟩ := constAtT_cases h1
  obtain ⟨hs, e2⟩ := storeT_cases h2
  exact ⟨⟨w, hs⟩, by rw [lookups_append, e1, e2]; rfl⟩

theorem loadT_reads {m : Mem} {b o i : Nat} {d : List Byte} (h : Reads m b o d) {x : Byte} (hx : d[i]? = some x) {v : Byte}
    {t : List Leak} {m' : Mem} (hl : loadT (ptr b (o + i)) m = .ok (v, t) m') : v = x ∧ m' = m ∧ lookups t = [] := by
  obtain ⟨h1, rfl, e⟩ := loadT_cases hl
  rw [h.load hx] at h1
  cases h1
  exact ⟨rfl, rfl, e⟩

theorem encGroup_lookups {m : Mem} {bi oi bp op : Nat} {a b c : Byte} {t : List Byte} (h : Reads m bi oi (a :: b :: c :: t))
    (hd : bi ≠ bp) {v : Unit} {tr : List Leak} {m' : Mem} (hx : encGroupT (ptr bi oi) (ptr bp op) m = .ok (v, tr) m') :
    Reads m' bi oi (a :: b :: c :: t) ∧ lookups tr = [sextet (group a b c) 0, sextet (group a b c) 1, sextet (group a b c) 2,
      sextet (group a b c) 3] := by
  unfold encGroupT at hx
  simp only [ptr_addN] at hx
  obtain ⟨a1, t1, m1, r, h1, hx1, rfl⟩ := bind_cases hx
  obtain ⟨rfl, rfl, e1⟩ := loadT_reads (i := 0) h rfl h1
  obtain ⟨_, t2, m2, r, h2, hx2, rfl⟩ := bind_cases hx1
  obtain ⟨⟨w, hs⟩, e2⟩ := putIdxT_cases h2
  replace h := h.store hs (.inl hd)
  obtain ⟨a2, t3, m3, r, h3, hx3, rfl⟩ := bind_cases hx2
  obtain ⟨rfl, rfl, e3⟩ := loadT_reads (i := 0) h rfl h3
  obtain ⟨b1, t4, m4, r, h4, hx4, rfl⟩ := bind_cases hx3
  obtain ⟨rfl, rfl, e4⟩ := loadT_reads (i := 1) h rfl h4
  obtain ⟨_, t5, m5, r, h5, hx5, rfl⟩ := bind_cases hx4
  obtain ⟨⟨w, hs⟩, e5⟩ := putIdxT_cases h5
  replace h := h.store hs (.inl hd)
  obtain ⟨b2, t6, m6, r, h6, hx6, rfl⟩ := bind_cases hx5
  obtain ⟨rfl, rfl, e6⟩ := loadT_reads (i := 1) h rfl h6
  obtain ⟨c1, t7, m7, r, h7, hx7, rfl⟩ := bind_cases hx6
  obtain ⟨rfl, rfl, e7⟩ := loadT_reads (i := 2) h rfl h7
  obtain ⟨_, t8, m8, r, h8, hx8, rfl⟩ := bind_cases hx7
  obtain ⟨⟨w, hs⟩, e8⟩ := putIdxT_cases h8
  replace h := h.store hs (.inl hd)
  obtain ⟨c2, t9, m9, r, h9, hx9, rfl⟩ := bind_cases hx8
  obtain ⟨rfl, rfl, e9⟩ := loadT_reads (i := 2) h rfl h9
  obtain ⟨⟨w, hs⟩, e10⟩ := putIdxT_cases hx9
  replace h := h.store hs (.inl hd)
  refine ⟨h, ?_⟩
  simp only [lookups_append, e1, e2, e3, e4, e5, e6, e7, e8, e9, e10, idx0 a2 b2 c2, idx1 a2 b2 c2, idx2 a2 b2 c2, idx3 a2 b2 c2]
  rfl

theorem encLast_lookups {m : Mem} {bi oi bp op : Nat} {d : List Byte} {dl ip : SizeT} (h : Reads m bi oi d)
    (hl : (dl - ip).toNat = d.length) (h0 : d ≠ []) (h3 : d.length < 3) (hd : bi ≠ bp) {v : Ptr} {tr : List Leak} {m' : Mem}
    (hx : encLastT dl ip (ptr bi oi) (ptr bp op) m = .ok (v, tr) m') : lookups tr = digits d := by
  unfold encLastT at hx
  simp only [ptr_addN] at hx
  match d, h0, h3, hl, h with
  | [a], _, _, hl, h =>
    have h1' : dl - ip = 1#64 := BitVec.eq_of_toNat_eq (by rw [hl]; rfl)
    obtain ⟨a1, t1, m1, r, h1, hx1, rfl⟩ := bind_cases hx
    obtain ⟨rfl, rfl, e1⟩ := loadT_reads (i := 0) h rfl h1
    obtain ⟨_, t2, m2, r, h2, hx2, rfl⟩ := bind_cases hx1
    obtain ⟨⟨w, hs⟩, e2⟩ := putIdxT_cases h2
    replace h := h.store hs (.inl hd)
    obtain ⟨u, hx3, e0⟩ := branch_cases hx2
    rw [lookups_append, lookups_append, e0, e1, e2]
    rw [decide_eq_true h1', if_pos rfl] at hx3
    obtain ⟨a2, t3, m3, r3, h3, hy1, rfl⟩ := bind_cases hx3
    obtain ⟨rfl, rfl, e3⟩ := loadT_reads (i := 0) h rfl h3
    obtain ⟨_, t4, m4, r4, h4, hy2, rfl⟩ := bind_cases hy1
    obtain ⟨⟨w, hs⟩, e4⟩ := putIdxT_cases h4
    obtain ⟨_, t5, m5, r5, h5, hx4, rfl⟩ := bind_cases hy2
    obtain ⟨-, e5⟩ := storeT_cases h5
    obtain ⟨_, t6, m6, r6, h6, hx5, rfl⟩ := bind_cases hx4
    obtain ⟨-, e6⟩ := storeT_cases h6
    obtain ⟨-, -, rfl⟩ := pure_cases hx5
    simp only [lookups_append, e3, e4, e5, e6, idx0 a2 0 0, idx1' a2]
    rfl
  | [a, b], _, _, hl, h =>
    have h1' : dl - ip ≠ 1#64 := fun e => by rw [e] at hl; cases hl
    obtain ⟨a1, t1, m1, r, h1, hx1, rfl⟩ := bind_cases hx
    obtain ⟨rfl, rfl, e1⟩ := loadT_reads (i := 0) h rfl h1
    obtain ⟨_, t2, m2, r, h2, hx2, rfl⟩ := bind_cases hx1
    obtain ⟨⟨w, hs⟩, e2⟩ := putIdxT_cases h2
    replace h := h.store hs (.inl hd)
    obtain ⟨u, hx3, e0⟩ := branch_cases hx2
    rw [lookups_append, lookups_append, e0, e1, e2]
    rw [decide_eq_false h1', if_neg (by simp)] at hx3
    obtain ⟨a2, t3, m3, r3, h3, hy1, rfl⟩ := bind_cases hx3
    obtain ⟨rfl, rfl, e3⟩ := loadT_reads (i := 0) h rfl h3
    obtain ⟨b1, t4, m4, r4, h4, hy2, rfl⟩ := bind_cases hy1
    obtain ⟨rfl, rfl, e4⟩ := loadT_reads (i := 1) h rfl h4
    obtain ⟨_, t5, m5, r5, h5, hy3, rfl⟩ := bind_cases hy2
    obtain ⟨⟨w, hs⟩, e5⟩ := putIdxT_cases h5
    replace h := h.store hs (.inl hd)
    obtain ⟨b2, t6, m6, r6, h6, hy4, rfl⟩ := bind_cases hy3
    obtain ⟨rfl, rfl, e6⟩ := loadT_reads (i := 1) h rfl h6
    obtain ⟨_, t7, m7, r7, h7, hx4, rfl⟩ := bind_cases hy4
    obtain ⟨⟨w, hs⟩, e7⟩ := putIdxT_cases h7
    obtain ⟨_, t8, m8, r8, h8, hx5, rfl⟩ := bind_cases hx4
    obtain ⟨-, e8⟩ := storeT_cases h8
    obtain ⟨-, -, rfl⟩ := pure_cases hx5
    simp only [lookups_append, e3, e4, e5, e6, e7, e8, idx0 a2 b2 0, idx1 a2 b2 0, idx2' a2 b2]
    rfl

theorem encLoop_lookups (dl mx : SizeT) (bi bp : Nat) (hd : bi ≠ bp) : ∀ (fuel : Nat) (d : List Byte) (oi op : Nat)
    (ip cur : SizeT) (m : Mem) (s' : EncState) (t : List Leak) (m' : Mem), Reads m bi oi d → (dl - ip).toNat = d.length →
    encLoopT dl mx fuel ⟨ptr bi oi, ptr bp op, ip, cur, 0⟩ m = .ok (s', t) m' → s'.success = 0 →
    ∃ d1 d2 oi' op', digits d = d1 ++ digits d2 ∧ d2.length < 3 ∧ lookups t = d1 ∧ Reads m' bi oi' d2 ∧
      (dl - s'.in_position).toNat = d2.length ∧ s'.inp = ptr bi oi' ∧ s'.pos = ptr bp op' := by
  intro fuel
  induction fuel with
  | zero =>
    intro d oi op ip cur m s' t m' hr hl h hs
    cases (quiet_cases h).1
  | succ fuel ih =>
    intro d oi op ip cur m s' t m' hr hl h hs
    unfold encLoopT at h
    obtain ⟨u, h, e⟩ := branch_cases h
    by_cases hc : 3#64 ≤ dl - ip
    · rw [decide_eq_true hc, if_pos rfl] at h
      have h3 : 3 ≤ d.length := by
        have := BitVec.le_def.mp hc
        rw [hl] at this
        exact this
      obtain ⟨u2, h, e2⟩ := branch_cases h
      split at h
      · obtain ⟨rfl, -, -⟩ := pure_cases h
        cases hs
      · match d, h3, hl, hr with
        | a :: b :: c :: d, _, hl, hr =>
          obtain ⟨_, u3, m3, u4, h3, h4, rfl⟩ := bind_cases h
          obtain ⟨hr', e3⟩ := encGroup_lookups hr hd h3
          simp only [ptr_addN] at h4
          have hr2 : Reads m3 bi (oi + 3) d := by
            intro i hi
            have := hr' (i + 3) (by simp; omega)
            rw [show oi + 3 + i = oi + (i + 3) by omega, this]
            rfl
          have hl2 : (dl - (ip + 3#64)).toNat = d.length := by
            have e : dl - (ip + 3#64) = (dl - ip) - 3#64 := by
              bv_omega
            rw [e, BitVec.toNat_sub_of_le hc, hl]
            simp
          obtain ⟨d1, d2, oi', op', h5, h6, h7, h8⟩ := ih d _ _ _ _ _ _ _ _ hr2 hl2 h4 hs
          refine ⟨[sextet (group a b c) 0, sextet (group a b c) 1, sextet (group a b c) 2, sextet (group a b c) 3] ++ d1,
            d2, oi', op', ?_, h6, ?_, h8⟩
          · rw [digits, h5, List.append_assoc]
          · rw [e, e2, lookups_append, e3, h7]
    · rw [decide_eq_false hc, if_neg (by simp)] at h
      obtain ⟨rfl, rfl, rfl⟩ := pure_cases h
      refine ⟨[], d, oi, op, rfl, ?_, by rw [e]; rfl, hr, hl, rfl, rfl⟩
      have : ¬ (3#64).toNat ≤ (dl - ip).toNat := fun h => hc (BitVec.le_def.mpr h)
      rw [hl] at this
      exact Nat.lt_of_not_le this

theorem encode_lookups {n mx : SizeT} {d : List Byte} {bi oi bp op : Nat} {m : Mem} (hr : Reads m bi oi d)
    (hl : n.toNat = d.length) (hd : bi ≠ bp) {t : List Leak} {m' : Mem}
    (h : encodeT (ptr bi oi) n (ptr bp op) mx m = .ok (0, t) m') : lookups t = digits d := by
  unfold encodeT at h
  obtain ⟨u, h, e⟩ := branch_cases h
  split at h
  · exact absurd (pure_cases h).1 (by decide)
  · obtain ⟨s, u1, m1, u2, h1, h2, rfl⟩ := bind_cases h
    unfold encTailT at h2
    obtain ⟨u3, h3, e3⟩ := branch_cases h2
    rw [e, lookups_append, e3]
    have hs : s.success = 0 := by
      split at h3
      · rename_i hc
        exact (of_decide_eq_true hc).1
      · obtain ⟨_, _, _, _, _, h5, _⟩ := bind_cases h3
        exact (pure_cases h5).1.symm
    obtain ⟨d1, d2, oi', op', h5, h6, h7, h8, h9, h10, h11⟩ := encLoop_lookups n mx bi bp hd _ d oi op 0#64 0#64 m s _ _ hr
      (by rw [BitVec.sub_zero]; exact hl) h1 hs
    rw [h7, h5]
    congr 1
    split at h3
    · rename_i hc
      have hne := (of_decide_eq_true hc).2
      obtain ⟨u4, h4, e4⟩ := branch_cases h3
      rw [e4]
      split at h4
      · obtain ⟨_, _, _, _, _, h5, _⟩ := bind_cases h4
        exact absurd (pure_cases h5).1 (by decide)
      · obtain ⟨p, u5, m5, u6, h12, h13, rfl⟩ := bind_cases h4
        obtain ⟨_, u7, m7, u8, h14, h15, rfl⟩ := bind_cases h13
        obtain ⟨-, e7⟩ := storeT_cases h14
        obtain ⟨-, -, rfl⟩ := pure_cases h15
        rw [h10, h11] at h12
        rw [lookups_append, lookups_append, encLast_lookups h8 h9 ?_ h6 hd h12, e7]
        · simp [lookups]
        · rintro rfl
          exact hne (BitVec.eq_of_toNat_eq h9)
    · rename_i hc
      have : n - s.in_position = 0#64 := by
        by_contra hne
        exact hc (decide_eq_true ⟨hs, hne⟩)
      rw [this] at h9
      obtain rfl := List.eq_nil_of_length_eq_zero h9.symm
      obtain ⟨_, u7, m7, u8, h14, h15, rfl⟩ := bind_cases h3
      obtain ⟨-, e7⟩ := storeT_cases h14
      obtain ⟨-, -, rfl⟩ := pure_cases h15
      rw [lookups_append, e7]
      rfl

theorem encode_digits (d : List Byte) : Spec.Base64.encode d =
    (digits d).map char ++ List.replicate ((4 - (digits d).length % 4) % 4) pad := by
  induction d using Spec.Base64.encode.induct with
  | case1 => rfl
  | case2 a => rfl
  | case3 a b => rfl
  | case4 a b c t ih =>
    rw [Spec.Base64.encode, digits, ih, List.map_append, List.length_append]
    simp

theorem digits_inj {d e : List Byte} (h : digits d = digits e) : d = e := by
  have : Spec.Base64.encode d = Spec.Base64.encode e := by rw [encode_digits, encode_digits, h]
  rw [← Base64.decode_encode d, this, Base64.decode_encode]

end Base64
end IMU
