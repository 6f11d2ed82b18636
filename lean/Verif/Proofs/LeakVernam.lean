import Verif.Proofs.LeakTell
import Verif.Proofs.Cipher

/-!
# What the Vernam cipher shows
-/

namespace IMU
open T Spec.Leak

namespace Vernam

/-- Lemma support: what `Utils_isUpperChar` shows of a character of kind `k`. -/
def upTr (k : Nat) : List Leak := if k = 0 then [.branch false] else [.branch true, .branch (decide (k ≤ 1))]
/-- Lemma support: what `Utils_isLowerChar` shows. -/
def lowTr (k : Nat) : List Leak := if k ≤ 2 then [.branch false] else [.branch true, .branch (decide (k ≤ 3))]
/-- Lemma support: what `Utils_isAlpha` shows. -/
def alphaTr (k : Nat) : List Leak := upTr k ++ (lowTr k ++ [.branch (decide (k = 1))])

theorem kind_spec (c : Byte) : (kind c = 0 ↔ ¬ 65 ≤ c.toNat) ∧ (kind c ≤ 1 ↔ c.toNat ≤ 90) ∧ (kind c ≤ 2 ↔ ¬ 97 ≤ c.toNat) ∧
    (kind c ≤ 3 ↔ c.toNat ≤ 122) := by
  unfold kind
  split
  · omega
  · split
    · omega
    · split
      · omega
      · split <;> omega

theorem isUpper_run (c : Byte) (m : Mem) : isUpperCharT c m = .ok (decide (kind c = 1), upTr (kind c)) m := by
  obtain ⟨h0, h1, h2, h3⟩ := kind_spec c
  unfold isUpperCharT
  by_cases h : 65 ≤ c.toNat
  · have e : (decide (65 ≤ c.toNat)) = true := decide_eq_true h
    have e2 : decide (kind c = 1) = decide (c.toNat ≤ 90) := by
      rw [decide_eq_decide]; omega
    have e3 : decide (kind c ≤ 1) = decide (c.toNat ≤ 90) := by rw [decide_eq_decide]; exact h1
    rw [e, e2, upTr, if_neg (by omega), e3]
    rfl
  · have e : (decide (65 ≤ c.toNat)) = false := decide_eq_false h
    have e0 : kind c = 0 := by omega
    rw [e, e0]
    rfl

theorem isLower_run (c : Byte) (m : Mem) : isLowerCharT c m = .ok (decide (kind c = 3), lowTr (kind c)) m := by
  obtain ⟨h0, h1, h2, h3⟩ := kind_spec c
  unfold isLowerCharT
  by_cases h : 97 ≤ c.toNat
  · have e : (decide (97 ≤ c.toNat)) = true := decide_eq_true h
    have e2 : decide (kind c = 3) = decide (c.toNat ≤ 122) := by
      rw [decide_eq_decide]; omega
    have e3 : decide (kind c ≤ 3) = decide (c.toNat ≤ 122) := by rw [decide_eq_decide]; exact h3
    rw [e, e2, lowTr, if_neg (by omega), e3]
    rfl
  · have e : (decide (97 ≤ c.toNat)) = false := decide_eq_false h
    have e0 : decide (kind c = 3) = false := decide_eq_false (by omega)
    rw [e, e0, lowTr, if_pos (by omega)]
    rfl

theorem isAlpha_run (c : Byte) (m : Mem) :
    isAlphaT c m = .ok (decide (kind c = 1) || decide (kind c = 3), alphaTr (kind c)) m := by
  unfold isAlphaT
  simp only [bind, T.bind, isUpper_run, isLower_run]
  rfl

/-- Lemma support: is a character of this kind a letter? -/
abbrev isLetter (k : Nat) : Bool := decide (k = 1) || decide (k = 3)

/-- Lemma support: what a round shows; `x` is what decryption shows in addition. -/
def roundTr (p q : Ptr) (c : Nat) (k : Option Nat) (x : List Leak) : List Leak :=
  [.read p] ++ (alphaTr c ++ (.branch (isLetter c) ::
    if isLetter c then
      match k with
      | some k => [.read q] ++ (lowTr k ++ (.branch (decide (k = 3)) :: (upTr c ++ (.branch (decide (c = 1)) :: (x ++ [.write p])))))
      | none => []
    else []))

theorem roundTr_letter {p q : Ptr} {c k : Nat} {x : List Leak} (h : isLetter c = true) : roundTr p q c (some k) x =
    [.read p] ++ (alphaTr c ++ (.branch (isLetter c) :: ([.read q] ++ (lowTr k ++ (.branch (decide (k = 3)) ::
      (upTr c ++ (.branch (decide (c = 1)) :: (x ++ [.write p])))))))) := by
  unfold roundTr; rw [if_pos h]

theorem roundTr_other {p q : Ptr} {c : Nat} {k : Option Nat} {x : List Leak} (h : ¬ isLetter c = true) : roundTr p q c k x =
    [.read p] ++ (alphaTr c ++ [.branch (isLetter c)]) := by
  unfold roundTr; rw [if_neg h]

theorem load_some {b o : Nat} {m : Mem} {v : Byte} {m' : Mem} (h : load (ptr b o) m = .ok v m') :
    (m.bytes b)[o]? = some v := by
  cases hx : (m.bytes b)[o]? with
  | none => rw [load_oob (List.getElem?_eq_none_iff.mp hx)] at h; cases h
  | some x => rw [load_ok hx] at h; cases h; rfl

theorem loadT_exact {p : Ptr} {m : Mem} {v : Byte} {t : List Leak} {m' : Mem} (h : loadT p m = .ok (v, t) m') :
    load p m = .ok v m ∧ m' = m ∧ t = [.read p] := by
  obtain ⟨h1, h2, -⟩ := loadT_cases h
  exact ⟨h1, h2, Shows.load p m v t m' h⟩

theorem storeT_exact {b o : Nat} {w : Byte} {m : Mem} {v : Unit} {t : List Leak} {m' : Mem}
    (h : storeT (ptr b o) w m = .ok (v, t) m') : m' = m.upd b ((m.bytes b).set o w) ∧ t = [.write (ptr b o)] := by
  refine ⟨?_, Shows.store _ w m v t m' h⟩
  obtain ⟨h1, -⟩ := storeT_cases h
  by_cases hq : o < (m.bytes b).length
  · rw [store_ok hq] at h1; cases h1; rfl
  · rw [store_oob (by omega)] at h1; cases h1

/-- Lemma support: everything but byte `o` of object `b` is the same. -/
def SameBut (b o : Nat) (m m' : Mem) : Prop := ∀ x j, (x ≠ b ∨ j ≠ o) → (m'.bytes x)[j]? = (m.bytes x)[j]?

theorem SameBut.set {m : Mem} {b o : Nat} {w : Byte} : SameBut b o m (m.upd b ((m.bytes b).set o w)) := by
  intro x j h
  rw [Mem.upd_bytes]
  by_cases hb : x = b
  · subst hb
    rw [if_pos rfl, List.getElem?_set, if_neg (by omega)]
  · rw [if_neg hb]

theorem branch_exact {β : Type} {b : Bool} {f : Bool → T β} {m : Mem} {v : β} {t : List Leak} {m' : Mem}
    (h : (branch b >>= f) m = .ok (v, t) m') : ∃ u, f b m = .ok (v, u) m' ∧ t = .branch b :: u := by
  obtain ⟨a, u1, m1, u2, h1, h2, rfl⟩ := bind_cases h
  cases h1
  exact ⟨u2, h2, rfl⟩

theorem encryptRound_cases {bm om bk ok i : Nat} {m : Mem} {v : Unit} {t : List Leak} {m' : Mem}
    (h : encryptRoundT (ptr bm om) (ptr bk ok) i m = .ok (v, t) m') :
    SameBut bm (om + i) m m' ∧ ∃ c, (m.bytes bm)[om + i]? = some c ∧
      (isLetter (kind c) = true → ∃ k, (m.bytes bk)[ok + i]? = some k) ∧
      t = roundTr (ptr bm (om + i)) (ptr bk (ok + i)) (kind c) ((m.bytes bk)[ok + i]?.map kind) [] := by
  unfold encryptRoundT at h
  simp only [ptr_addN] at h
  obtain ⟨c, t1, m1, r1, h1, x1, rfl⟩ := bind_cases h
  obtain ⟨hc, rfl, rfl⟩ := loadT_exact h1
  obtain ⟨al, t2, m2, r2, h2, x2, rfl⟩ := bind_cases x1
  rw [isAlpha_run] at h2
  cases h2
  obtain ⟨r3, x3, rfl⟩ := branch_exact x2
  by_cases hl : isLetter (kind c) = true
  · rw [if_pos hl] at x3
    obtain ⟨k, t4, m4, r4, h4, x4, rfl⟩ := bind_cases x3
    obtain ⟨hk, rfl, rfl⟩ := loadT_exact h4
    obtain ⟨l, t5, m5, r5, h5, x5, rfl⟩ := bind_cases x4
    rw [isLower_run] at h5
    cases h5
    obtain ⟨r6, x6, rfl⟩ := branch_exact x5
    obtain ⟨u, t7, m7, r7, h7, x7, rfl⟩ := bind_cases x6
    rw [isUpper_run] at h7
    cases h7
    obtain ⟨r8, x8, rfl⟩ := branch_exact x7
    obtain ⟨rfl, rfl⟩ := storeT_exact x8
    refine ⟨SameBut.set, c, load_some hc, fun _ => ⟨k, load_some hk⟩, ?_⟩
    rw [load_some hk, Option.map_some, roundTr_letter hl]
    rfl
  · rw [if_neg hl] at x3
    obtain ⟨-, rfl, rfl⟩ := pure_cases x3
    refine ⟨fun _ _ _ => rfl, c, load_some hc, fun h => absurd h hl, ?_⟩
    rw [roundTr_other hl]

theorem decryptRound_cases {cs : Bool} {bm om bk ok i : Nat} {m : Mem} {v : Unit} {t : List Leak} {m' : Mem}
    (h : decryptRoundT cs (ptr bm om) (ptr bk ok) i m = .ok (v, t) m') :
    SameBut bm (om + i) m m' ∧ ∃ c, (m.bytes bm)[om + i]? = some c ∧
      (isLetter (kind c) = true → ∃ k, (m.bytes bk)[ok + i]? = some k) ∧
      t = roundTr (ptr bm (om + i)) (ptr bk (ok + i)) (kind c) ((m.bytes bk)[ok + i]?.map kind)
        [.branch (decide (((charVal cs c - if kind c = 1 then 65 else 97) -
          (charVal cs ((m.bytes bk)[ok + i]?.getD 0) - if kind ((m.bytes bk)[ok + i]?.getD 0) = 3 then 97 else 65)) < 0))] := by
  unfold decryptRoundT at h
  simp only [ptr_addN] at h
  obtain ⟨c, t1, m1, r1, h1, x1, rfl⟩ := bind_cases h
  obtain ⟨hc, rfl, rfl⟩ := loadT_exact h1
  obtain ⟨al, t2, m2, r2, h2, x2, rfl⟩ := bind_cases x1
  rw [isAlpha_run] at h2
  cases h2
  obtain ⟨r3, x3, rfl⟩ := branch_exact x2
  by_cases hl : isLetter (kind c) = true
  · rw [if_pos hl] at x3
    obtain ⟨k, t4, m4, r4, h4, x4, rfl⟩ := bind_cases x3
    obtain ⟨hk, rfl, rfl⟩ := loadT_exact h4
    obtain ⟨l, t5, m5, r5, h5, x5, rfl⟩ := bind_cases x4
    rw [isLower_run] at h5
    cases h5
    obtain ⟨r6, x6, rfl⟩ := branch_exact x5
    obtain ⟨u, t7, m7, r7, h7, x7, rfl⟩ := bind_cases x6
    rw [isUpper_run] at h7
    cases h7
    obtain ⟨r8, x8, rfl⟩ := branch_exact x7
    obtain ⟨r9, x9, rfl⟩ := branch_exact x8
    obtain ⟨rfl, rfl⟩ := storeT_exact x9
    refine ⟨SameBut.set, c, load_some hc, fun _ => ⟨k, load_some hk⟩, ?_⟩
    rw [load_some hk]
    simp only [decide_eq_true_eq, Option.getD_some, Option.map_some]
    rw [roundTr_letter hl]
    rfl
  · rw [if_neg hl] at x3
    obtain ⟨-, rfl, rfl⟩ := pure_cases x3
    refine ⟨fun _ _ _ => rfl, c, load_some hc, fun h => absurd h hl, ?_⟩
    rw [roundTr_other hl]

/-- Lemma support: is `cipher` negative in `VernamCipher_decrypt`? -/
abbrev negative (cs : Bool) (c k : Byte) : Bool :=
  decide (((charVal cs c - if kind c = 1 then 65 else 97) - (charVal cs k - if kind k = 3 then 97 else 65)) < 0)

theorem roundTr_length (p q : Ptr) (c : Nat) (k : Option Nat) {x y : List Leak} (h : x.length = y.length) :
    (roundTr p q c k x).length = (roundTr p q c k y).length := by
  unfold roundTr
  split
  · cases k with
    | none => rfl
    | some k => simp [h]
  · rfl

theorem roundTr_inj {p q : Ptr} {c k : Nat} {x y : List Leak} (hc : isLetter c = true)
    (h : roundTr p q c (some k) x = roundTr p q c (some k) y) : x = y := by
  rw [roundTr_letter hc, roundTr_letter hc] at h
  simpa using h

/-- Lemma support: the kinds of the message and key bytes `i` to `i + n - 1` agree. -/
def Agree (bm om bk ok : Nat) (m m2 : Mem) (i n : Nat) : Prop := ∀ j, i ≤ j → j < i + n →
  (m.bytes bm)[om + j]?.map kind = (m2.bytes bm)[om + j]?.map kind ∧
  (m.bytes bk)[ok + j]?.map kind = (m2.bytes bk)[ok + j]?.map kind

theorem loop_shows {bm om bk ok : Nat} (hb : bm ≠ bk) {round : Nat → Unit → T Unit} {f : Byte → Byte → List Leak}
    (hf : ∀ c k c' k', (f c k).length = (f c' k').length)
    (hr : ∀ {i v m a t m'}, round i v m = .ok (a, t) m' →
      SameBut bm (om + i) m m' ∧ ∃ c, (m.bytes bm)[om + i]? = some c ∧
      (isLetter (kind c) = true → ∃ k, (m.bytes bk)[ok + i]? = some k) ∧
      t = roundTr (ptr bm (om + i)) (ptr bk (ok + i)) (kind c) ((m.bytes bk)[ok + i]?.map kind)
        (f c ((m.bytes bk)[ok + i]?.getD 0))) (n : Nat) :
    ∀ {i m m2 a t m' a2 t2 m2'}, Agree bm om bk ok m m2 i n → forNT n i round () m = .ok (a, t) m' →
      forNT n i round () m2 = .ok (a2, t2) m2' → t.length = t2.length ∧ (t = t2 ↔ ∀ j, i ≤ j → j < i + n →
        ∀ c c', (m.bytes bm)[om + j]? = some c → (m2.bytes bm)[om + j]? = some c' → isLetter (kind c) = true →
          f c ((m.bytes bk)[ok + j]?.getD 0) = f c' ((m2.bytes bk)[ok + j]?.getD 0)) := by
  induction n with
  | zero =>
    intro i m m2 a t m' a2 t2 m2' ha h h2
    obtain ⟨u, h3, rfl⟩ := branch_exact h
    obtain ⟨u2, h4, rfl⟩ := branch_exact h2
    obtain ⟨-, -, rfl⟩ := pure_cases h3
    obtain ⟨-, -, rfl⟩ := pure_cases h4
    exact ⟨rfl, ⟨fun _ j h1 h2 => by omega, fun _ => rfl⟩⟩
  | succ n ih =>
    intro i m m2 a t m' a2 t2 m2' ha h h2
    obtain ⟨u, h3, rfl⟩ := branch_exact h
    obtain ⟨u2, h4, rfl⟩ := branch_exact h2
    obtain ⟨v1, r1, m1, r1', x1, y1, rfl⟩ := bind_cases h3
    obtain ⟨v2, r2, m3, r2', x2, y2, rfl⟩ := bind_cases h4
    obtain ⟨s1, c1, hc1, hk1, rfl⟩ := hr x1
    obtain ⟨s2, c2, hc2, hk2, rfl⟩ := hr x2
    obtain ⟨ek, el⟩ := ha i (Nat.le_refl _) (by omega)
    rw [hc1, hc2] at ek
    simp only [Option.map_some, Option.some.injEq] at ek
    have ha' : Agree bm om bk ok m1 m3 (i + 1) n := by
      intro j h3 h4
      rw [s1 bm _ (.inr (by omega)), s2 bm _ (.inr (by omega)), s1 bk _ (.inl (Ne.symm hb)), s2 bk _ (.inl (Ne.symm hb))]
      exact ha j (by omega) (by omega)
    obtain ⟨e1, e2⟩ := ih ha' y1 y2
    rw [ek, el]
    have hlen := roundTr_length (ptr bm (om + i)) (ptr bk (ok + i)) (kind c2) ((m2.bytes bk)[ok + i]?.map kind)
      (hf c1 ((m.bytes bk)[ok + i]?.getD 0) c2 ((m2.bytes bk)[ok + i]?.getD 0))
    refine ⟨by simp only [List.length_cons, List.length_append, hlen, e1], ?_⟩
    rw [List.cons.injEq]
    constructor
    · rintro ⟨-, h⟩
      obtain ⟨h3, h4⟩ := List.append_inj h hlen
      intro j hj1 hj2 c c' hc hc' hl
      by_cases hji : j = i
      · subst hji
        rw [hc1] at hc
        cases hc
        rw [hc2] at hc'
        cases hc'
        obtain ⟨k2, hk⟩ := hk2 (by rw [← ek]; exact hl)
        rw [hk] at h3 ⊢
        exact roundTr_inj (by rw [← ek]; exact hl) h3
      · have := e2.mp h4 j (by omega) (by omega) c c' (by rw [s1 bm _ (.inr (by omega)), hc])
          (by rw [s2 bm _ (.inr (by omega)), hc']) hl
        rwa [s1 bk _ (.inl (Ne.symm hb)), s2 bk _ (.inl (Ne.symm hb))] at this
    · intro h
      refine ⟨rfl, ?_⟩
      rw [e2.mpr]
      · congr 1
        by_cases hl : isLetter (kind c2) = true
        · rw [h i (Nat.le_refl _) (by omega) c1 c2 hc1 hc2 (by rw [ek]; exact hl)]
        · rw [roundTr_other hl, roundTr_other hl]
      · intro j hj1 hj2 c c' hc hc' hl
        rw [s1 bk _ (.inl (Ne.symm hb)), s2 bk _ (.inl (Ne.symm hb))]
        rw [s1 bm _ (.inr (by omega))] at hc
        rw [s2 bm _ (.inr (by omega))] at hc'
        exact h j (by omega) (by omega) c c' hc hc' hl

theorem strlenT_cases {p : Ptr} {m : Mem} {n : Nat} {t : List Leak} {m' : Mem} (h : strlenT p m = .ok (n, t) m') :
    strlen p m = .ok n m' ∧ t = (List.range (n + 1)).map fun i => .read (p.addN i) := by
  unfold strlenT at h
  obtain ⟨v1, r1, m1, r1', x1, y1, rfl⟩ := bind_cases h
  obtain ⟨x3, rfl⟩ := quiet_cases x1
  obtain ⟨v2, r2, m2, r2', x2, y2, rfl⟩ := bind_cases y1
  cases x2
  obtain ⟨rfl, rfl, rfl⟩ := pure_cases y2
  exact ⟨x3, by simp⟩

end Vernam
end IMU
