import Verif.Proofs.Cost
import Verif.Proofs.LeakBase64
import Verif.Props.Base64
import Verif.Props.Leak

/-!
# Property C142: what `Base64_decode` shows, and how many steps it takes

Src/base64.c:108-172.  The observer is that of `Verif/C/Leak.lean`.
-/

namespace IMU.Props
open Spec Spec.Leak T

/-- C142: the observed version of `Base64_decode` is this function, and every run of it can be observed. -/
theorem C142_same_code (inp : Ptr) (n : SizeT) (out : Ptr) (mx : SizeT) :
    erase (Base64.decodeT inp n out mx) = Base64.decode inp n out mx ∧
      ∀ m v m', Base64.decode inp n out mx m = .ok v m' → ∃ t, Base64.decodeT inp n out mx m = .ok (v, t) m' := by
  refine ⟨Base64.erase_decode inp n out mx, fun m v m' h => of_erase ?_⟩
  rw [Base64.erase_decode]; exact h

/-- The number of characters that `Base64_decode` may read: one more than stated if that is 1 modulo 4. -/
def readLen (n : Nat) : Nat := if n % 4 = 1 then n + 1 else n

variable {bi oi bo oo : Nat} {n mx : SizeT} {m m2 m' m2' : Mem} {v v2 : Int} {t u : List Leak}

/-- C142: exactly what a call shows, in order: which characters are read and where they stand in the table, where bytes are
written, and the decisions.  The output may be the place of the text itself or lie before it. -/
theorem C142_shown (hn3 : n.toNat + 3 < 2 ^ 64) (hroom : oi + readLen n.toNat ≤ (m.bytes bi).length)
    (hd : bi ≠ bo ∨ oi + readLen n.toNat ≤ oo ∨ oo ≤ oi) (h : Base64.decodeT (ptr bi oi) n (ptr bo oo) mx m = .ok (v, t) m') :
    t = decodeShown (ptr bi oi) (ptr bo oo) n.toNat mx.toNat (slice (m.bytes bi) oi (readLen n.toNat)) := by
  have hl := slice_length (m.bytes bi) oi (readLen n.toNat) hroom
  exact (Base64.decodeT_exact hn3 hl (reads_slice hroom) (by rw [hl]; exact hd) h).1

/-! ### The characters can be told -/

theorem lookups_groups (inp out : Ptr) (q : Nat) : ∀ (r : Nat) (p : List Byte), p.length = 4 * q →
    lookups (groupsShown inp out r p) = p.map BitVec.toNat := by
  induction q with
  | zero =>
    intro r p hp
    have : p = [] := List.length_eq_zero_iff.mp (by omega)
    subst this; rfl
  | succ q ih =>
    intro r p hp
    obtain ⟨a, b, c, d, s, rfl, ht⟩ := Base64.four hp
    rw [groupsShown, lookups_append, ih (r + 1) s ht]
    rfl

theorem length_groups (inp out : Ptr) (q : Nat) : ∀ (r : Nat) (p : List Byte), p.length = 4 * q →
    (groupsShown inp out r p).length = 12 * q + 1 := by
  induction q with
  | zero =>
    intro r p hp
    have : p = [] := List.length_eq_zero_iff.mp (by omega)
    subst this; rfl
  | succ q ih =>
    intro r p hp
    obtain ⟨a, b, c, d, s, rfl, ht⟩ := Base64.four hp
    rw [groupsShown, List.length_append, ih (r + 1) s ht]
    simp [charShown]
    omega

/-- The characters of a text that are looked up: all but the padding. -/
def lookedUp (n : Nat) (s : List Byte) : List Byte :=
  if cut n s then s.take (4 * whole n s + 2) ++ ((s.drop (4 * whole n s + 2)).take 1).filter (· ≠ 61#8) else s

theorem lookedUp_cut {n q : Nat} {s p g : List Byte} {a b : Byte} (hc : cut n s = true) (hsp : s = p ++ a :: b :: g)
    (hp : p.length = 4 * q) (hq : whole n s = q) : lookedUp n s = p ++ a :: b :: (g.take 1).filter (· ≠ 61#8) := by
  have k3 : s.take (4 * q + 2) = p ++ [a, b] := by
    rw [hsp, List.take_append, hp, List.take_of_length_le (by omega), show 4 * q + 2 - 4 * q = 2 by omega]; rfl
  have k4 : s.drop (4 * q + 2) = g := by
    rw [hsp, List.drop_append, hp, List.drop_of_length_le (by omega), show 4 * q + 2 - 4 * q = 2 by omega]; rfl
  unfold lookedUp
  rw [if_pos hc, hq, k3, k4, List.append_assoc]
  rfl

theorem lookups_cut (inp : Ptr) (n : Nat) (s : List Byte) : lookups (cutShown inp n s) = [] := by
  unfold cutShown
  split
  · split <;> rfl
  · rfl

theorem lookups_shown (inp out : Ptr) {n mx : Nat} {s : List Byte} (hs : s.length = readLen n) (hf : Base64.Fits n mx s) :
    lookups (decodeShown inp out n mx s) = (lookedUp n s).map BitVec.toNat := by
  have hr : ¬ refused n mx s = true := by rw [hf.1]; simp
  unfold decodeShown
  rw [lookups_append, lookups_append, lookups_cut, if_neg hr, lookups_append]
  by_cases hc : cut n s = true
  · obtain ⟨q, p, a, b, g, hsp, hp, hq, hg, hn, h61⟩ := Base64.cut_parts hs hc
    have hf2 := hf.2 hc
    rw [lookedUp_cut hc hsp hp hq]
    rw [hq] at hf2 ⊢
    simp only [if_pos hc]
    have k1 : s.take (4 * q) = p := by rw [hsp, List.take_append_of_le_length (by omega), List.take_of_length_le (by omega)]
    have k2 : s.drop (4 * q) = a :: b :: g := by
      rw [hsp, List.drop_append_of_le_length (by omega), List.drop_of_length_le (by omega)]; rfl
    have k5 : s[4 * q + 2]? = g[0]? := by
      rw [show 4 * q + 2 = 4 * q + (0 + 2) by omega, ← List.getElem?_drop, k2]; rfl
    rw [k1, k2, lookups_groups inp out q 0 p hp]
    cases g with
    | nil => simp [lastShown, lookups, charShown]
    | cons c e =>
      simp only [lastShown, thirdShown]
      by_cases h1 : c = 61#8
      · simp [lookups, charShown, h1]
      · have := hf2 c k5 h1
        rw [if_neg h1, if_neg (show ¬ mx < 3 * q + 2 by omega)]
        simp [lookups, charShown, h1]
  · have hc' : cut n s = false := by simpa using hc
    obtain ⟨w1, w2, w3⟩ := Base64.whole_plain hs hc'
    unfold lookedUp
    simp only [if_neg hc]
    rw [List.take_of_length_le (by omega), lookups_groups inp out (whole n s) 0 s (by omega)]
    simp [lookups]

/-- C142: the table indices of a successful call are the characters themselves (as numbers), all but the padding. -/
theorem C142_lookups (hn3 : n.toNat + 3 < 2 ^ 64) (hroom : oi + readLen n.toNat ≤ (m.bytes bi).length)
    (hd : bi ≠ bo ∨ oi + readLen n.toNat ≤ oo ∨ oo ≤ oi) (h : Base64.decodeT (ptr bi oi) n (ptr bo oo) mx m = .ok (0, t) m') :
    lookups t = (lookedUp n.toNat (slice (m.bytes bi) oi (readLen n.toNat))).map BitVec.toNat := by
  have hl := slice_length (m.bytes bi) oi (readLen n.toNat) hroom
  obtain ⟨rfl, hf⟩ := Base64.decodeT_exact hn3 hl (reads_slice hroom) (by rw [hl]; exact hd) h
  exact lookups_shown _ _ hl (hf rfl)

theorem cutShown_length (inp : Ptr) (n : Nat) (s : List Byte) :
    (cutShown inp n s).length = if 0 < n then (if n % 4 ≠ 0 then 2 else 4) else 1 := by
  unfold cutShown
  split
  · split <;> rfl
  · rfl

theorem shown_inj {inp out : Ptr} {n mx : Nat} {s s' : List Byte} (hs : s.length = readLen n) (hs' : s'.length = readLen n)
    (hf : Base64.Fits n mx s) (hf' : Base64.Fits n mx s') (h : decodeShown inp out n mx s = decodeShown inp out n mx s') : s = s' := by
  have hl := congrArg lookups h
  rw [lookups_shown _ _ hs hf, lookups_shown _ _ hs' hf'] at hl
  have hl : lookedUp n s = lookedUp n s' :=
    List.map_inj_right (fun x y hxy => BitVec.eq_of_toNat_eq hxy) |>.mp hl
  have hc : cut n s = cut n s' := by
    unfold decodeShown at h
    rw [List.append_assoc, List.append_assoc] at h
    have := (List.append_inj h (by rw [cutShown_length, cutShown_length])).2
    simp only [List.cons_append, List.cons.injEq, Leak.branch.injEq] at this
    exact this.1
  by_cases h1 : cut n s = true
  · have h1' : cut n s' = true := hc ▸ h1
    obtain ⟨q, p, a, b, g, hsp, hp, hq, hg, hn, h61⟩ := Base64.cut_parts hs h1
    obtain ⟨q', p', a', b', g', hsp', hp', hq', hg', hn', h61'⟩ := Base64.cut_parts hs' h1'
    have hw : whole n s' = whole n s := by unfold whole; rw [hc]
    have hqq : q' = q := by rw [← hq', ← hq, hw]
    subst hqq
    have hgg : g.length = g'.length := by
      have e1 := congrArg List.length hsp
      have e2 := congrArg List.length hsp'
      simp only [List.length_append, List.length_cons] at e1 e2
      omega
    rw [lookedUp_cut h1 hsp hp hq, lookedUp_cut h1' hsp' hp' hq'] at hl
    obtain ⟨hpp, hl3⟩ := List.append_inj hl (by omega)
    simp only [List.cons.injEq] at hl3
    obtain ⟨haa, hbb, hl3⟩ := hl3
    have hee : g = g' := by
      match g, g', hgg, h61, h61', hg, hl3 with
      | [], [], _, _, _, _, _ => rfl
      | c :: e, c' :: e', hgg, h61, h61', hg, hl =>
        have hcc : c = c' := by
          simp only [List.take_succ_cons, List.take_zero] at hl
          by_cases k : c = 61#8 <;> by_cases k' : c' = 61#8
          · rw [k, k']
          · simp [k, k'] at hl
          · simp [k, k'] at hl
          · simpa [k, k'] using hl
        have hee : e = e' := by
          match e, e', hgg, hg, h61, h61' with
          | [], [], _, _, _, _ => rfl
          | [x], [y], _, _, h61, h61' =>
            have e1 := h61 rfl
            have e2 := h61' rfl
            simp only [List.getElem?_cons_succ, List.getElem?_cons_zero, Option.some.injEq] at e1 e2
            rw [e1, e2]
          | x :: y :: e, _, _, hg, _, _ => simp only [List.length_cons] at hg; omega
        rw [hcc, hee]
    rw [hsp, hsp', hpp, haa, hbb, hee]
  · unfold lookedUp at hl
    rw [if_neg h1, if_neg (by rw [← hc]; exact h1)] at hl
    exact hl

/-- C142: two successful calls with the same arguments show the same exactly if the texts are the same, the character behind
the text included where it is read.  So decoding shows all of its text: a secret must not be decoded with it where accesses
to tables can be observed. -/
theorem C142_tells (hn3 : n.toNat + 3 < 2 ^ 64) (hroom : oi + readLen n.toNat ≤ (m.bytes bi).length)
    (hroom2 : oi + readLen n.toNat ≤ (m2.bytes bi).length) (hd : bi ≠ bo ∨ oi + readLen n.toNat ≤ oo ∨ oo ≤ oi)
    (h : Base64.decodeT (ptr bi oi) n (ptr bo oo) mx m = .ok (0, t) m')
    (h2 : Base64.decodeT (ptr bi oi) n (ptr bo oo) mx m2 = .ok (0, u) m2') :
    t = u ↔ slice (m.bytes bi) oi (readLen n.toNat) = slice (m2.bytes bi) oi (readLen n.toNat) := by
  have hl := slice_length (m.bytes bi) oi (readLen n.toNat) hroom
  have hl2 := slice_length (m2.bytes bi) oi (readLen n.toNat) hroom2
  obtain ⟨rfl, hf⟩ := Base64.decodeT_exact hn3 hl (reads_slice hroom) (by rw [hl]; exact hd) h
  obtain ⟨rfl, hf2⟩ := Base64.decodeT_exact hn3 hl2 (reads_slice hroom2) (by rw [hl2]; exact hd) h2
  exact ⟨shown_inj hl hl2 (hf rfl) (hf2 rfl), fun e => by rw [e]⟩

/-- C142: a call that is refused before anything is decoded shows no character, except whether the last one is the padding
where the stated length is a multiple of four. -/
theorem C142_refused {s s' : List Byte} {inp out : Ptr} {n mx : Nat} (h : refused n mx s = true) (h' : refused n mx s' = true)
    (hlast : n % 4 = 0 → (s[n - 1]? = some 61#8 ↔ s'[n - 1]? = some 61#8)) :
    decodeShown inp out n mx s = decodeShown inp out n mx s' ∧ lookups (decodeShown inp out n mx s) = [] := by
  have hb : n % 4 = 0 → (s[n - 1]? == some 61#8) = (s'[n - 1]? == some 61#8) := by
    intro h4
    rw [Bool.eq_iff_iff, beq_iff_eq, beq_iff_eq]
    exact hlast h4
  have hc : cut n s = cut n s' := by
    unfold cut
    by_cases h4 : n % 4 = 0
    · rw [hb h4]
    · simp [h4]
  have hcs : cutShown inp n s = cutShown inp n s' := by
    unfold cutShown
    by_cases h4 : n % 4 = 0
    · rw [hb h4]
    · simp only [if_pos (show n % 4 ≠ 0 from h4)]
  constructor
  · unfold decodeShown
    rw [if_pos h, if_pos h', hcs, h, h']
    unfold whole
    rw [hc]
  · unfold decodeShown
    rw [if_pos h, lookups_append, lookups_append, lookups_cut]
    rfl

/-- C142 at the calls. -/
theorem C142_refused_calls (hn3 : n.toNat + 3 < 2 ^ 64) (hroom : oi + readLen n.toNat ≤ (m.bytes bi).length)
    (hroom2 : oi + readLen n.toNat ≤ (m2.bytes bi).length) (hd : bi ≠ bo ∨ oi + readLen n.toNat ≤ oo ∨ oo ≤ oi)
    (h : Base64.decodeT (ptr bi oi) n (ptr bo oo) mx m = .ok (v, t) m')
    (h2 : Base64.decodeT (ptr bi oi) n (ptr bo oo) mx m2 = .ok (v2, u) m2')
    (hf : refused n.toNat mx.toNat (slice (m.bytes bi) oi (readLen n.toNat)) = true)
    (hf2 : refused n.toNat mx.toNat (slice (m2.bytes bi) oi (readLen n.toNat)) = true)
    (hlast : n.toNat % 4 = 0 → ((slice (m.bytes bi) oi (readLen n.toNat))[n.toNat - 1]? = some 61#8 ↔
      (slice (m2.bytes bi) oi (readLen n.toNat))[n.toNat - 1]? = some 61#8)) : t = u ∧ lookups t = [] := by
  rw [C142_shown hn3 hroom hd h, C142_shown hn3 hroom2 hd h2]
  exact C142_refused hf hf2 hlast

/-! ### How many steps -/

/-- C142: the steps of a successful call: 12 for every whole group, 6 and 4 or 2 more for the rest, and for a last group that
is not a whole one 6, 8 or 12, by its third character: none, padding, or another. -/
theorem C142_steps (hn3 : n.toNat + 3 < 2 ^ 64) (hroom : oi + readLen n.toNat ≤ (m.bytes bi).length)
    (hd : bi ≠ bo ∨ oi + readLen n.toNat ≤ oo ∨ oo ≤ oi) (h : Base64.decodeT (ptr bi oi) n (ptr bo oo) mx m = .ok (0, t) m')
    {s : List Byte} (hs : s = slice (m.bytes bi) oi (readLen n.toNat)) :
    t.length = 12 * whole n.toNat s + 6 + (if n.toNat % 4 = 0 then 4 else 2) +
      if cut n.toNat s then (match s[4 * whole n.toNat s + 2]? with
        | none => 6
        | some c => if c = 61#8 then 8 else 12) else 0 := by
  subst hs
  have hl := slice_length (m.bytes bi) oi (readLen n.toNat) hroom
  obtain ⟨rfl, hf⟩ := Base64.decodeT_exact hn3 hl (reads_slice hroom) (by rw [hl]; exact hd) h
  generalize slice (m.bytes bi) oi (readLen n.toNat) = s at hl hf ⊢
  have hf := hf rfl
  generalize n.toNat = n at hl hf ⊢
  have h0 : 0 < n := by
    rcases Nat.eq_zero_or_pos n with rfl | h
    · have := hf.1
      unfold refused whole at this
      simp at this
    · exact h
  have hr : ¬ refused n mx.toNat s = true := by rw [hf.1]; simp
  unfold decodeShown
  rw [List.length_append, List.length_append, cutShown_length, if_pos h0, if_neg hr, List.length_append]
  have h4 : (if n % 4 ≠ 0 then 2 else 4) = if n % 4 = 0 then 4 else 2 := by by_cases h : n % 4 = 0 <;> simp [h]
  rw [h4]
  by_cases hc : cut n s = true
  · obtain ⟨q, p, a, b, g, hsp, hp, hq, hg, hn, h61⟩ := Base64.cut_parts hl hc
    have hf2 := hf.2 hc
    rw [hq] at hf2 ⊢
    simp only [if_pos hc]
    have k1 : s.take (4 * q) = p := by rw [hsp, List.take_append_of_le_length (by omega), List.take_of_length_le (by omega)]
    have k2 : s.drop (4 * q) = a :: b :: g := by
      rw [hsp, List.drop_append_of_le_length (by omega), List.drop_of_length_le (by omega)]; rfl
    have k5 : s[4 * q + 2]? = g[0]? := by
      rw [show 4 * q + 2 = 4 * q + (0 + 2) by omega, ← List.getElem?_drop, k2]; rfl
    rw [k1, k2, k5, length_groups _ _ q 0 p hp]
    cases g with
    | nil => simp [lastShown, charShown]; omega
    | cons c e =>
      simp only [lastShown, thirdShown]
      by_cases h1 : c = 61#8
      · simp [charShown, h1]; omega
      · have := hf2 c k5 h1
        rw [if_neg h1, if_neg (show ¬ mx.toNat < 3 * q + 2 by omega)]
        simp [charShown, h1]; omega
  · have hc' : cut n s = false := by simpa using hc
    obtain ⟨w1, w2, w3⟩ := Base64.whole_plain hl hc'
    simp only [if_neg hc]
    rw [List.take_of_length_le (by omega), length_groups _ _ (whole n s) 0 s (by omega)]
    simp; omega

/-- What a run returned, its number of steps and its lookups. -/
def leakSummary {α : Type} (r : Res (α × List Leak)) : Option (α × Nat × List Nat) :=
  match r with
  | .ok (v, t) _ => some (v, t.length, lookups t)
  | .ub _ => none

/-- The hypotheses are met: `TWFuTQ==` and `TWFuTWE=` are decoded in 30 and 34 steps, in place too; with one byte of room too
few the second one fails. -/
example : leakSummary (Base64.decodeT (ptr 0 0) 8 (ptr 1 0) 5 (mem2 (ascii "TWFuTQ==") (List.replicate 5 0))) =
      some (0, 30, [84, 87, 70, 117, 84, 81]) ∧
    leakSummary (Base64.decodeT (ptr 0 0) 8 (ptr 0 0) 5 (mem2 (ascii "TWFuTWE=") [])) = some (0, 34, [84, 87, 70, 117, 84, 87, 69]) ∧
    leakSummary (Base64.decodeT (ptr 0 0) 8 (ptr 1 0) 4 (mem2 (ascii "TWFuTWE=") (List.replicate 5 0))) =
      some (1, 31, [84, 87, 70, 117, 84, 87]) ∧
    leakSummary (Base64.decodeT (ptr 0 0) 4 (ptr 1 0) 2 (mem2 (ascii "TWFu") (List.replicate 5 0))) = some (1, 8, []) := by
  decide +kernel

end IMU.Props
