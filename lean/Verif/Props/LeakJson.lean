import Verif.Proofs.LeakJsonTold
import Verif.Props.JsonFinal
import Mathlib.Data.List.TakeWhile

/-!
# Property C144: what a JSON lookup shows

Src/json.c:105-159, to an observer who sees all addresses and decisions (`Verif/C/Leak.lean`).
-/

namespace IMU.Props
open Spec Spec.Leak Spec.Json Spec.LeakJson T IMU.Json

/-- C144: what is observed is the code that the other properties are about. -/
theorem C144_same_code (buffer : Ptr) (size : SizeT) (key value : Ptr) (mv : SizeT) :
    erase (findByKeyT buffer size key value mv) = findByKey buffer size key value mv :=
  erase_findByKey buffer size key value mv

/-- C144: two calls with the same arguments show the same exactly if the same can be told of their texts and keys. -/
theorem C144_shown (b o bk ok bv ov : Nat) (size mv : SizeT) (k1 k2 : List Byte) (m1 m2 : Mem)
    (hn : size.toNat < 2 ^ 32 - 1) (hd : bv ≠ b ∨ ov + mv.toNat ≤ o ∨ o + size.toNat ≤ ov)
    (hroom1 : o + size.toNat ≤ (m1.bytes b).length) (hk1 : CStr (m1.bytes bk) ok k1) (hkl1 : k1.length < 2 ^ 64)
    (hvr1 : ov + mv.toNat ≤ (m1.bytes bv).length)
    (hroom2 : o + size.toNat ≤ (m2.bytes b).length) (hk2 : CStr (m2.bytes bk) ok k2) (hkl2 : k2.length < 2 ^ 64)
    (hvr2 : ov + mv.toNat ≤ (m2.bytes bv).length) :
    ∃ r1 t1 m1' r2 t2 m2',
      findByKeyT (ptr b o) size (ptr bk ok) (ptr bv ov) mv m1 = .ok (r1, t1) m1' ∧
      findByKeyT (ptr b o) size (ptr bk ok) (ptr bv ov) mv m2 = .ok (r2, t2) m2' ∧
      (t1 = t2 ↔ told k1 (slice (m1.bytes b) o size.toNat) mv.toNat = told k2 (slice (m2.bytes b) o size.toNat) mv.toNat) := by
  have hl1 : (slice (m1.bytes b) o size.toNat).length = size.toNat := slice_length _ _ _ hroom1
  have hl2 : (slice (m2.bytes b) o size.toNat).length = size.toNat := slice_length _ _ _ hroom2
  obtain ⟨r1, m1', g1⟩ := findByKey_runs (T := slice (m1.bytes b) o size.toNat) (size := size) (mv := mv)
    (reads_slice hroom1) hk1 hl1.symm (by omega) hkl1 hvr1 (by rw [hl1]; exact hd)
  obtain ⟨r2, m2', g2⟩ := findByKey_runs (T := slice (m2.bytes b) o size.toNat) (size := size) (mv := mv)
    (reads_slice hroom2) hk2 hl2.symm (by omega) hkl2 hvr2 (by rw [hl2]; exact hd)
  exact ⟨r1, _, m1', r2, _, m2', g1, g2, lookupShown_iff b o bk ok bv ov k1 k2 _ _ mv.toNat (by rw [hl1, hl2])⟩

/-! ### What is not told -/

theorem agrees_append {k p : List Byte} : ∀ {t s : List Byte}, afterKey k p ≠ none → p <+: t → p <+: s → agrees k t = agrees k s := by
  induction p with
  | nil => intro t s h; exact absurd rfl h
  | cons c p ih =>
    intro t s h ht hs
    cases t with
    | nil => simp at ht
    | cons a t =>
      cases s with
      | nil => simp at hs
      | cons a' s =>
        obtain ⟨rfl, ht'⟩ := List.cons_prefix_cons.mp ht
        obtain ⟨rfl, hs'⟩ := List.cons_prefix_cons.mp hs
        have hlt : k.length < (c :: p).length := by
          apply Classical.byContradiction
          intro hn
          exact h (afterKey_none_short k _ (by omega))
        have hl1 := ht.length_le
        have hl2 := hs.length_le
        have hag : ∀ u : List Byte, c :: p <+: u → agree u k = agree (c :: p) k := by
          intro u hu
          rw [← agree_take k u, ← agree_take k (c :: p)]
          congr 1
          exact (List.prefix_of_prefix_length_le ((List.take_prefix _ _).trans hu) (List.take_prefix _ _)
            (by rw [List.length_take, List.length_take]; have := hu.length_le; omega)).eq_of_length
              (by rw [List.length_take, List.length_take]; have := hu.length_le; omega) |>.symm
        have c1 : k.length < (c :: t).length := by omega
        have c2 : k.length < (c :: s).length := by omega
        rw [agrees, agrees, if_pos c1, if_pos c2, hag _ ht, hag _ hs]
        by_cases hp : k <+: c :: p
        · rw [if_pos (hp.trans ht), if_pos (hp.trans hs)]
        · have hp1 : ∀ u : List Byte, c :: p <+: u → ¬ k <+: u := by
            intro u hu h'
            exact hp (by rw [prefix_iff_agree, ← hag u hu, ← prefix_iff_agree]; exact h')
          rw [if_neg (hp1 _ ht), if_neg (hp1 _ hs)]
          rw [afterKey_skip k c p hp] at h
          rw [ih h ht' hs']

/-- C144: of a text `pre "key" : "value" ...` in which nothing but the value and what follows it differs, the lookup of the
key shows nothing but the length of the value. -/
theorem C144_value (k pre gap v1 v2 post1 post2 : List Byte) (room : Nat)
    (hfirst : afterKey k (pre ++ k ++ [34#8]) = some []) (hg : 34#8 ∉ gap) (h1 : 34#8 ∉ v1) (h2 : 34#8 ∉ v2)
    (hlen : v1.length = v2.length) :
    told k (pre ++ k ++ [34#8] ++ gap ++ [34#8] ++ v1 ++ [34#8] ++ post1) room =
      told k (pre ++ k ++ [34#8] ++ gap ++ [34#8] ++ v2 ++ [34#8] ++ post2) room := by
  have hap : ∀ s : List Byte, afterKey k (pre ++ k ++ [34#8] ++ s) = some s := by
    intro s
    obtain ⟨p, e, hmin⟩ := (afterKey_iff k _ _).mp hfirst
    have hpre : p = pre := by
      have e' : pre ++ (k ++ [34#8]) = p ++ (k ++ [34#8]) := by simpa using e
      exact (List.append_cancel_right e').symm
    rw [afterKey_iff]
    refine ⟨pre, by simp, ?_⟩
    intro q w hq
    apply Classical.byContradiction
    intro hlt
    have hqk : q ++ k <+: pre ++ k ++ [34#8] := by
      refine List.prefix_of_prefix_length_le (l₃ := pre ++ k ++ [34#8] ++ s) ⟨w, hq.symm⟩ ⟨s, rfl⟩ ?_
      simp only [List.length_append]; omega
    obtain ⟨w', hw'⟩ := hqk
    have := hmin q w' hw'.symm
    rw [hpre] at this
    omega
  have hq1 : ∀ (x s : List Byte), 34#8 ∉ x → (x ++ [34#8] ++ s).takeWhile notQuote = x ∧
      ((x ++ [34#8] ++ s).dropWhile notQuote).drop 1 = s := by
    intro x s hx
    induction x with
    | nil => simp [notQuote]
    | cons a x ih =>
      have ha : a ≠ 34#8 := fun e => hx (by simp [e])
      have := ih (fun h => hx (by simp [h]))
      simp only [List.cons_append, List.takeWhile_cons, List.dropWhile_cons, notQuote, ha, decide_false, Bool.not_false, if_true]
      exact ⟨congrArg (a :: ·) this.1, this.2⟩
  have ht : ∀ v post : List Byte, 34#8 ∉ v → told k (pre ++ k ++ [34#8] ++ gap ++ [34#8] ++ v ++ [34#8] ++ post) room =
      (k.length, agrees k (pre ++ k ++ [34#8] ++ (gap ++ [34#8] ++ (v ++ [34#8] ++ post))), some (gap.length, min room v.length)) := by
    intro v post hv
    have e : pre ++ k ++ [34#8] ++ gap ++ [34#8] ++ v ++ [34#8] ++ post =
        pre ++ k ++ [34#8] ++ (gap ++ [34#8] ++ (v ++ [34#8] ++ post)) := by simp only [List.append_assoc]
    rw [e, told, hap, Option.map_some, (hq1 gap _ hg).1, (hq1 gap _ hg).2, (hq1 v _ hv).1]
  rw [ht v1 post1 h1, ht v2 post2 h2, hlen,
    agrees_append (p := pre ++ k ++ [34#8]) (by rw [hfirst]; simp) ⟨_, rfl⟩ ⟨_, rfl⟩]

/-! ### What is told to one who may choose the key -/

/-- C144: with the beginning `p` of the text known, the next byte is found with at most 255 keys: it is the one for which
the first comparison goes one byte further. -/
theorem C144_guess (p t : List Byte) (c : Byte) (hl : p.length + 1 < t.length) :
    (agrees (p ++ [c]) t).head? = some (p.length + 1) ↔ p ++ [c] <+: t := by
  cases t with
  | nil => simp at hl
  | cons a t =>
    rw [agrees, if_pos (by simpa using hl), List.head?_cons, prefix_iff_agree]
    simp

/-- C144: all keys together tell the whole text up to its NUL (of which the buffer has to have one byte more): two buffers
of the same size of which every key tells the same hold the same text. -/
theorem C144_all (t1 t2 : List Byte) (room : Nat) (hl : t1.length = t2.length)
    (h : ∀ k, 0#8 ∉ k → told k t1 room = told k t2 room) :
    upToNul (t1.take (t1.length - 1)) = upToNul (t2.take (t2.length - 1)) := by
  have main : ∀ s1 s2 : List Byte, s1.length = s2.length → (∀ k, 0#8 ∉ k → told k s1 room = told k s2 room) →
      upToNul (s1.take (s1.length - 1)) <+: upToNul (s2.take (s2.length - 1)) := by
    intro s1 s2 hs hh
    generalize hp : upToNul (s1.take (s1.length - 1)) = p
    have h0 : 0#8 ∉ p := by
      rw [← hp]
      intro hm
      have := List.mem_takeWhile_imp hm
      simp at this
    have hps : p <+: s1.take (s1.length - 1) := by rw [← hp]; exact List.takeWhile_prefix _
    have hpl := hps.length_le
    rw [List.length_take] at hpl
    cases s1 with
    | nil =>
      simp at hps
      subst hps; exact List.nil_prefix
    | cons a s1 =>
      cases s2 with
      | nil => simp at hs
      | cons a' s2 =>
        simp only [List.length_cons] at hpl hs
        have ht := hh p h0
        have ha : agrees p (a :: s1) = agrees p (a' :: s2) := (Prod.mk.inj (Prod.mk.inj ht).2).1
        have c1 : p.length < (a :: s1).length := by rw [List.length_cons]; omega
        have c2 : p.length < (a' :: s2).length := by rw [List.length_cons]; omega
        rw [agrees, agrees, if_pos c1, if_pos c2] at ha
        have h1 : p <+: a :: s1 := hps.trans (List.take_prefix _ _)
        have h2 : p <+: a' :: s2 := by
          rw [prefix_iff_agree, ← (List.cons.inj ha).1, ← prefix_iff_agree]; exact h1
        have h3 : p <+: (a' :: s2).take ((a' :: s2).length - 1) :=
          List.prefix_of_prefix_length_le h2 (List.take_prefix _ _) (by rw [List.length_take]; simp; omega)
        obtain ⟨w, hw⟩ := h3
        rw [← hw, upToNul, List.takeWhile_append_of_pos]
        · exact List.prefix_append _ _
        · intro x hx
          have : x ≠ 0#8 := fun e => h0 (e ▸ hx)
          simp [this]
  exact (main t1 t2 hl h).eq_of_length (Nat.le_antisymm (main t1 t2 hl h).length_le
    (main t2 t1 hl.symm fun k hk => (h k hk).symm).length_le)

/-! ### Non-vacuity -/

/-- What a run shows. -/
def shownBy {α : Type} : Res (α × List Leak) → Option (List Leak)
  | .ok (_, t) _ => some t
  | .ub _ => none

/-- A text, the key `pin` and an output of 8 bytes. -/
def pinMem (v : String) : Mem := memL [ascii ("{\"pin\":\"" ++ v ++ "\"}") ++ [0], ascii "pin" ++ [0], List.replicate 8 7]

/-- Two values of the same length: nothing different is shown; one of another length is told apart. -/
example : told (ascii "pin") (slice ((pinMem "1234").bytes 0) 0 15) 8 = (3, [0, 0, 3], some (1, 4)) ∧
    afterKey (ascii "pin") (ascii "{\"" ++ ascii "pin" ++ [34#8]) = some [] ∧
    shownBy (findByKeyT (ptr 0 0) 15#64 (ptr 1 0) (ptr 2 0) 8#64 (pinMem "1234")) =
      shownBy (findByKeyT (ptr 0 0) 15#64 (ptr 1 0) (ptr 2 0) 8#64 (pinMem "9999")) ∧
    shownBy (findByKeyT (ptr 0 0) 15#64 (ptr 1 0) (ptr 2 0) 8#64 (pinMem "1234")) ≠
      shownBy (findByKeyT (ptr 0 0) 15#64 (ptr 1 0) (ptr 2 0) 8#64 (pinMem "12\"4")) ∧
    shownBy (findByKeyT (ptr 0 0) 15#64 (ptr 1 0) (ptr 2 0) 8#64 (pinMem "1234")) ≠ none := by
  decide +kernel

/-- Guessing the first digit of the value with the beginning of the text as key. -/
example : (agrees (ascii "{\"pin\":\"1") (slice ((pinMem "1234").bytes 0) 0 15)).head? = some 9 ∧
    (agrees (ascii "{\"pin\":\"2") (slice ((pinMem "1234").bytes 0) 0 15)).head? = some 8 := by decide +kernel

end IMU.Props
