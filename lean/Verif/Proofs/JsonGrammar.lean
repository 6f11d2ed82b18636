import Verif.Spec.JsonGrammar
import Verif.Spec.Json
import Mathlib.Tactic.Ring

/-!
# The JSON grammar is unambiguous on the texts of the builder
-/

namespace IMU.Spec.Rfc8259
open Spec.Json

theorem Utf8.first {x : List Byte} {c : Nat} (h : Utf8 x c) : ∃ a t, x = a :: t ∧ (0x80 ≤ a.toNat → 0x80 ≤ c) ∧
    (a.toNat < 0x80 → c = a.toNat ∧ t = []) := by
  cases h with
  | one ha => exact ⟨_, _, rfl, by omega, fun _ => ⟨rfl, rfl⟩⟩
  | two ha hb => exact ⟨_, _, rfl, by omega, by omega⟩
  | three ha hb hc h1 h2 => unfold Tail at *; exact ⟨_, _, rfl, by omega, by omega⟩
  | four ha hb hc hd h1 h2 => unfold Tail at *; exact ⟨_, _, rfl, by omega, by omega⟩

theorem Utf8.det {x y r r' : List Byte} {c d : Nat} (h : Utf8 x c) (h' : Utf8 y d) (e : x ++ r = y ++ r') :
    x = y ∧ c = d ∧ r = r' := by
  have hd : ∀ {a b : Byte} {l l' : List Byte}, (a :: l) ++ r = (b :: l') ++ r' → a.toNat = b.toNat ∧ l ++ r = l' ++ r' := by
    intro a b l l' h
    obtain ⟨h1, h2⟩ := List.cons.inj h
    exact ⟨congrArg BitVec.toNat h1, h2⟩
  have hq : ∀ {a b : Byte}, a.toNat = b.toNat → a = b := fun h => BitVec.eq_of_toNat_eq h
  cases h with
  | one ha => cases h' with
    | one => obtain ⟨e1, e⟩ := hd e; obtain rfl := hq e1; exact ⟨rfl, rfl, List.append_cancel_left e⟩
    | two => have := (hd e).1; omega
    | three => have := (hd e).1; omega
    | four => have := (hd e).1; omega
  | two ha hb => cases h' with
    | one => have := (hd e).1; omega
    | two =>
      obtain ⟨e1, e⟩ := hd e; obtain ⟨e2, e⟩ := hd e; obtain rfl := hq e1; obtain rfl := hq e2; exact ⟨rfl, rfl, List.append_cancel_left e⟩
    | three => have := (hd e).1; omega
    | four => have := (hd e).1; omega
  | three ha hb hc h1 h2 => cases h' with
    | one => have := (hd e).1; omega
    | two => have := (hd e).1; omega
    | three =>
      obtain ⟨e1, e⟩ := hd e; obtain ⟨e2, e⟩ := hd e; obtain ⟨e3, e⟩ := hd e
      obtain rfl := hq e1; obtain rfl := hq e2; obtain rfl := hq e3; exact ⟨rfl, rfl, List.append_cancel_left e⟩
    | four => have := (hd e).1; omega
  | four ha hb hc hd' h1 h2 => cases h' with
    | one => have := (hd e).1; omega
    | two => have := (hd e).1; omega
    | three => have := (hd e).1; omega
    | four =>
      obtain ⟨e1, e⟩ := hd e; obtain ⟨e2, e⟩ := hd e; obtain ⟨e3, e⟩ := hd e; obtain ⟨e4, e⟩ := hd e
      obtain rfl := hq e1; obtain rfl := hq e2; obtain rfl := hq e3; obtain rfl := hq e4; exact ⟨rfl, rfl, List.append_cancel_left e⟩

theorem plain_first {x : List Byte} {c : Nat} (h : Utf8 x c) (hc : 0x20 ≤ c ∧ c ≠ 0x22 ∧ c ≠ 0x5C) :
    ∃ a t, x = a :: t ∧ a ≠ 34#8 ∧ a ≠ 92#8 := by
  obtain ⟨a, t, rfl, _, h2⟩ := h.first
  refine ⟨a, t, rfl, ?_, ?_⟩
  · rintro rfl; have := (h2 (by decide)).1; simp at this; omega
  · rintro rfl; have := (h2 (by decide)).1; simp at this; omega

theorem Chr.first {x : List Byte} {c : Nat} (h : Chr x c) : ∃ a t, x = a :: t ∧ a ≠ 34#8 := by
  cases h with
  | plain hx hc => obtain ⟨a, t, e, h1, _⟩ := plain_first hx hc; exact ⟨a, t, e, h1⟩
  | esc h => exact ⟨_, _, rfl, by decide⟩
  | hex => exact ⟨_, _, rfl, by decide⟩

theorem Hex.det {b : Byte} {i j : Nat} (h : Hex b i) (h' : Hex b j) : i = j := by unfold Hex at *; omega

theorem Chr.det {x y r r' : List Byte} {c d : Nat} (h : Chr x c) (h' : Chr y d) (e : x ++ r = y ++ r') :
    x = y ∧ c = d ∧ r = r' := by
  have hesc : ∀ b c d, (b, c) ∈ escapes → (b, d) ∈ escapes → c = d := by
    intro b c d h1 h2
    simp only [escapes, List.mem_cons, Prod.mk.injEq, List.not_mem_nil, or_false] at h1 h2
    rcases h1 with ⟨rfl, rfl⟩ | ⟨rfl, rfl⟩ | ⟨rfl, rfl⟩ | ⟨rfl, rfl⟩ | ⟨rfl, rfl⟩ | ⟨rfl, rfl⟩ | ⟨rfl, rfl⟩ | ⟨rfl, rfl⟩ <;>
      simp at h2 <;> exact h2.symm
  have hu : ∀ c, (117#8, c) ∉ escapes := by intro c; simp [escapes]
  cases h with
  | plain hx hc =>
    cases h' with
    | plain hy hd => exact hx.det hy e
    | esc hb =>
      obtain ⟨a, t, rfl, _, h2⟩ := plain_first hx hc
      simp at e; exact absurd e.1 h2
    | hex =>
      obtain ⟨a, t, rfl, _, h2⟩ := plain_first hx hc
      simp at e; exact absurd e.1 h2
  | esc hb =>
    cases h' with
    | plain hy hd =>
      obtain ⟨a, t, rfl, _, h2⟩ := plain_first hy hd
      simp at e; exact absurd e.1.symm h2
    | esc hb' =>
      simp only [List.cons_append, List.nil_append, List.cons.injEq, true_and] at e
      obtain ⟨rfl, rfl⟩ := e
      exact ⟨rfl, hesc _ _ _ hb hb', rfl⟩
    | hex =>
      simp only [List.cons_append, List.nil_append, List.cons.injEq, true_and] at e
      obtain ⟨rfl, _⟩ := e
      exact absurd hb (hu _)
  | hex h1 h2 h3 h4 =>
    cases h' with
    | plain hy hd =>
      obtain ⟨a, t, rfl, _, h2⟩ := plain_first hy hd
      simp at e; exact absurd e.1.symm h2
    | esc hb' =>
      simp only [List.cons_append, List.nil_append, List.cons.injEq, true_and] at e
      obtain ⟨rfl, _⟩ := e
      exact absurd hb' (hu _)
    | hex g1 g2 g3 g4 =>
      simp only [List.cons_append, List.nil_append, List.cons.injEq, true_and] at e
      obtain ⟨rfl, rfl, rfl, rfl, rfl⟩ := e
      rw [h1.det g1, h2.det g2, h3.det g3, h4.det g4]
      exact ⟨rfl, rfl, rfl⟩

theorem Body.det {x : List Byte} {s : List Nat} (h : Body x s) : ∀ {y r r' : List Byte} {t : List Nat}, Body y t →
    x ++ 34#8 :: r = y ++ 34#8 :: r' → x = y ∧ s = t ∧ r = r' := by
  induction h with
  | nil =>
    intro y r r' t h' e
    cases h' with
    | nil => simpa using e
    | cons hx hy =>
      obtain ⟨a, u, rfl, hq⟩ := hx.first
      simp at e; exact absurd e.1.symm hq
  | cons hx hy ih =>
    intro y r r' t h' e
    cases h' with
    | nil =>
      obtain ⟨a, u, rfl, hq⟩ := hx.first
      simp at e; exact absurd e.1 hq
    | cons hx' hy' =>
      rw [List.append_assoc, List.append_assoc] at e
      obtain ⟨rfl, rfl, e⟩ := hx.det hx' e
      obtain ⟨rfl, rfl, rfl⟩ := ih hy' e
      exact ⟨rfl, rfl, rfl⟩

theorem Str.det {x y r r' : List Byte} {s t : List Nat} (h : Str x s) (h' : Str y t) (e : x ++ r = y ++ r') :
    x = y ∧ s = t ∧ r = r' := by
  obtain ⟨a, ha, rfl⟩ := h
  obtain ⟨b, hb, rfl⟩ := h'
  simp only [List.append_assoc, List.cons_append, List.nil_append, List.cons.injEq, true_and] at e
  obtain ⟨rfl, rfl, rfl⟩ := ha.det hb e
  exact ⟨rfl, rfl, rfl⟩

theorem Str.first {x : List Byte} {s : List Nat} (h : Str x s) : ∃ t, x = 34#8 :: t := by
  obtain ⟨y, -, rfl⟩ := h; exact ⟨_, rfl⟩

theorem str_str {k : List Byte} {s : List Nat} (h : Body k s) : Str (str k) s := ⟨k, h, rfl⟩

/-- White space in front of something that does not start with it is empty. -/
theorem Ws.none {a r : List Byte} {b : Byte} {t : List Byte} (ha : Ws a) (e : a ++ r = b :: t)
    (hb : ¬ (b = 0x20#8 ∨ b = 0x09#8 ∨ b = 0x0A#8 ∨ b = 0x0D#8)) : a = [] ∧ r = b :: t := by
  cases a with
  | nil => exact ⟨rfl, e⟩
  | cons c a =>
    simp at e
    exact absurd (e.1 ▸ ha c (List.mem_cons_self ..)) hb

/-- A value that starts with a quotation mark is a string. -/
theorem Value.of_quote {x r t : List Byte} {v : Tree} (h : Value x v) (e : x ++ r = 34#8 :: t) : ∃ s, Str x s ∧ v = .string s := by
  cases h with
  | string h => exact ⟨_, h, rfl⟩
  | number h =>
    exfalso
    obtain ⟨s, i, f, g, rfl, hs, hi, -, -⟩ := h
    have hi0 : ∃ d u, i = d :: u ∧ 48 ≤ d.toNat := by
      rcases hi with rfl | ⟨⟨h1, h2⟩, -⟩
      · exact ⟨_, _, rfl, by decide⟩
      · cases i with
        | nil => exact absurd rfl h1
        | cons d u => exact ⟨d, u, rfl, (h2 d (List.mem_cons_self ..)).1⟩
    obtain ⟨d, u, rfl, hd⟩ := hi0
    rcases hs with rfl | rfl
    · simp at e; rw [e.1] at hd; simp at hd
    · simp at e
  | _ => simp at e

/-- Parsing one member of a built document in front of anything. -/
theorem member_det {k v s t a k' b c x d r r' : List Byte} {ks vs ks' : List Nat} {tr : Tree} (hk : Body k ks) (hv : Body v vs)
    (ha : Ws a) (hk' : Str k' ks') (hb : Ws b) (hc : Ws c) (hx : Value x tr) (hd : Ws d)
    (e : a ++ k' ++ b ++ [58#8] ++ c ++ x ++ d ++ r = member k v ++ r') :
    ks' = ks ∧ tr = .string vs ∧ d ++ r = r' := by
  simp only [member, List.append_assoc] at e
  obtain ⟨rfl, e1⟩ := ha.none (b := 34#8) (t := k ++ ([34#8] ++ ([58#8] ++ (str v ++ r')))) (by rw [e]; simp [str]) (by decide)
  obtain ⟨-, rfl, e2⟩ := hk'.det (str_str hk) (r' := [58#8] ++ (str v ++ r')) (by rw [e1]; simp [str])
  obtain ⟨rfl, e3⟩ := hb.none (b := 58#8) e2 (by decide)
  simp only [List.cons_append, List.nil_append, List.cons.injEq, true_and] at e3
  obtain ⟨rfl, e4⟩ := hc.none (b := 34#8) (t := v ++ ([34#8] ++ r')) (by rw [e3]; simp [str]) (by decide)
  obtain ⟨s, hs, rfl⟩ := hx.of_quote e4
  obtain ⟨-, rfl, e5⟩ := hs.det (str_str hv) (r' := r') (by rw [e4]; simp [str])
  exact ⟨rfl, rfl, e5⟩

/-- The members of a document with decoded strings. -/
def Decoded (l : List (List Byte × List Byte)) (d : List (List Nat × List Nat)) : Prop :=
  List.Forall₂ (fun x y => Body x.1 y.1 ∧ Body x.2 y.2) l d

def tree (d : List (List Nat × List Nat)) : Tree := .object (d.map fun y => (y.1, .string y.2))

theorem members_parse : ∀ {l : List (List Byte × List Byte)} {d : List (List Nat × List Nat)}, Decoded l d → l ≠ [] →
    Members (members l) (d.map fun y => (y.1, Tree.string y.2)) := by
  intro l d h
  induction h with
  | nil => intro h; exact absurd rfl h
  | @cons x y l d hxy hl ih =>
    intro _
    cases hl with
    | nil =>
      have := Members.one (a := []) (b := []) (c := []) (d := []) (by simp [Ws]) (str_str hxy.1) (by simp [Ws]) (by simp [Ws])
        (Value.string (str_str hxy.2)) (by simp [Ws])
      simpa [members, member] using this
    | @cons x' y' l d h1 h2 =>
      have := Members.cons (a := []) (b := []) (c := []) (d := []) (by simp [Ws]) (str_str hxy.1) (by simp [Ws]) (by simp [Ws])
        (Value.string (str_str hxy.2)) (by simp [Ws]) (ih (by simp))
      simpa [members, member] using this

theorem members_unique : ∀ {l : List (List Byte × List Byte)} {d : List (List Nat × List Nat)}, Decoded l d → l ≠ [] →
    ∀ {x : List Byte} {L : List (List Nat × Tree)}, Members x L → x = members l →
    L = d.map fun y => (y.1, Tree.string y.2) := by
  intro l d h
  induction h with
  | nil => intro h; exact absurd rfl h
  | @cons p q l d hxy hl ih =>
    intro _ x L hM e
    cases hl with
    | nil =>
      cases hM with
      | one ha hk hb hc hx hd =>
        obtain ⟨rfl, rfl, -⟩ := member_det (r := []) (r' := []) (s := []) (t := []) hxy.1 hxy.2 ha hk hb hc hx hd
          (by simpa [members] using e)
        rfl
      | @cons a k b c x w y s v l' ha hk hb hc hx hd hy =>
        obtain ⟨-, -, e⟩ := member_det (r := [44#8] ++ y) (r' := []) (s := []) (t := []) hxy.1 hxy.2 ha hk hb hc hx hd
          (by simpa [members] using e)
        simp at e
    | @cons p' q' l d h1 h2 =>
      have em : members (p :: p' :: l) = member p.1 p.2 ++ ([44#8] ++ members (p' :: l)) := by simp [members]
      cases hM with
      | @one a k b c x w s v ha hk hb hc hx hd =>
        obtain ⟨-, -, e⟩ := member_det (r := []) (s := []) (t := []) hxy.1 hxy.2 ha hk hb hc hx hd
          (by rw [List.append_nil, e, em])
        obtain ⟨rfl, e⟩ := hd.none (b := 44#8) e (by decide)
        cases e
      | @cons a k b c x w y s v l' ha hk hb hc hx hd hy =>
        obtain ⟨rfl, rfl, e⟩ := member_det (r := [44#8] ++ y) (s := []) (t := []) hxy.1 hxy.2 ha hk hb hc hx hd
          (by rw [← em, ← e]; simp)
        obtain ⟨rfl, e⟩ := hd.none (b := 44#8) e (by decide)
        simp only [List.cons_append, List.nil_append, List.cons.injEq, true_and] at e
        rw [ih (by simp) hy e]
        rfl

/-! ### Strings without escapes -/

theorem Plain.body {x : List Byte} {s : List Nat} (h : Plain x s) : Body x s := by
  induction h with
  | nil => exact .nil
  | cons hx hc _ ih => exact .cons (.plain hx hc) ih

theorem Utf8.high {x : List Byte} {c : Nat} (h : Utf8 x c) : ∀ b ∈ x, b.toNat = c ∨ 0x80 ≤ b.toNat := by
  cases h with
  | one ha => intro b hb; simp at hb; subst hb; exact Or.inl rfl
  | two ha hb =>
    intro b hb'; simp at hb'; unfold Tail at *
    rcases hb' with rfl | rfl <;> omega
  | three ha hb hc h1 h2 =>
    intro b hb'; simp at hb'; unfold Tail at *
    rcases hb' with rfl | rfl | rfl <;> omega
  | four ha hb hc hd h1 h2 =>
    intro b hb'; simp at hb'; unfold Tail at *
    rcases hb' with rfl | rfl | rfl | rfl <;> omega

theorem Chr.quote {x : List Byte} {c : Nat} (h : Chr x c) : 34#8 ∈ x → x = [92#8, 34#8] := by
  intro hq
  cases h with
  | plain hx hc =>
    have := hx.high _ hq
    simp at this; omega
  | esc hb => simp at hq; rw [← hq]
  | hex h1 h2 h3 h4 =>
    exfalso
    unfold Hex at *
    simp at hq
    rcases hq with rfl | rfl | rfl | rfl <;> simp at *

theorem Body.quote {y : List Byte} {s : List Nat} (h : Body y s) : ∀ {u w : List Byte}, y = u ++ 34#8 :: w → 92#8 ∈ u := by
  induction h with
  | nil => intro u w e; simp at e
  | @cons x y c s hx hy ih =>
    intro u w e
    rcases List.append_eq_append_iff.mp e with ⟨a, rfl, e2⟩ | ⟨a, e1, e2⟩
    · exact List.mem_append_right _ (ih e2)
    · cases a with
      | nil =>
        simp at e1 e2
        obtain ⟨b, t, h1, h2⟩ := hx.first
        rw [e1] at h1
        subst h1
        have := ih (u := []) (w := w) e2.symm
        simp at this
      | cons b a =>
        simp only [List.cons_append, List.cons.injEq] at e2
        obtain ⟨rfl, -⟩ := e2
        have h := hx.quote (by rw [e1]; simp)
        rw [h] at e1
        cases u with
        | nil => simp at e1
        | cons d u =>
          simp only [List.cons_append, List.cons.injEq] at e1
          rw [← e1.1]
          simp

/-- No quotation mark, no reverse solidus. -/
def Free (k : List Byte) : Prop := 34#8 ∉ k ∧ 92#8 ∉ k

theorem Chr.free {x : List Byte} {c : Nat} (h : Chr x c) (hf : 92#8 ∉ x) : Utf8 x c ∧ 0x20 ≤ c ∧ c ≠ 0x22 ∧ c ≠ 0x5C := by
  cases h with
  | plain hx hc => exact ⟨hx, hc⟩
  | esc hb => simp at hf
  | hex => simp at hf

theorem Body.plain {y : List Byte} {s : List Nat} (h : Body y s) (hf : 92#8 ∉ y) : Plain y s := by
  induction h with
  | nil => exact .nil
  | cons hx hy ih =>
    rw [List.mem_append, not_or] at hf
    obtain ⟨h1, h2⟩ := hx.free hf.1
    exact .cons h1 h2 (ih hf.2)

theorem Plain.free {x : List Byte} {s : List Nat} (h : Plain x s) : Free x := by
  induction h with
  | nil => exact ⟨by simp, by simp⟩
  | @cons x y c s hx hc _ ih =>
    have := hx.high
    refine ⟨?_, ?_⟩
    · rw [List.mem_append, not_or]
      refine ⟨fun h => ?_, ih.1⟩
      have := this _ h; simp at this; omega
    · rw [List.mem_append, not_or]
      refine ⟨fun h => ?_, ih.2⟩
      have := this _ h; simp at this; omega

theorem Body.cut {y k r r' : List Byte} {s : List Nat} (h : Body y s) (hk : Free k) (e : y ++ 34#8 :: r = k ++ 34#8 :: r') :
    y = k ∧ r = r' := by
  rcases List.append_eq_append_iff.mp e with ⟨a, rfl, e2⟩ | ⟨a, rfl, e2⟩
  · cases a with
    | nil => simp at e2; exact ⟨by simp, e2⟩
    | cons b a =>
      simp only [List.cons_append, List.cons.injEq] at e2
      obtain ⟨rfl, -⟩ := e2
      exact absurd (by simp) hk.1
  · cases a with
    | nil => simp at e2; exact ⟨by simp, e2.symm⟩
    | cons b a =>
      simp only [List.cons_append, List.cons.injEq] at e2
      obtain ⟨rfl, -⟩ := e2
      exact absurd (h.quote rfl) hk.2

theorem Str.cut {x k r r' : List Byte} {s : List Nat} (h : Str x s) (hk : Free k) (e : x ++ r = str k ++ r') :
    Plain k s ∧ r = r' := by
  obtain ⟨y, hy, rfl⟩ := h
  simp only [str, List.append_assoc, List.cons_append, List.nil_append, List.cons.injEq, true_and] at e
  obtain ⟨rfl, rfl⟩ := hy.cut hk e
  exact ⟨hy.plain hk.2, rfl⟩

theorem member_cut {k v a k' b c x d r r' : List Byte} {ks' : List Nat} {tr : Tree} (hk : Free k) (hv : Free v)
    (ha : Ws a) (hk' : Str k' ks') (hb : Ws b) (hc : Ws c) (hx : Value x tr)
    (e : a ++ k' ++ b ++ [58#8] ++ c ++ x ++ d ++ r = member k v ++ r') :
    Plain k ks' ∧ (∃ vs, Plain v vs) ∧ d ++ r = r' := by
  simp only [member, List.append_assoc] at e
  obtain ⟨rfl, e1⟩ := ha.none (b := 34#8) (t := k ++ ([34#8] ++ ([58#8] ++ (str v ++ r')))) (by rw [e]; simp [str]) (by decide)
  obtain ⟨hp, e2⟩ := hk'.cut hk (r' := [58#8] ++ (str v ++ r')) (by rw [e1]; simp [str])
  obtain ⟨rfl, e3⟩ := hb.none (b := 58#8) e2 (by decide)
  simp only [List.cons_append, List.nil_append, List.cons.injEq, true_and] at e3
  obtain ⟨rfl, e4⟩ := hc.none (b := 34#8) (t := v ++ ([34#8] ++ r')) (by rw [e3]; simp [str]) (by decide)
  obtain ⟨s, hs, rfl⟩ := hx.of_quote e4
  obtain ⟨hq, e5⟩ := hs.cut hv (r' := r') (by rw [e4]; simp [str])
  exact ⟨hp, ⟨_, hq⟩, e5⟩

theorem members_plain : ∀ {l : List (List Byte × List Byte)}, (∀ p ∈ l, Free p.1 ∧ Free p.2) →
    ∀ {x : List Byte} {L : List (List Nat × Tree)}, Members x L → x = members l →
    ∀ p ∈ l, (∃ s, Plain p.1 s) ∧ ∃ s, Plain p.2 s := by
  intro l
  induction l with
  | nil => intro _ x L _ _ p hp; cases hp
  | cons p l ih =>
    intro hf x L hM e
    obtain ⟨hf1, hf2⟩ := hf p (List.mem_cons_self ..)
    cases l with
    | nil =>
      intro q hq
      simp at hq; subst hq
      cases hM with
      | one ha hk hb hc hx hd =>
        obtain ⟨h1, h2, -⟩ := member_cut (r := []) (r' := []) hf1 hf2 ha hk hb hc hx (by simpa [members] using e)
        exact ⟨⟨_, h1⟩, h2⟩
      | @cons a k b c x w y s v l' ha hk hb hc hx hd hy =>
        obtain ⟨h1, h2, -⟩ := member_cut (r := [44#8] ++ y) (r' := []) hf1 hf2 ha hk hb hc hx (by simpa [members] using e)
        exact ⟨⟨_, h1⟩, h2⟩
    | cons p' l =>
      have em : members (p :: p' :: l) = member p.1 p.2 ++ ([44#8] ++ members (p' :: l)) := by simp [members]
      cases hM with
      | @one a k b c x w s v ha hk hb hc hx hd =>
        obtain ⟨-, -, e⟩ := member_cut (r := []) hf1 hf2 ha hk hb hc hx (by rw [List.append_nil, e, em])
        obtain ⟨rfl, e⟩ := hd.none (b := 44#8) e (by decide)
        cases e
      | @cons a k b c x w y s v l' ha hk hb hc hx hd hy =>
        obtain ⟨h1, h2, e⟩ := member_cut (d := w) (r := [44#8] ++ y) hf1 hf2 ha hk hb hc hx (by rw [← em, ← e]; simp)
        obtain ⟨rfl, e⟩ := hd.none (b := 44#8) e (by decide)
        simp only [List.cons_append, List.nil_append, List.cons.injEq, true_and] at e
        have := ih (fun q hq => hf q (List.mem_cons_of_mem _ hq)) hy e
        intro q hq
        rcases List.mem_cons.mp hq with rfl | hq
        · exact ⟨⟨_, h1⟩, h2⟩
        · exact this q hq

theorem Plain.rest {v : List Byte} {vs : List Nat} (h : Plain v vs) : ∀ {y z : List Byte} {s : List Nat}, Body y s → y = v ++ z →
    ∃ s', Body z s' := by
  induction h with
  | nil => intro y z s hy e; exact ⟨s, by rw [← List.nil_append z, ← e]; exact hy⟩
  | cons hx hc _ ih =>
    intro y z s hy e
    cases hy with
    | nil =>
      obtain ⟨a, t, rfl, -⟩ := hx.first
      simp at e
    | cons hx' hy' =>
      rw [List.append_assoc] at e
      obtain ⟨-, -, e⟩ := hx'.det (.plain hx hc) e
      exact ih hy' e

theorem Body.not_solidus {y : List Byte} {s : List Nat} (h : Body y s) : y ≠ [92#8] := by
  cases h with
  | nil => simp
  | cons hx hy =>
    intro e
    cases hx with
    | plain hx hc =>
      obtain ⟨a, t, rfl, -, h2⟩ := plain_first hx hc
      simp at e; exact h2 e.1
    | esc => simp at e
    | hex => simp at e

/-! ### Whole documents -/

theorem value_document {l : List (List Byte × List Byte)} {v : Tree} (h : JsonText (document l) v) :
    (l = [] ∧ v = .object []) ∨ (l ≠ [] ∧ ∃ L, Members (members l) L ∧ v = .object L) := by
  obtain ⟨a, x, b, ha, hx, hb, e⟩ := h
  rw [List.append_assoc] at e
  obtain ⟨rfl, e⟩ := ha.none (b := 123#8) (t := members l ++ [125#8]) (by rw [← e]; simp [document]) (by decide)
  have hb0 : b = [] ∧ x = document l := by
    rcases List.eq_nil_or_concat b with rfl | ⟨b', c, rfl⟩
    · exact ⟨rfl, by simpa [document] using e.symm⟩
    · exfalso
      have h1 := congrArg List.getLast? e
      simp [document] at h1
      rw [← List.cons_append, List.getLast?_concat, Option.some.injEq] at h1
      have h2 := hb c (by simp)
      rw [← h1] at h2
      revert h2; decide
  obtain ⟨rfl, rfl⟩ := hb0
  generalize hd : document l = y at hx
  unfold document at hd
  have hl : l ≠ [] → ∃ t, members l = 34#8 :: t := by
    intro h
    match l, h with
    | [x], _ => exact ⟨_, rfl⟩
    | x :: y :: l, _ => exact ⟨_, rfl⟩
  cases hx with
  | object h =>
    simp only [List.cons_append, List.nil_append, List.cons.injEq, true_and] at hd
    have := List.append_cancel_right hd
    subst this
    refine Or.inr ⟨?_, _, h, rfl⟩
    rintro rfl
    generalize ho : members [] = y at h
    cases h with
    | one ha hk hb hc hx hd => have := congrArg List.length ho; simp [members] at this
    | cons ha hk hb hc hx hd hy => have := congrArg List.length ho; simp [members] at this
  | object0 h =>
    simp only [List.cons_append, List.nil_append, List.cons.injEq, true_and] at hd
    have := List.append_cancel_right hd
    subst this
    by_cases h0 : l = []
    · exact Or.inl ⟨h0, rfl⟩
    · obtain ⟨t, ht⟩ := hl h0
      rw [ht] at h
      have := h 34#8 (by simp)
      exact absurd this (by decide)
  | number h =>
    exfalso
    obtain ⟨s, i, f, g, rfl, hs, hi, -, -⟩ := h
    have hi0 : ∃ d u, i = d :: u ∧ d.toNat ≤ 57 := by
      rcases hi with rfl | ⟨⟨h1, h2⟩, -⟩
      · exact ⟨_, _, rfl, by decide⟩
      · cases i with
        | nil => exact absurd rfl h1
        | cons d u => exact ⟨d, u, rfl, (h2 d (List.mem_cons_self ..)).2⟩
    obtain ⟨d, u, rfl, hd'⟩ := hi0
    rcases hs with rfl | rfl
    · simp at hd; rw [← hd.1] at hd'; simp at hd'
    · simp at hd
  | string h =>
    exfalso
    obtain ⟨t, rfl⟩ := h.first
    simp at hd
  | _ => simp at hd

theorem document_text {l : List (List Byte × List Byte)} {d : List (List Nat × List Nat)} (h : Decoded l d) :
    JsonText (document l) (tree d) := by
  refine ⟨[], document l, [], by simp [Ws], ?_, by simp [Ws], by simp⟩
  cases h with
  | nil => exact Value.object0 (w := []) (by simp [Ws])
  | cons h1 h2 => exact Value.object (members_parse (.cons h1 h2) (by simp))

theorem document_unique {l : List (List Byte × List Byte)} {d : List (List Nat × List Nat)} (h : Decoded l d) {v : Tree}
    (hv : JsonText (document l) v) : v = tree d := by
  rcases value_document hv with ⟨rfl, rfl⟩ | ⟨h0, L, hL, rfl⟩
  · cases h; rfl
  · rw [members_unique h h0 hL rfl]; rfl

end IMU.Spec.Rfc8259
