import Verif.Spec.Base64More
import Verif.Proofs.Base64Decode

namespace IMU.Base64
open Spec.Base64

theorem value_standard (c : Byte) : value (standard c) = value c := by
  revert c; decide +kernel

theorem standard_pad (c : Byte) : standard c = pad ↔ c = pad := by
  revert c; decide +kernel

theorem quad_congr {a b c d a' b' c' d' : Byte} (h1 : value a = value a') (h2 : value b = value b')
    (h3 : value c = value c') (h4 : value d = value d') : quad a b c d = quad a' b' c' d' := by
  unfold quad; rw [h1, h2, h3, h4]

theorem last_standard (a b c : Byte) : last (standard a) (standard b) (standard c) = last a b c := by
  unfold last
  simp only [standard_pad]
  rw [quad_congr (value_standard a) (value_standard b) (value_standard c) rfl,
    quad_congr (value_standard a) (value_standard b) rfl rfl]

theorem decode_standard (s : List Byte) : Spec.Base64.decode (s.map standard) = Spec.Base64.decode s := by
  induction s using Spec.Base64.decode.induct with
  | case1 a b c d t h =>
    obtain ⟨rfl, rfl⟩ := h
    simp only [List.map_cons, List.map_nil, Spec.Base64.decode, standard_pad, and_self, if_true, last_standard]
  | case2 a b c d t h ih =>
    simp only [List.map_cons, Spec.Base64.decode, standard_pad, List.map_eq_nil_iff]
    rw [if_neg h, if_neg h, ih, quad_congr (value_standard a) (value_standard b) (value_standard c) (value_standard d)]
  | case3 a b c => simp only [List.map_cons, List.map_nil, Spec.Base64.decode, last_standard]
  | case4 a b =>
    simp only [List.map_cons, List.map_nil, Spec.Base64.decode]
    rw [← (standard_pad pad).mpr rfl, last_standard, (standard_pad pad).mpr rfl]
  | case5 s h1 h2 h3 =>
    match s, h1, h2, h3 with
    | [], _, _, _ => rfl
    | [a], _, _, _ => rfl
    | [a, b], _, _, h3 => exact absurd rfl (h3 a b)
    | [a, b, c], _, h2, _ => exact absurd rfl (h2 a b c)
    | a :: b :: c :: d :: t, h1, _, _ => exact absurd rfl (h1 a b c d t)

theorem unpadded (d : List Byte) : (Spec.Base64.encode d).filter (· ≠ pad) = (Spec.Base64.encode d).take
    ((4 * d.length + 2) / 3) := by
  induction d using Spec.Base64.encode.induct with
  | case1 => rfl
  | case2 a => simp [Spec.Base64.encode, char_ne_pad (sextet_lt _ _)]
  | case3 a b => simp [Spec.Base64.encode, char_ne_pad (sextet_lt _ _)]
  | case4 a b c t ih =>
    have : (4 * (a :: b :: c :: t).length + 2) / 3 = (4 * t.length + 2) / 3 + 4 := by simp only [List.length_cons]; omega
    rw [this]
    simp only [Spec.Base64.encode, List.cons_append, List.nil_append, List.take_succ_cons, ← ih]
    simp [char_ne_pad (sextet_lt _ _)]

theorem decode_unpadded (d : List Byte) : Spec.Base64.decode ((Spec.Base64.encode d).filter (· ≠ pad)) = d := by
  induction d using Spec.Base64.encode.induct with
  | case1 => rfl
  | case2 a =>
    simp only [Spec.Base64.encode, ne_eq, char_ne_pad (sextet_lt _ _), not_false_eq_true, decide_true,
      List.filter_cons_of_pos, not_true_eq_false, decide_false, Bool.false_eq_true, List.filter_cons_of_neg,
      List.filter_nil, Spec.Base64.decode, last_one]
  | case3 a b =>
    simp only [Spec.Base64.encode, ne_eq, char_ne_pad (sextet_lt _ _), not_false_eq_true, decide_true,
      List.filter_cons_of_pos, not_true_eq_false, decide_false, Bool.false_eq_true, List.filter_cons_of_neg,
      List.filter_nil, Spec.Base64.decode, last_two]
  | case4 a b c t ih =>
    simp only [Spec.Base64.encode, List.cons_append, List.nil_append, ne_eq, char_ne_pad (sextet_lt _ _),
      not_false_eq_true, decide_true, List.filter_cons_of_pos, Spec.Base64.decode]
    rw [if_neg (fun h => h.2), quad_sextets (group_lt _ _ _), (octet_group a b c).1,
      (octet_group a b c).2.1, (octet_group a b c).2.2]
    simp only [ne_eq] at ih
    rw [ih]

theorem TextOf.decode {d s : List Byte} (h : TextOf d s) : Spec.Base64.decode s = d := by
  rw [← decode_standard]
  rcases h with h | h
  · rw [h, decode_encode]
  · rw [h, decode_unpadded]

theorem TextOf.length {d s : List Byte} (h : TextOf d s) :
    s.length = 4 * ((d.length + 2) / 3) ∨ s.length = (4 * d.length + 2) / 3 := by
  rcases h with h | h
  · left; rw [← encode_length, ← h, List.length_map]
  · right
    have := congrArg List.length h
    rw [List.length_map, unpadded, List.length_take, encode_length] at this
    omega

theorem octets_quad {a b c d a' b' c' d' : Byte} (h0 : octet (quad a b c d) 0 = octet (quad a' b' c' d') 0)
    (h1 : octet (quad a b c d) 1 = octet (quad a' b' c' d') 1) (h2 : octet (quad a b c d) 2 = octet (quad a' b' c' d') 2) :
    value a = value a' ∧ value b = value b' ∧ value c = value c' ∧ value d = value d' := by
  have e0 := congrArg BitVec.toNat h0
  have e1 := congrArg BitVec.toNat h1
  have e2 := congrArg BitVec.toNat h2
  have l := quad_lt a b c d
  have l' := quad_lt a' b' c' d'
  simp only [octet, BitVec.toNat_ofNat, Nat.sub_zero, Nat.reduceSub, Nat.reducePow, Nat.div_one] at e0 e1 e2 l l'
  have e : quad a b c d = quad a' b' c' d' := by omega
  have := value_lt a; have := value_lt b; have := value_lt c; have := value_lt d
  have := value_lt a'; have := value_lt b'; have := value_lt c'; have := value_lt d'
  unfold quad at e
  omega

theorem full_inj : ∀ (q : Nat) (p p' : List Byte), p.length = 4 * q → p'.length = 4 * q →
    (full p = full p' ↔ p.map value = p'.map value)
  | 0, p, p', h, h' => by
    rw [List.length_eq_zero_iff.mp h, List.length_eq_zero_iff.mp h']
    simp
  | q + 1, p, p', h, h' => by
    obtain ⟨a, b, c, d, t, rfl, ht⟩ := four h
    obtain ⟨a', b', c', d', t', rfl, ht'⟩ := four h'
    have ih := full_inj q t t' ht ht'
    simp only [full, List.cons_append, List.nil_append, List.cons.injEq, List.map_cons, ih]
    constructor
    · rintro ⟨e0, e1, e2, e⟩
      obtain ⟨v0, v1, v2, v3⟩ := octets_quad e0 e1 e2
      exact ⟨v0, v1, v2, v3, e⟩
    · rintro ⟨v0, v1, v2, v3, e⟩
      rw [quad_congr v0 v1 v2 v3]
      exact ⟨rfl, rfl, rfl, e⟩

theorem last_pad_inj (a b a' b' : Byte) : last a b pad = last a' b' pad ↔ value a = value a' ∧ value b / 16 = value b' / 16 := by
  simp only [last, if_true, List.cons.injEq, and_true]
  have := value_lt a; have := value_lt b; have := value_lt a'; have := value_lt b'
  have l := quad_lt a b 0 0
  have l' := quad_lt a' b' 0 0
  rw [← BitVec.toNat_inj]
  simp only [octet, BitVec.toNat_ofNat, Nat.sub_zero, Nat.reducePow]
  simp only [quad, value_zero] at *
  constructor
  · intro h; omega
  · intro h; omega

theorem last_inj {a b c a' b' c' : Byte} (hc : c ≠ pad) (hc' : c' ≠ pad) : last a b c = last a' b' c' ↔
    value a = value a' ∧ value b = value b' ∧ value c / 4 = value c' / 4 := by
  simp only [last, if_neg hc, if_neg hc', List.cons.injEq, and_true]
  have := value_lt a; have := value_lt b; have := value_lt a'; have := value_lt b'
  have := value_lt c; have := value_lt c'
  have l := quad_lt a b c 0
  have l' := quad_lt a' b' c' 0
  rw [← BitVec.toNat_inj, ← BitVec.toNat_inj]
  simp only [octet, BitVec.toNat_ofNat, Nat.sub_zero, Nat.reducePow, Nat.reduceSub]
  simp only [quad, value_zero] at *
  constructor
  · intro h; omega
  · intro h; omega

/-- A digit string of the length of `lastDigits` determines and is determined by the bytes. -/
theorem last_digits (a b c a' b' c' : Byte) : last a b c = last a' b' c' ↔ lastDigits a b c = lastDigits a' b' c' := by
  by_cases hc : c = pad <;> by_cases hc' : c' = pad
  · subst hc; subst hc'; rw [last_pad_inj]; simp [lastDigits]
  · subst hc; simp [last, lastDigits, hc']
  · subst hc'; simp [last, lastDigits, hc]
  · rw [last_inj hc hc']; simp [lastDigits, hc, hc']

theorem digits_pad : ∀ (q : Nat) (p : List Byte) (a b : Byte) (g : List Byte), p.length = 4 * q →
    (g = [] ∨ (∃ c, g = [c]) ∨ ∃ c, g = [c, pad]) →
    digits (p ++ a :: b :: g) = p.map value ++ lastDigits a b (g.headD pad)
  | 0, p, a, b, g, hp, hg => by
    have : p = [] := List.length_eq_zero_iff.mp (by omega)
    subst this
    rcases hg with rfl | ⟨c, rfl⟩ | ⟨c, rfl⟩ <;> simp [digits]
  | q + 1, p, a, b, g, hp, hg => by
    obtain ⟨x, y, z, w, t, rfl, ht⟩ := four hp
    simp only [List.cons_append, digits]
    rw [if_neg (by simp), digits_pad q t a b g ht hg]
    simp

theorem digits_nopad : ∀ (q : Nat) (p : List Byte), p.length = 4 * q → p.getLast? ≠ some pad → digits p = p.map value
  | 0, p, hp, h => by
    have : p = [] := List.length_eq_zero_iff.mp (by omega)
    subst this; rfl
  | q + 1, p, hp, h => by
    obtain ⟨x, y, z, w, t, rfl, ht⟩ := four hp
    simp only [digits]
    by_cases htn : t = []
    · subst htn
      rw [if_neg (by simpa using h)]
      rfl
    · rw [if_neg (by simp [htn]), digits_nopad q t ht]
      · simp
      intro e
      apply h
      obtain ⟨u, t', rfl⟩ : ∃ u t', t = u :: t' := by cases t with
        | nil => exact absurd rfl htn
        | cons u t' => exact ⟨u, t', rfl⟩
      simpa using e

theorem last_len (a b c : Byte) : (last a b c).length + 1 = (lastDigits a b c).length ∧
    ((last a b c).length = 1 ∨ (last a b c).length = 2) := by
  by_cases hc : c = pad <;> simp [last, lastDigits, hc]

theorem append_iff {α β : Type} {x x' y y' : List α} {u u' v v' : List β} (hx : x.length = x'.length) (hu : u.length = u'.length)
    (h1 : x = x' ↔ u = u') (h2 : y = y' ↔ v = v') : x ++ y = x' ++ y' ↔ u ++ v = u' ++ v' := by
  constructor
  · intro h
    obtain ⟨e1, e2⟩ := List.append_inj h hx
    rw [h1.mp e1, h2.mp e2]
  · intro h
    obtain ⟨e1, e2⟩ := List.append_inj h hu
    rw [h1.mpr e1, h2.mpr e2]

theorem decode_digits (s t : List Byte) (hs : s.length % 4 ≠ 1) (ht : t.length % 4 ≠ 1) :
    Spec.Base64.decode s = Spec.Base64.decode t ↔ digits s = digits t := by
  have len_ne : ∀ {x y : List Byte} {u v : List Nat}, x.length ≠ y.length → u.length ≠ v.length → (x = y ↔ u = v) := by
    intro x y u v h1 h2
    exact ⟨fun e => absurd (congrArg List.length e) h1, fun e => absurd (congrArg List.length e) h2⟩
  rcases split_text s hs with ⟨q, hq, hl⟩ | ⟨q, p, a, b, g, rfl, hp, hg⟩ <;>
    rcases split_text t ht with ⟨q', hq', hl'⟩ | ⟨q', p', a', b', g', rfl, hp', hg'⟩
  · rw [spec_nopad q s hq hl, spec_nopad q' t hq' hl', digits_nopad q s hq hl, digits_nopad q' t hq' hl']
    by_cases e : q = q'
    · subst e; exact full_inj q s t hq hq'
    · apply len_ne
      · rw [full_length q s hq, full_length q' t hq']; omega
      · simp only [List.length_map]; omega
  · rw [spec_nopad q s hq hl, spec_pad q' p' a' b' g' hp' hg', digits_nopad q s hq hl, digits_pad q' p' a' b' g' hp' hg']
    have := last_len a' b' (g'.headD pad)
    apply len_ne
    · rw [List.length_append, full_length q s hq, full_length q' p' hp']; omega
    · simp only [List.length_map, List.length_append]; omega
  · rw [spec_pad q p a b g hp hg, spec_nopad q' t hq' hl', digits_pad q p a b g hp hg, digits_nopad q' t hq' hl']
    have := last_len a b (g.headD pad)
    apply len_ne
    · rw [List.length_append, full_length q p hp, full_length q' t hq']; omega
    · simp only [List.length_map, List.length_append]; omega
  · rw [spec_pad q p a b g hp hg, spec_pad q' p' a' b' g' hp' hg', digits_pad q p a b g hp hg, digits_pad q' p' a' b' g' hp' hg']
    have := last_len a b (g.headD pad)
    have := last_len a' b' (g'.headD pad)
    by_cases e : q = q'
    · subst e
      exact append_iff (by rw [full_length q p hp, full_length q p' hp']) (by simp; omega) (full_inj q p p' hp hp') (last_digits ..)
    · apply len_ne
      · simp only [List.length_append, full_length q p hp, full_length q' p' hp']; omega
      · simp only [List.length_map, List.length_append]; omega

end IMU.Base64
