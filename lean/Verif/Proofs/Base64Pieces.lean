import Verif.Proofs.Base64Decode
import Verif.Proofs.Frame

/-!
# Base64 texts put together from pieces, and texts with wrong characters
-/

namespace IMU.Base64
open Spec Spec.Base64

theorem oc_slice {m m' : Mem} {b o n b' o' n' : Nat} (h : OnlyChanged m m' b o n)
    (hd : b' ≠ b ∨ o' + n' ≤ o ∨ o + n ≤ o') : slice (m'.bytes b') o' n' = slice (m.bytes b') o' n' := by
  by_cases hb : b' = b
  · subst hb
    apply List.ext_getElem?; intro i
    simp only [getElem?_slice]
    split
    · exact h.2.2.2 _ (by omega)
    · rfl
  · rw [h.2.1 b' hb]

theorem oc_union {m m' m'' : Mem} {b o n o' n' O N : Nat} (h : OnlyChanged m m' b o n) (h' : OnlyChanged m' m'' b o' n')
    (h1 : O ≤ o ∧ o + n ≤ O + N) (h2 : O ≤ o' ∧ o' + n' ≤ O + N) : OnlyChanged m m'' b O N :=
  ⟨h'.1.trans h.1, fun x hx => (h'.2.1 x hx).trans (h.2.1 x hx), h'.2.2.1.trans h.2.2.1,
    fun i hi => (h'.2.2.2 i (by omega)).trans (h.2.2.2 i (by omega))⟩

theorem char_lt_ne_pad : ∀ v, v < 64 → char v ≠ pad := by decide +kernel

theorem encode_append (b : List Byte) : ∀ a : List Byte, a.length % 3 = 0 →
    Spec.Base64.encode (a ++ b) = Spec.Base64.encode a ++ Spec.Base64.encode b
  | [], _ => by simp [Spec.Base64.encode]
  | [_], h => by simp at h
  | [_, _], h => by simp at h
  | x :: y :: z :: t, h => by
    have ih := encode_append b t (by simp at h; omega)
    simp [Spec.Base64.encode, ih]

theorem encode_append_ne {b : List Byte} (hb : b ≠ []) : ∀ a : List Byte, a.length % 3 ≠ 0 →
    Spec.Base64.encode a ++ Spec.Base64.encode b ≠ Spec.Base64.encode (a ++ b)
  | [], h => by simp at h
  | [x], _ => by
    match b, hb with
    | [y], _ => simp [Spec.Base64.encode]
    | y :: z :: t, _ =>
      intro e
      simp only [Spec.Base64.encode, List.cons_append, List.nil_append, List.cons.injEq] at e
      exact char_lt_ne_pad _ (Nat.mod_lt _ (by decide)) e.2.2.2.1.symm
  | [x, y], _ => by
    match b, hb with
    | z :: t, _ =>
      intro e
      simp only [Spec.Base64.encode, List.cons_append, List.nil_append, List.cons.injEq] at e
      exact char_lt_ne_pad _ (Nat.mod_lt _ (by decide)) e.2.2.2.1.symm
  | x :: y :: z :: t, h => by
    have ih := encode_append_ne hb t (by simp at h; omega)
    simp only [Spec.Base64.encode, List.cons_append, List.nil_append, ne_eq, List.cons.injEq, true_and]
    exact ih

theorem encode_append_iff (a b : List Byte) :
    Spec.Base64.encode a ++ Spec.Base64.encode b = Spec.Base64.encode (a ++ b) ↔ a.length % 3 = 0 ∨ b = [] := by
  constructor
  · intro h
    by_contra hc
    exact encode_append_ne (b := b) (by tauto) a (by tauto) h
  · rintro (h | h)
    · exact (encode_append b a h).symm
    · subst h; simp [Spec.Base64.encode]

theorem decode_append (t : List Byte) : ∀ s : List Byte, s.length % 4 = 0 → s.getLast? ≠ some pad →
    Spec.Base64.decode (s ++ t) = Spec.Base64.decode s ++ Spec.Base64.decode t
  | [], _, _ => by simp [Spec.Base64.decode]
  | [_], h, _ => by simp at h
  | [_, _], h, _ => by simp at h
  | [_, _, _], h, _ => by simp at h
  | a :: b :: c :: d :: u, h, hp => by
    have h0 : ¬ (u = [] ∧ d = pad) := by
      rintro ⟨rfl, rfl⟩; exact hp rfl
    have h1 : ¬ (u ++ t = [] ∧ d = pad) := fun e => h0 ⟨(List.append_eq_nil_iff.1 e.1).1, e.2⟩
    have hu : u.getLast? ≠ some pad := by
      cases u with
      | nil => simp
      | cons x v => simpa using hp
    have ih := decode_append t u (by simp at h; omega) hu
    simp only [List.cons_append, Spec.Base64.decode]
    rw [if_neg h0, if_neg h1, ih]; rfl

theorem decode_groups_length : ∀ s : List Byte, s.length % 4 = 0 → s.getLast? ≠ some pad →
    (Spec.Base64.decode s).length = 3 * (s.length / 4)
  | [], _, _ => by simp [Spec.Base64.decode]
  | [_], h, _ => by simp at h
  | [_, _], h, _ => by simp at h
  | [_, _, _], h, _ => by simp at h
  | a :: b :: c :: d :: u, h, hp => by
    have h0 : ¬ (u = [] ∧ d = pad) := by
      rintro ⟨rfl, rfl⟩; exact hp rfl
    have hu : u.getLast? ≠ some pad := by
      cases u with
      | nil => simp
      | cons x v => simpa using hp
    have ih := decode_groups_length u (by simp at h; omega) hu
    simp only [Spec.Base64.decode]
    rw [if_neg h0, List.length_append, ih]
    simp only [List.length_cons, List.length_nil]; omega

theorem octet0 (x y : Nat) {z w z' w' : Nat} (hz : z < 64) (hw : w < 64) (hz' : z' < 64) (hw' : w' < 64) :
    octet (x * 64 ^ 3 + y * 64 ^ 2 + z * 64 + w) 0 = octet (x * 64 ^ 3 + y * 64 ^ 2 + z' * 64 + w') 0 := by
  unfold octet
  have : (x * 64 ^ 3 + y * 64 ^ 2 + z * 64 + w) / 256 ^ (2 - 0) =
      (x * 64 ^ 3 + y * 64 ^ 2 + z' * 64 + w') / 256 ^ (2 - 0) := by
    simp only [Nat.reducePow, Nat.reduceSub]; omega
  rw [this]

theorem octet1 (y z : Nat) (x x' : Nat) {w w' : Nat} (hw : w < 64) (hw' : w' < 64) :
    octet (x * 64 ^ 3 + y * 64 ^ 2 + z * 64 + w) 1 = octet (x' * 64 ^ 3 + y * 64 ^ 2 + z * 64 + w') 1 := by
  unfold octet
  apply BitVec.eq_of_toNat_eq
  simp only [BitVec.toNat_ofNat, Nat.reducePow, Nat.reduceSub]; omega

theorem octet2 (z w : Nat) (x y x' y' : Nat) :
    octet (x * 64 ^ 3 + y * 64 ^ 2 + z * 64 + w) 2 = octet (x' * 64 ^ 3 + y' * 64 ^ 2 + z * 64 + w) 2 := by
  unfold octet
  apply BitVec.eq_of_toNat_eq
  simp only [BitVec.toNat_ofNat, Nat.reducePow, Nat.reduceSub]; omega

theorem sextet0 (a : Nat) {b c b' c' : Nat} (hb : b < 256) (hc : c < 256) (hb' : b' < 256) (hc' : c' < 256) :
    sextet (a * 65536 + b * 256 + c) 0 = sextet (a * 65536 + b' * 256 + c') 0 := by
  simp only [sextet, Nat.reducePow, Nat.reduceSub]; omega

theorem sextet1 (a b : Nat) {c c' : Nat} (hc : c < 256) (hc' : c' < 256) :
    sextet (a * 65536 + b * 256 + c) 1 = sextet (a * 65536 + b * 256 + c') 1 := by
  simp only [sextet, Nat.reducePow, Nat.reduceSub]; omega

theorem sextet2 (b c a a' : Nat) :
    sextet (a * 65536 + b * 256 + c) 2 = sextet (a' * 65536 + b * 256 + c) 2 := by
  simp only [sextet, Nat.reducePow, Nat.reduceSub]; omega

theorem sextet3 (c a b a' b' : Nat) :
    sextet (a * 65536 + b * 256 + c) 3 = sextet (a' * 65536 + b' * 256 + c) 3 := by
  simp only [sextet, Nat.reducePow, Nat.reduceSub]; omega

/-- The characters that decide byte `k` of the result. -/
theorem decode_local : ∀ (s t : List Byte), s.length = t.length →
    (∀ j : Nat, s[j]? = some pad ↔ t[j]? = some pad) → ∀ k, s[4 * k / 3]? = t[4 * k / 3]? →
    s[4 * k / 3 + 1]? = t[4 * k / 3 + 1]? → (Spec.Base64.decode s)[k]? = (Spec.Base64.decode t)[k]?
  | [], t, hl, _, _, _, _ => by
    have : t = [] := List.length_eq_zero_iff.1 hl.symm
    rw [this]
  | [a], t, hl, _, _, _, _ => by
    match t, hl with
    | [a'], _ => rfl
  | [a, b], t, hl, _, k, h1, h2 => by
    match t, hl with
    | [a', b'], _ =>
      match k with
      | 0 => simp at h1 h2; subst h1; subst h2; rfl
      | k + 1 => simp [Spec.Base64.decode, last]
  | [a, b, c], t, hl, hp, k, h1, h2 => by
    match t, hl with
    | [a', b', c'], _ =>
      have hc := hp 2
      simp only [List.getElem?_cons_succ, List.getElem?_cons_zero, Option.some.injEq] at hc
      simp only [Spec.Base64.decode]
      exact last_local hc h1 h2
  | a :: b :: c :: d :: u, t, hl, hp, k, h1, h2 => by
    match t, hl with
    | a' :: b' :: c' :: d' :: u', hl =>
      have hc := hp 2
      have hd := hp 3
      simp only [List.getElem?_cons_succ, List.getElem?_cons_zero, Option.some.injEq] at hc hd
      have hlu : u.length = u'.length := by simpa using hl
      have hu : u = [] ↔ u' = [] := by rw [← List.length_eq_zero_iff, ← List.length_eq_zero_iff, hlu]
      simp only [Spec.Base64.decode]
      by_cases hz : u = [] ∧ d = pad
      · have hz' : u' = [] ∧ d' = pad := ⟨hu.1 hz.1, hd.1 hz.2⟩
        rw [if_pos hz, if_pos hz']
        obtain ⟨rfl, rfl⟩ := hz
        obtain ⟨rfl, rfl⟩ := hz'
        apply last_local hc
        · match k with
          | 0 => simpa using h1
          | 1 => simpa using h1
          | 2 => simpa using h1
          | k + 3 => rw [List.getElem?_eq_none (by simp only [List.length_cons, List.length_nil]; omega),
              List.getElem?_eq_none (by simp only [List.length_cons, List.length_nil]; omega)]
        · match k with
          | 0 => simpa using h2
          | 1 => simpa using h2
          | 2 => rfl
          | k + 3 => rw [List.getElem?_eq_none (by simp only [List.length_cons, List.length_nil]; omega),
              List.getElem?_eq_none (by simp only [List.length_cons, List.length_nil]; omega)]
      · have hz' : ¬ (u' = [] ∧ d' = pad) := fun e => hz ⟨hu.2 e.1, hd.2 e.2⟩
        rw [if_neg hz, if_neg hz']
        have va := value_lt a; have vb := value_lt b; have vc := value_lt c; have vd := value_lt d
        have va' := value_lt a'; have vb' := value_lt b'; have vc' := value_lt c'; have vd' := value_lt d'
        match k with
        | 0 =>
          simp at h1 h2; subst h1; subst h2
          simp only [List.cons_append, List.getElem?_cons_zero, quad]
          exact congrArg some (octet0 _ _ vc vd vc' vd')
        | 1 =>
          simp at h1 h2; subst h1; subst h2
          simp only [List.cons_append, List.getElem?_cons_succ, List.getElem?_cons_zero, quad]
          exact congrArg some (octet1 _ _ _ _ vd vd')
        | 2 =>
          simp at h1 h2; subst h1; subst h2
          simp only [List.cons_append, List.getElem?_cons_succ, List.getElem?_cons_zero, quad]
          exact congrArg some (octet2 _ _ _ _ _ _)
        | k + 3 =>
          have e : 4 * (k + 3) / 3 = 4 * k / 3 + 4 := by omega
          rw [e] at h1 h2
          simp only [List.getElem?_cons_succ, show 4 * k / 3 + 4 + 1 = 4 * k / 3 + 1 + 4 by omega] at h1 h2
          simp only [List.cons_append, List.nil_append, List.getElem?_cons_succ]
          exact decode_local u u' hlu (fun j => by simpa using hp (j + 4)) k h1 h2
where
  last_local {a b c a' b' c' : Byte} (hc : c = pad ↔ c' = pad) {k : Nat}
      (h1 : [a, b, c][4 * k / 3]? = [a', b', c'][4 * k / 3]?)
      (h2 : [a, b, c][4 * k / 3 + 1]? = [a', b', c'][4 * k / 3 + 1]?) : (last a b c)[k]? = (last a' b' c')[k]? := by
    have va := value_lt a; have vb := value_lt b; have vc := value_lt c
    have va' := value_lt a'; have vb' := value_lt b'; have vc' := value_lt c'
    unfold last
    by_cases hz : c = pad
    · rw [if_pos hz, if_pos (hc.1 hz)]
      match k with
      | 0 => simp at h1 h2; subst h1; subst h2; rfl
      | k + 1 => simp
    · rw [if_neg hz, if_neg (fun e => hz (hc.2 e))]
      match k with
      | 0 =>
        simp at h1 h2; subst h1; subst h2
        simp only [List.getElem?_cons_zero, quad]
        exact congrArg some (octet0 _ _ vc (value_lt 0) vc' (value_lt 0))
      | 1 =>
        simp at h1 h2; subst h1; subst h2
        simp only [List.getElem?_cons_succ, List.getElem?_cons_zero, quad]
        exact congrArg some (octet1 _ _ _ _ (value_lt 0) (value_lt 0))
      | k + 2 => simp

theorem decode_length_congr : ∀ (s t : List Byte), s.length = t.length →
    (∀ j : Nat, s[j]? = some pad ↔ t[j]? = some pad) → (Spec.Base64.decode s).length = (Spec.Base64.decode t).length
  | [], t, hl, _ => by
    have : t = [] := List.length_eq_zero_iff.1 hl.symm
    rw [this]
  | [a], t, hl, _ => by
    match t, hl with
    | [a'], _ => rfl
  | [a, b], t, hl, _ => by
    match t, hl with
    | [a', b'], _ => simp [Spec.Base64.decode, last]
  | [a, b, c], t, hl, hp => by
    match t, hl with
    | [a', b', c'], _ =>
      have hc := hp 2
      simp only [List.getElem?_cons_succ, List.getElem?_cons_zero, Option.some.injEq] at hc
      by_cases hz : c = pad
      · simp [Spec.Base64.decode, last, hz, hc.1 hz]
      · have hz' : ¬ c' = pad := fun e => hz (hc.2 e)
        simp [Spec.Base64.decode, last, hz, hz']
  | a :: b :: c :: d :: u, t, hl, hp => by
    match t, hl with
    | a' :: b' :: c' :: d' :: u', hl =>
      have hc := hp 2
      have hd := hp 3
      simp only [List.getElem?_cons_succ, List.getElem?_cons_zero, Option.some.injEq] at hc hd
      have hlu : u.length = u'.length := by simpa using hl
      have hu : u = [] ↔ u' = [] := by rw [← List.length_eq_zero_iff, ← List.length_eq_zero_iff, hlu]
      have ih := decode_length_congr u u' hlu (fun j => by simpa using hp (j + 4))
      simp only [Spec.Base64.decode]
      by_cases hz : u = [] ∧ d = pad
      · rw [if_pos hz, if_pos ⟨hu.1 hz.1, hd.1 hz.2⟩]
        by_cases hz : c = pad
        · simp [last, hz, hc.1 hz]
        · have hz' : ¬ c' = pad := fun e => hz (hc.2 e)
          simp [last, hz, hz']
      · rw [if_neg hz, if_neg (fun e => hz ⟨hu.2 e.1, hd.2 e.2⟩)]
        simp [ih]

/-- The bytes that decide character `j` of the text. -/
theorem encode_local : ∀ (d e : List Byte), d.length = e.length → ∀ j, d[6 * j / 8]? = e[6 * j / 8]? →
    d[(6 * j + 5) / 8]? = e[(6 * j + 5) / 8]? → (Spec.Base64.encode d)[j]? = (Spec.Base64.encode e)[j]?
  | [], e, hl, _, _, _ => by
    have : e = [] := List.length_eq_zero_iff.1 hl.symm
    rw [this]
  | [a], e, hl, j, h1, h2 => by
    match e, hl with
    | [a'], _ =>
      match j with
      | 0 => simp at h1; subst h1; rfl
      | 1 => simp at h1; subst h1; rfl
      | j + 2 => simp [Spec.Base64.encode]
  | [a, b], e, hl, j, h1, h2 => by
    match e, hl with
    | [a', b'], _ =>
      have va := a.isLt; have vb := b.isLt; have va' := a'.isLt; have vb' := b'.isLt
      match j with
      | 0 =>
        simp at h1; subst h1
        simp only [Spec.Base64.encode, List.getElem?_cons_zero, group]
        exact congrArg (fun v => some (char v)) (sextet0 _ vb (0 : Byte).isLt vb' (0 : Byte).isLt)
      | 1 => simp at h1 h2; subst h1; subst h2; rfl
      | 2 =>
        simp at h1; subst h1
        simp only [Spec.Base64.encode, List.getElem?_cons_succ, List.getElem?_cons_zero, group]
        exact congrArg (fun v => some (char v)) (sextet2 _ _ _ _)
      | j + 3 => simp [Spec.Base64.encode]
  | a :: b :: c :: u, e, hl, j, h1, h2 => by
    match e, hl with
    | a' :: b' :: c' :: u', hl =>
      have hlu : u.length = u'.length := by simpa using hl
      have va := a.isLt; have vb := b.isLt; have vc := c.isLt
      have va' := a'.isLt; have vb' := b'.isLt; have vc' := c'.isLt
      match j with
      | 0 =>
        simp at h1; subst h1
        simp only [Spec.Base64.encode, List.cons_append, List.getElem?_cons_zero, group]
        exact congrArg (fun v => some (char v)) (sextet0 _ vb vc vb' vc')
      | 1 =>
        simp at h1 h2; subst h1; subst h2
        simp only [Spec.Base64.encode, List.cons_append, List.getElem?_cons_succ, List.getElem?_cons_zero, group]
        exact congrArg (fun v => some (char v)) (sextet1 _ _ vc vc')
      | 2 =>
        simp at h1 h2; subst h1; subst h2
        simp only [Spec.Base64.encode, List.cons_append, List.getElem?_cons_succ, List.getElem?_cons_zero, group]
        exact congrArg (fun v => some (char v)) (sextet2 _ _ _ _)
      | 3 =>
        simp at h1; subst h1
        simp only [Spec.Base64.encode, List.cons_append, List.getElem?_cons_succ, List.getElem?_cons_zero, group]
        exact congrArg (fun v => some (char v)) (sextet3 _ _ _ _ _)
      | j + 4 =>
        have e1 : 6 * (j + 4) / 8 = 6 * j / 8 + 3 := by omega
        have e2 : (6 * (j + 4) + 5) / 8 = (6 * j + 5) / 8 + 3 := by omega
        rw [e1] at h1; rw [e2] at h2
        simp only [List.getElem?_cons_succ] at h1 h2
        simp only [Spec.Base64.encode, List.cons_append, List.nil_append, List.getElem?_cons_succ]
        exact encode_local u u' hlu j h1 h2

end IMU.Base64
