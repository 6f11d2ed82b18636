import Verif.Props.Json
import Mathlib.Tactic.ByContra

/-!
# Property C140: which bytes of the buffer decide a lookup
-/

namespace IMU.Props
open Spec Spec.Json IMU.Json Utils

/-- The key occurs in the text, and another character than a quote follows its first occurrence. -/
def Blocked (k t : List Byte) : Prop :=
  ∃ pre c rest, t = pre ++ k ++ c :: rest ∧ c ≠ 34#8 ∧ ∀ p s, t = p ++ k ++ s → pre.length ≤ p.length

theorem first_of_prefix {k t t' pre : List Byte} (h : pre ++ k <+: t) (ht : pre ++ k <+: t')
    (hf : ∀ p s, t = p ++ k ++ s → pre.length ≤ p.length) : ∀ p s, t' = p ++ k ++ s → pre.length ≤ p.length := by
  intro p s hps
  by_contra hlt
  have h1 : p ++ k <+: t' := ⟨s, hps.symm⟩
  have h2 : p ++ k <+: pre ++ k := List.prefix_of_prefix_length_le h1 ht (by simp only [List.length_append]; omega)
  obtain ⟨r, hr⟩ := h2.trans h
  exact hlt (hf p r hr.symm)

theorem quote_inj : ∀ {a c x y : List Byte}, a ++ 34#8 :: x = c ++ 34#8 :: y → 34#8 ∉ a → 34#8 ∉ c → a = c ∧ x = y
  | [], [], x, y, h, _, _ => ⟨rfl, by injection h⟩
  | [], d :: c, x, y, h, _, hc => by
    injection h with h1
    exact absurd (List.mem_cons.mpr (.inl h1)) hc
  | d :: a, [], x, y, h, ha, _ => by
    injection h with h1
    exact absurd (List.mem_cons.mpr (.inl h1.symm)) ha
  | d :: a, e :: c, x, y, h, ha, hc => by
    injection h with h1 h2
    obtain ⟨h3, h4⟩ := quote_inj h2 (fun h => ha (List.mem_cons_of_mem _ h)) (fun h => hc (List.mem_cons_of_mem _ h))
    exact ⟨by rw [h1, h3], h4⟩

/-- C140: a value found is found again in every text with the same beginning, up to the closing quote of the value: what
follows does not matter.  No shorter beginning suffices. -/
theorem C140_final {k t v : List Byte} (h : lookup k t = some v) :
    ∃ e pre mid, t.take e = pre ++ k ++ [34#8] ++ mid ++ [34#8] ++ v ++ [34#8] ∧ 34#8 ∉ mid ∧ 34#8 ∉ v ∧ e ≤ t.length ∧
      (∀ t', t'.take e = t.take e → lookup k t' = some v) ∧ ∀ e', e' < e → lookup k (t.take e') = none := by
  obtain ⟨pre, mid, rest, ht, hm, hv, hf⟩ := (lookup_iff k t v).mp h
  have he' : t.take (pre ++ k ++ [34#8] ++ mid ++ [34#8] ++ v ++ [34#8]).length =
      pre ++ k ++ [34#8] ++ mid ++ [34#8] ++ v ++ [34#8] := by
    conv_lhs => rw [ht]
    exact List.take_left ..
  refine ⟨(pre ++ k ++ [34#8] ++ mid ++ [34#8] ++ v ++ [34#8]).length, pre, mid, he', hm, hv, by rw [ht]; simp,
    fun t' he => ?_, fun e' hlt => ?_⟩
  · rw [he'] at he
    refine (lookup_iff k t' v).mpr ⟨pre, mid, t'.drop (pre ++ k ++ [34#8] ++ mid ++ [34#8] ++ v ++ [34#8]).length, ?_, hm, hv, ?_⟩
    · conv_lhs => rw [← List.take_append_drop (pre ++ k ++ [34#8] ++ mid ++ [34#8] ++ v ++ [34#8]).length t', he]
    · refine first_of_prefix (t := t) ?_ ?_ hf
      · rw [ht]; simp [List.append_assoc]
      · have h0 : pre ++ k ++ [34#8] ++ mid ++ [34#8] ++ v ++ [34#8] <+: t' := by rw [← he]; exact List.take_prefix ..
        exact (by simp [List.append_assoc] : pre ++ k <+: pre ++ k ++ [34#8] ++ mid ++ [34#8] ++ v ++ [34#8]).trans h0
  · cases hl : lookup k (t.take e') with
    | none => rfl
    | some w =>
      exfalso
      obtain ⟨pre', mid', rest', ht', hm', hw, hf'⟩ := (lookup_iff k _ w).mp hl
      have hlen := congrArg List.length ht'
      have hsplit : t = pre' ++ k ++ 34#8 :: (mid' ++ 34#8 :: (w ++ 34#8 :: (rest' ++ t.drop e'))) := by
        conv_lhs => rw [← List.take_append_drop e' t, ht']
        simp
      have hsplit0 : t = pre ++ k ++ 34#8 :: (mid ++ 34#8 :: (v ++ 34#8 :: rest)) := by
        conv_lhs => rw [ht]
        simp
      have h1 := hf pre' _ hsplit
      have hp' : pre' ++ k <+: t.take e' := by rw [ht']; simp [List.append_assoc]
      have h2 := first_of_prefix hp' (hp'.trans (List.take_prefix ..)) hf' pre _ hsplit0
      have e1 := List.append_inj (hsplit.symm.trans hsplit0) (by simp only [List.length_append]; omega)
      have e2 := e1.2
      injection e2 with _ e3
      obtain ⟨e4, e5⟩ := quote_inj e3 hm' hm
      obtain ⟨e6, -⟩ := quote_inj e5 hw hv
      have e7 := congrArg List.length e1.1
      rw [e4, e6] at hlen
      simp only [List.length_append, List.length_take, List.length_cons, List.length_nil] at hlen e7 hlt
      omega

theorem blocked_none {k t : List Byte} (h : Blocked k t) : lookup k t = none := by
  obtain ⟨pre, c, rest, ht, hc, hf⟩ := h
  cases hl : lookup k t with
  | none => rfl
  | some v =>
    exfalso
    obtain ⟨pre', mid, rest', ht', -, -, hf'⟩ := (lookup_iff k t v).mp hl
    have ht'' : t = pre' ++ k ++ 34#8 :: (mid ++ [34#8] ++ v ++ [34#8] ++ rest') := by rw [ht']; simp
    have h1 := hf pre' _ ht''
    have h2 := hf' pre _ ht
    have e := ht.symm.trans ht''
    have e1 := List.append_inj e (by simp only [List.length_append]; omega)
    have e2 := e1.2
    injection e2 with e3
    exact hc e3

/-- C140: if the first occurrence of the key is not followed by a quote, the lookup fails, whatever follows. -/
theorem C140_blocked {k t : List Byte} (h : Blocked k t) (ext : List Byte) : lookup k (t ++ ext) = none := by
  apply blocked_none
  obtain ⟨pre, c, rest, ht, hc, hf⟩ := h
  refine ⟨pre, c, rest ++ ext, by rw [ht]; simp, hc, first_of_prefix (t := t) ?_ ?_ hf⟩
  · rw [ht]; exact List.prefix_append ..
  · rw [ht, List.append_assoc]; exact List.prefix_append ..

theorem quoted_closed (r : List Byte) : ∃ v, quoted (r ++ [34#8, 34#8]) = some v := by
  cases hd : r.dropWhile notQuote with
  | nil =>
    have h : (r ++ [34#8, 34#8]).dropWhile notQuote = [34#8, 34#8] := by
      rw [List.dropWhile_append, hd]; rfl
    exact ⟨[], by unfold quoted; rw [h]; rfl⟩
  | cons x y =>
    have h : (r ++ [34#8, 34#8]).dropWhile notQuote = x :: (y ++ [34#8, 34#8]) := by
      rw [List.dropWhile_append, hd]; rfl
    refine ⟨(y ++ [34#8, 34#8]).takeWhile notQuote, ?_⟩
    unfold quoted
    rw [h]
    exact if_pos (by simp)

/-- C140: in all other cases the answer is still open: some continuation of the text makes the lookup succeed. -/
theorem C140_open {k t : List Byte} (h : lookup k t = none) (hb : ¬ Blocked k t) : ∃ ext v, lookup k (t ++ ext) = some v := by
  by_cases ho : ∃ n p s, p.length = n ∧ t = p ++ k ++ s
  · classical
    obtain ⟨p, s, hp, ht⟩ := Nat.find_spec ho
    have hmin : ∀ p' s', t = p' ++ k ++ s' → p.length ≤ p'.length := by
      intro p' s' h'
      rw [hp]
      exact Nat.find_min' ho ⟨p', s', rfl, h'⟩
    have hpre : p ++ k <+: t := ⟨s, ht.symm⟩
    have main : ∀ ext r, t ++ ext = p ++ k ++ 34#8 :: (r ++ [34#8, 34#8]) → ∃ v, lookup k (t ++ ext) = some v := by
      intro ext r he
      obtain ⟨v, hv⟩ := quoted_closed r
      refine ⟨v, ?_⟩
      unfold lookup
      rw [(afterKey_iff k (t ++ ext) (r ++ [34#8, 34#8])).mpr ⟨p, he,
        first_of_prefix hpre (hpre.trans (List.prefix_append ..)) hmin⟩]
      exact hv
    cases s with
    | nil => exact ⟨[34#8, 34#8, 34#8], main _ [] (by rw [ht]; simp)⟩
    | cons c rest =>
      by_cases hc : c = 34#8
      · subst hc
        exact ⟨[34#8, 34#8], main _ rest (by rw [ht]; simp)⟩
      · exact absurd ⟨p, c, rest, ht, hc, hmin⟩ hb
  · classical
    have hex : ∃ n, n ≤ t.length ∧ t.drop n <+: k := ⟨t.length, Nat.le_refl _, by simp⟩
    obtain ⟨hn, u', hu⟩ := Nat.find_spec hex
    generalize hN : Nat.find hex = N at hn hu
    have hte : t ++ (u' ++ [34#8, 34#8, 34#8]) = t.take N ++ k ++ 34#8 :: ([] ++ [34#8, 34#8]) := by
      rw [← hu]
      conv_lhs => rw [← List.take_append_drop N t]
      simp only [List.append_assoc, List.cons_append, List.nil_append]
    have hpre : t.take N ++ k <+: t ++ (u' ++ [34#8, 34#8, 34#8]) := by rw [hte]; exact List.prefix_append ..
    refine ⟨u' ++ [34#8, 34#8, 34#8], [], ?_⟩
    unfold lookup
    rw [(afterKey_iff k _ ([] ++ [34#8, 34#8])).mpr ⟨t.take N, hte, ?_⟩]
    · rfl
    · intro p s hps
      by_contra hlt
      rw [List.length_take, Nat.min_eq_left hn] at hlt
      have h1 : p ++ k <+: t ++ (u' ++ [34#8, 34#8, 34#8]) := ⟨s, hps.symm⟩
      by_cases hle : (p ++ k).length ≤ t.length
      · obtain ⟨r, hr⟩ := List.prefix_of_prefix_length_le h1 (List.prefix_append t _) hle
        exact ho ⟨p.length, p, r, rfl, hr.symm⟩
      · have h2 : t <+: p ++ k := List.prefix_of_prefix_length_le (List.prefix_append t _) h1 (by omega)
        have h3 : t.drop p.length <+: k := by
          obtain ⟨w, hw⟩ := h2
          refine ⟨w, ?_⟩
          have := congrArg (List.drop p.length) hw
          rwa [List.drop_left, List.drop_append_of_le_length (by omega)] at this
        have := Nat.find_min' hex ⟨by omega, h3⟩
        omega

/-- C140 at the calls: a successful `Json_findByKey` succeeds again with the same value on any other buffer, anywhere and of
any size, that begins with the same bytes up to the closing quote of the value (a longer document, one cut off behind
it, the same one in a larger buffer). -/
theorem C140_calls (b o bk ok bv ov : Nat) (size mv : SizeT) (k : List Byte) (m m1 : Mem)
    (hroom : o + size.toNat ≤ (m.bytes b).length) (hk : CStr (m.bytes bk) ok k) (hn : size.toNat < 2 ^ 32 - 1)
    (hkl : k.length < 2 ^ 64) (hvr : ov + mv.toNat ≤ (m.bytes bv).length)
    (hd : bv ≠ b ∨ ov + mv.toNat ≤ o ∨ o + size.toNat ≤ ov)
    (hrun : findByKey (ptr b o) size (ptr bk ok) (ptr bv ov) mv m = .ok true m1) :
    ∃ v e, e ≤ size.toNat ∧ slice (m1.bytes bv) ov (v.length + 1) = v ++ [0#8] ∧
      (∃ pre mid, slice (m.bytes b) o e = pre ++ k ++ [34#8] ++ mid ++ [34#8] ++ v ++ [34#8] ∧ 34#8 ∉ mid ∧ 34#8 ∉ v) ∧
      ∀ (b' o' bk' ok' bv' ov' : Nat) (size' mv' : SizeT) (n : Mem), o' + size'.toNat ≤ (n.bytes b').length →
        CStr (n.bytes bk') ok' k → size'.toNat < 2 ^ 32 - 1 → ov' + mv'.toNat ≤ (n.bytes bv').length →
        (bv' ≠ b' ∨ ov' + mv'.toNat ≤ o' ∨ o' + size'.toNat ≤ ov') → e ≤ size'.toNat →
        slice (n.bytes b') o' e = slice (m.bytes b) o e →
        v.length < mv'.toNat →
        ∃ n', findByKey (ptr b' o') size' (ptr bk' ok') (ptr bv' ov') mv' n = .ok true n' ∧
          slice (n'.bytes bv') ov' (v.length + 1) = v ++ [0#8] := by
  obtain ⟨r, m', h1, h2, h3⟩ := C68_findByKey b o bk ok bv ov size mv k m hroom hk hn hkl hvr hd
  rw [hrun] at h1
  cases h1
  obtain ⟨v, hv, hvl⟩ := h2.mp rfl
  obtain ⟨e, pre, mid, hte, hm, hv0, he, hfin, -⟩ := C140_final hv
  rw [slice_length _ _ _ hroom] at he
  have hse : ∀ l : List Byte, (slice l o size.toNat).take e = slice l o e := by
    intro l; unfold slice; rw [List.take_take, Nat.min_eq_left he]
  refine ⟨v, e, he, h3 v rfl hv, ⟨pre, mid, (hse _).symm.trans hte, hm, hv0⟩, ?_⟩
  intro b' o' bk' ok' bv' ov' size' mv' n hroom' hk' hn' hvr' hd' hes heq hvl'
  obtain ⟨r', n', g1, g2, g3⟩ := C68_findByKey b' o' bk' ok' bv' ov' size' mv' k n hroom' hk' hn' hkl hvr' hd'
  have hlook : lookup k (slice (n.bytes b') o' size'.toNat) = some v := by
    apply hfin
    unfold slice at heq ⊢
    rw [List.take_take, List.take_take, Nat.min_eq_left hes, Nat.min_eq_left he]
    exact heq
  have hr : r' = true := g2.mpr ⟨v, hlook, hvl'⟩
  subst hr
  exact ⟨n', g1, g3 v rfl hlook⟩

theorem run_prefix (size : Nat) : ∀ (l : List (List Byte × List Byte)) (t : List Byte) (rs : List Bool) (t' : List Byte),
    run size t l = some (rs, t') → t <+: t'
  | [], t, rs, t', h => by
    simp only [run, Option.some.injEq, Prod.mk.injEq] at h
    exact h.2 ▸ List.prefix_rfl
  | x :: l, t, rs, t', h => by
    simp only [run] at h
    split at h
    · cases hr : run size (add size t x).2 l with
      | none => rw [hr] at h; simp at h
      | some r =>
        rw [hr] at h
        simp only [Option.map_some, Option.some.injEq, Prod.mk.injEq] at h
        have h1 := run_prefix size l _ r.1 r.2 hr
        rw [h.2] at h1
        refine List.IsPrefix.trans ?_ h1
        unfold add
        split
        · simp only [List.append_assoc]; exact List.prefix_append ..
        · exact List.prefix_append ..
    · cases h

/-- C140: a member that can be looked up in the text built so far can still be looked up after any further additions,
successful or not. -/
theorem C140_additions (b o bk ok bv ov : Nat) (size mv : SizeT) (l : List (List Byte × List Byte)) (ps : List (Ptr × Ptr))
    (t : List Byte) (m : Mem) (ht : CStr (m.bytes b) o t) (hn : t ≠ []) (hl : t.length < size.toNat)
    (hroom : o + size.toNat ≤ (m.bytes b).length) (hh : Holds m b o size.toNat ps l)
    (hsm : ∀ x ∈ l, size.toNat + x.1.length + x.2.length + 7 < 2 ^ 64) (rs : List Bool) (t' : List Byte)
    (hrun : run size.toNat t l = some (rs, t')) (hsize : size.toNat < 2 ^ 32 - 1) {k v : List Byte}
    (hlook : lookup k t = some v) (hk : CStr (m.bytes bk) ok k) (hkl : k.length < 2 ^ 64) (hbk : bk ≠ b) (hbv : bv ≠ b)
    (hvr : ov + mv.toNat ≤ (m.bytes bv).length) (hvl : v.length < mv.toNat) :
    ∃ m' m'', addAll (ptr b o) size ps m = .ok rs m' ∧
      findByKey (ptr b o) size (ptr bk ok) (ptr bv ov) mv m' = .ok true m'' ∧
      slice (m''.bytes bv) ov (v.length + 1) = v ++ [0#8] := by
  obtain ⟨m', h1, h2, h3⟩ := C64_additions b o size l ps t m ht hn hl hroom hh hsm rs t' hrun
  obtain ⟨r, m'', g1, g2, g3⟩ := C68_findByKey b o bk ok bv ov size mv k m' (by rw [h3.2.2.1]; exact hroom)
    (by rw [h3.2.1 bk hbk]; exact hk) hsize hkl (by rw [h3.2.1 bv hbv]; exact hvr) (.inl hbv)
  obtain ⟨e, -, -, -, -, -, he, hfin, -⟩ := C140_final hlook
  have hlook' : lookup k (slice (m'.bytes b) o size.toNat) = some v := by
    apply hfin
    have h4 : t <+: slice (m'.bytes b) o size.toNat := by
      obtain ⟨w, hw⟩ := h2.2
      have h5 : t <+: (m'.bytes b).drop o := by
        rw [hw]; exact (run_prefix _ l t rs t' hrun).trans (List.prefix_append ..)
      exact List.prefix_take_iff.mpr ⟨h5, by omega⟩
    obtain ⟨w, hw⟩ := h4
    rw [← hw, List.take_append_of_le_length he]
  have hr : r = true := g2.mpr ⟨v, hlook', hvl⟩
  subst hr
  exact ⟨m', m'', h1, g1, g3 v rfl hlook'⟩

theorem afterKey_behind {k : List Byte} (old : List Byte) (h0 : 0#8 ∉ k) (hne : k ≠ []) : ∀ t : List Byte, ¬ k <:+: t →
    afterKey k (t ++ 0#8 :: old) = afterKey k old
  | [], _ => by
    have : ¬ k <+: 0#8 :: old := by
      rintro ⟨w, hw⟩
      cases k with
      | nil => exact hne rfl
      | cons c k' =>
        injection hw with h1
        exact h0 (h1 ▸ List.mem_cons_self ..)
    rw [List.nil_append, afterKey, if_neg (fun h => this h.1)]
  | c :: t, hno => by
    have : ¬ k <+: c :: (t ++ 0#8 :: old) := by
      intro h
      by_cases hl : k.length ≤ (c :: t).length
      · exact hno (List.prefix_of_prefix_length_le h (List.prefix_append (c :: t) (0#8 :: old)) hl).isInfix
      · have h' : (c :: t) ++ [0#8] <+: k :=
          List.prefix_of_prefix_length_le ⟨old, by simp⟩ h (by simp only [List.length_append, List.length_singleton]; omega)
        exact h0 (h'.subset (by simp))
    rw [List.cons_append, afterKey, if_neg (fun h => this h.1)]
    exact afterKey_behind old h0 hne t (fun h => hno (h.trans (List.suffix_cons c t).isInfix))

/-- C140: a lookup does not stop at the NUL. A key that does not occur in the text is looked up in what lies behind the
text in the buffer, for instance in the remains of an earlier, longer document. -/
theorem C140_stale {k t : List Byte} (old : List Byte) (h0 : 0#8 ∉ k) (hne : k ≠ []) (hno : ¬ k <:+: t) :
    lookup k (t ++ 0#8 :: old) = lookup k old := by
  unfold lookup
  rw [afterKey_behind old h0 hne t hno]

/-- C140 at the call: if the key does not occur in the C string in the buffer, the answer of `Json_findByKey` is that of a
lookup in the bytes behind the NUL. -/
theorem C140_stale_call (b o bk ok bv ov : Nat) (size mv : SizeT) (k t : List Byte) (m : Mem)
    (hroom : o + size.toNat ≤ (m.bytes b).length) (hk : CStr (m.bytes bk) ok k) (hn : size.toNat < 2 ^ 32 - 1)
    (hkl : k.length < 2 ^ 64) (hvr : ov + mv.toNat ≤ (m.bytes bv).length)
    (hd : bv ≠ b ∨ ov + mv.toNat ≤ o ∨ o + size.toNat ≤ ov) (ht : CStr (m.bytes b) o t) (hl : t.length < size.toNat)
    (hne : k ≠ []) (hno : ¬ k <:+: t) :
    ∃ r m', findByKey (ptr b o) size (ptr bk ok) (ptr bv ov) mv m = .ok r m' ∧
      (r = true ↔ ∃ v, lookup k (slice (m.bytes b) (o + t.length + 1) (size.toNat - t.length - 1)) = some v ∧
        v.length < mv.toNat) ∧
      (∀ v, r = true → lookup k (slice (m.bytes b) (o + t.length + 1) (size.toNat - t.length - 1)) = some v →
        slice (m'.bytes bv) ov (v.length + 1) = v ++ [0#8]) := by
  have h := C68_findByKey b o bk ok bv ov size mv k m hroom hk hn hkl hvr hd
  have e : slice (m.bytes b) o size.toNat =
      t ++ 0#8 :: slice (m.bytes b) (o + t.length + 1) (size.toNat - t.length - 1) := by
    obtain ⟨-, w, hw⟩ := ht
    have hw' : (m.bytes b).drop (o + t.length + 1) = w := by
      rw [show o + t.length + 1 = o + (t.length + 1) from rfl, ← List.drop_drop, hw,
        show t ++ 0#8 :: w = (t ++ [0#8]) ++ w by simp, List.drop_left' (by simp)]
    unfold slice
    rw [hw', hw, List.take_append, List.take_of_length_le (by omega : t.length ≤ size.toNat),
      show size.toNat - t.length = (size.toNat - t.length - 1) + 1 by omega, List.take_succ_cons]
    rfl
  rw [e, C140_stale _ hk.1 hne hno] at h
  exact h

/-- C140, the remedy: called with the length of the C string instead of the size of the buffer, `Json_findByKey` answers
for the text alone. -/
theorem C140_text (b o bk ok bv ov : Nat) (mv : SizeT) (k t : List Byte) (m : Mem) (hk : CStr (m.bytes bk) ok k)
    (hn : t.length < 2 ^ 32 - 1) (hkl : k.length < 2 ^ 64) (hvr : ov + mv.toNat ≤ (m.bytes bv).length)
    (hd : bv ≠ b ∨ ov + mv.toNat ≤ o ∨ o + t.length ≤ ov) (ht : CStr (m.bytes b) o t) :
    ∃ r m', findByKey (ptr b o) (BitVec.ofNat 64 t.length) (ptr bk ok) (ptr bv ov) mv m = .ok r m' ∧
      (r = true ↔ ∃ v, lookup k t = some v ∧ v.length < mv.toNat) ∧
      (∀ v, r = true → lookup k t = some v → slice (m'.bytes bv) ov (v.length + 1) = v ++ [0#8]) := by
  have hsz : (BitVec.ofNat 64 t.length).toNat = t.length := by
    rw [BitVec.toNat_ofNat, Nat.mod_eq_of_lt (by omega)]
  have hroom : o + t.length ≤ (m.bytes b).length := by
    have := congrArg List.length ht.2.choose_spec
    simp only [List.length_drop, List.length_append, List.length_cons] at this
    omega
  have h := C68_findByKey b o bk ok bv ov (BitVec.ofNat 64 t.length) mv k m (by rw [hsz]; exact hroom) hk
    (by rw [hsz]; exact hn) hkl hvr (by rw [hsz]; exact hd)
  have e : slice (m.bytes b) o (BitVec.ofNat 64 t.length).toNat = t := by
    obtain ⟨-, w, hw⟩ := ht
    unfold slice
    rw [hsz, hw, List.take_left]
  rw [e] at h
  exact h

/-! Non-vacuity. -/

/-- The three cases: found (and found whatever follows the first 8 bytes), blocked, open. -/
example : lookup (ascii "a") (ascii "{\"a\":\"1\"") = some (ascii "1") := by decide +kernel
example : Blocked [97] [123, 34, 97, 98, 34, 58, 34, 49, 34, 125] :=
  ⟨[123, 34], 98#8, [34, 58, 34, 49, 34, 125], rfl, by decide, by
    intro p s h
    match p, h with
    | [], h => injection h with h1; exact absurd h1 (by decide)
    | [_], h => injection h with _ h2; injection h2 with h3; exact absurd h3 (by decide)
    | _ :: _ :: q, _ => exact Nat.le_add_left 2 q.length⟩
example : lookup (ascii "abc") (ascii "{\"ab") = none ∧ lookup (ascii "abc") (ascii "{\"ab" ++ ascii "c\":\"1\"") = some (ascii "1") := by
  decide +kernel

/-- Two documents built one after the other in the same buffer; then the value of a key of the first one, which the second
one does not contain. -/
def rebuilt : C (List Bool × List Bool × Bool) := do
  let r ← build (ptr 0 0) 20 [(ptr 1 0, ptr 1 2), (ptr 1 4, ptr 1 6)]
  let s ← build (ptr 0 0) 20 [(ptr 1 8, ptr 1 10)]
  let f ← findByKey (ptr 0 0) 20 (ptr 1 4) (ptr 2 0) 4
  pure (r, s, f)

/-- The stale value: after `{"a":"1","k":"2"}` the buffer is started again and holds `{"b":"3"}`, but looking up `k` still
gives `2`. -/
theorem C140_stale_witness : ∃ m', rebuilt (memL [List.replicate 20 7, [97, 0, 49, 0, 107, 0, 50, 0, 98, 0, 51, 0], [7, 7, 7, 7]]) =
      .ok ([true, true, true, true], [true, true, true], true) m' ∧ m'.bytes 2 = ascii "2" ++ [0, 7, 7] ∧
    CStr (m'.bytes 0) 0 (ascii "{\"b\":\"3\"}") := by
  obtain ⟨m', h1, h2⟩ := of_ends (a := ([true, true, true, true], [true, true, true], true)) (b := 2) (l := ascii "2" ++ [0, 7, 7])
    (x := rebuilt (memL [List.replicate 20 7, [97, 0, 49, 0, 107, 0, 50, 0, 98, 0, 51, 0], [7, 7, 7, 7]])) (by decide +kernel)
  obtain ⟨m'', g1, g2⟩ := of_ends (a := ([true, true, true, true], [true, true, true], true)) (b := 0)
    (l := ascii "{\"b\":\"3\"}" ++ 0 :: ascii "k\":\"2\"}" ++ [0, 7, 7])
    (x := rebuilt (memL [List.replicate 20 7, [97, 0, 49, 0, 107, 0, 50, 0, 98, 0, 51, 0], [7, 7, 7, 7]])) (by decide +kernel)
  rw [h1] at g1
  cases g1
  refine ⟨m', h1, h2, by decide +kernel, ascii "k\":\"2\"}" ++ [0, 7, 7], ?_⟩
  rw [g2]
  rfl

/-- The hypotheses of `C140_additions` are met: `{"a":"1"` in a buffer of 20 bytes, the key `a`, one more member `b`, `2`. -/
example : ∃ m' m'', addAll (ptr 0 0) 20 [(ptr 1 4, ptr 1 6)]
      (memL [ascii "{\"a\":\"1\"" ++ 0 :: List.replicate 11 7, [97, 0, 49, 0, 98, 0, 50, 0], [7, 7]]) = .ok [true] m' ∧
    findByKey (ptr 0 0) 20 (ptr 1 0) (ptr 2 0) 2 m' = .ok true m'' ∧ slice (m''.bytes 2) 0 2 = [49] ++ [0#8] :=
  C140_additions 0 0 1 0 2 0 20 2 [([98], [50])] [(ptr 1 4, ptr 1 6)] (ascii "{\"a\":\"1\"") _
    ⟨by decide +kernel, List.replicate 11 7, rfl⟩ (by decide +kernel) (by decide +kernel) (by decide +kernel)
    ⟨⟨1, 4, 1, 6, rfl, ⟨by decide, ⟨_, rfl⟩⟩, ⟨by decide, ⟨_, rfl⟩⟩, by decide, by decide⟩, trivial⟩ (by decide +kernel)
    [true] (ascii "{\"a\":\"1\",\"b\":\"2\"") (by decide +kernel) (by decide +kernel) (k := [97]) (v := [49]) (by decide +kernel)
    ⟨by decide, _, rfl⟩ (by decide) (by decide) (by decide) (by decide +kernel) (by decide +kernel)

/-- Those of `C140_stale_call`: `{}` and behind its NUL `k":"2"`; the key `k`. -/
example : ∃ r m', findByKey (ptr 0 0) 9 (ptr 1 0) (ptr 2 0) 2 (memL [ascii "{}" ++ 0 :: ascii "k\":\"2\"", [107, 0], [7, 7]]) = .ok r m' ∧
    r = true ∧ slice (m'.bytes 2) 0 2 = [50, 0] := by
  obtain ⟨r, m', h1, h2, h3⟩ := C140_stale_call 0 0 1 0 2 0 9 2 [107] [123, 125]
    (memL [ascii "{}" ++ 0 :: ascii "k\":\"2\"", [107, 0], [7, 7]]) (by decide +kernel) ⟨by decide, _, rfl⟩ (by decide) (by decide)
    (by decide +kernel) (.inl (by decide)) ⟨by decide, _, rfl⟩ (by decide) (by decide) (by decide)
  have hr := h2.mpr ⟨[50], by decide +kernel, by decide⟩
  exact ⟨r, m', h1, hr, h3 [50] hr (by decide +kernel)⟩

end IMU.Props
