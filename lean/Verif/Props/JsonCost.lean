import Verif.Proofs.JsonCost
import Verif.Props.JsonFinal

/-!
# Property C141: how many steps a JSON lookup takes

Src/json.c:105-159.  A step is a memory access or a decision as listed in `Verif/C/Leak.lean`.
-/

namespace IMU.Props
open Spec Spec.Leak Spec.Json Spec.JsonCost T IMU.Json

/-- C141: what is counted is the code that the other properties are about. -/
theorem C141_same_code (buffer : Ptr) (size : SizeT) (key value : Ptr) (mv : SizeT) :
    erase (findByKeyT buffer size key value mv) = findByKey buffer size key value mv :=
  erase_findByKey buffer size key value mv

/-- C141: the exact number of steps of every lookup, found or not. -/
theorem C141_steps (b o bk ok bv ov : Nat) (size mv : SizeT) (k : List Byte) (m : Mem)
    (hroom : o + size.toNat ≤ (m.bytes b).length) (hk : CStr (m.bytes bk) ok k) (hn : size.toNat < 2 ^ 32 - 1)
    (hkl : k.length < 2 ^ 64) (hvr : ov + mv.toNat ≤ (m.bytes bv).length)
    (hd : bv ≠ b ∨ ov + mv.toNat ≤ o ∨ o + size.toNat ≤ ov) :
    ∃ r t m', findByKeyT (ptr b o) size (ptr bk ok) (ptr bv ov) mv m = .ok (r, t) m' ∧
      findByKey (ptr b o) size (ptr bk ok) (ptr bv ov) mv m = .ok r m' ∧
      t.length = lookupSteps k (slice (m.bytes b) o size.toNat) mv.toNat := by
  have hl : (slice (m.bytes b) o size.toNat).length = size.toNat := slice_length _ _ _ hroom
  obtain ⟨r, m', g⟩ := findByKey_goes (T := slice (m.bytes b) o size.toNat) (size := size) (mv := mv)
    (reads_slice hroom) hk hl.symm (by omega) hkl hvr (by rw [hl]; exact hd)
  have he := Goes.erase g
  rw [erase_findByKey] at he
  obtain ⟨t, h1, h2⟩ := g
  exact ⟨r, t, m', h1, he, h2⟩

/-! ### An upper bound -/

theorem agree_le (k : List Byte) : ∀ s : List Byte, agree s k ≤ k.length := by
  induction k with
  | nil => intro s; cases s <;> simp [agree]
  | cons a k ih =>
    intro s
    cases s with
    | nil => simp [agree]
    | cons c s => rw [agree, List.length_cons]; split <;> have := ih s <;> omega

theorem agree_all (k : List Byte) : ∀ s : List Byte, agree s k = k.length → k <+: s := by
  induction k with
  | nil => intro s _; exact List.nil_prefix
  | cons a k ih =>
    intro s h
    cases s with
    | nil => simp [agree] at h
    | cons c s =>
      rw [agree] at h
      by_cases hc : c = a
      · rw [if_pos hc, List.length_cons] at h
        rw [hc, List.cons_prefix_cons]
        exact ⟨rfl, ih s (by omega)⟩
      · rw [if_neg hc, List.length_cons] at h; omega

theorem findSteps_le (k t : List Byte) : findSteps k t ≤ (t.length - k.length) * (4 * k.length + 1) + 3 := by
  induction t with
  | nil => simp [findSteps]
  | cons c t ih =>
    rw [findSteps]
    by_cases hl : k.length < (c :: t).length
    · rw [List.length_cons] at hl ⊢
      rw [if_pos (by simpa using hl), show t.length + 1 - k.length = (t.length - k.length) + 1 by omega, Nat.add_mul, Nat.one_mul]
      by_cases hp : k <+: c :: t
      · rw [if_pos hp]; omega
      · rw [if_neg hp]
        have h1 := agree_le k (c :: t)
        have h2 : agree (c :: t) k ≠ k.length := fun h => hp (agree_all k _ h)
        omega
    · rw [if_neg hl]; omega

theorem copySteps_le : ∀ (t : List Byte) (room : Nat), copySteps t room ≤ 6 * t.length + 1 := by
  intro t
  induction t with
  | nil => intro room; simp [copySteps]
  | cons c t ih =>
    intro room
    cases room with
    | zero => rw [copySteps, List.length_cons]; omega
    | succ room => rw [copySteps, List.length_cons]; have := ih room; split <;> omega

theorem skip_copy_le (r : List Byte) (room : Nat) :
    skipSteps r + copySteps ((r.dropWhile notQuote).drop 1) room ≤ 6 * r.length + 2 := by
  induction r with
  | nil => simp [skipSteps, copySteps]
  | cons c t ih =>
    rw [skipSteps, List.length_cons]
    by_cases hq : c = 34#8
    · rw [if_pos hq, List.dropWhile_cons_of_neg (by simp [notQuote, hq]), List.drop_one, List.tail_cons]
      have := copySteps_le t room
      omega
    · rw [if_neg hq, List.dropWhile_cons_of_pos (by simp [notQuote, hq])]
      omega

theorem afterKey_length {k t r : List Byte} (h : afterKey k t = some r) : r.length + k.length + 1 ≤ t.length := by
  induction t with
  | nil => simp [afterKey] at h
  | cons c t ih =>
    rw [afterKey] at h
    split at h
    · next hp =>
      split at h
      · cases h
        rw [List.length_drop]
        have := hp.2
        omega
      · cases h
    · have := ih h
      rw [List.length_cons]; omega

theorem lookupSteps_le (k t : List Byte) (room : Nat) :
    lookupSteps k t room ≤ (t.length - k.length) * (4 * k.length + 7) + k.length + 6 := by
  unfold lookupSteps
  have h1 := findSteps_le k t
  rw [show 4 * k.length + 7 = (4 * k.length + 1) + 6 by omega, Nat.mul_add (t.length - k.length)]
  cases h : afterKey k t with
  | none => simp only; omega
  | some r =>
    have h2 := skip_copy_le r room
    have h3 := afterKey_length h
    simp only
    omega

/-- C141: an upper bound for every lookup: with `n` the size of the buffer and `k` the length of the key at most
`(n - k) (4 k + 7) + k + 6` steps, whatever is in the buffer; the size of the output does not enter. -/
theorem C141_bound (b o bk ok bv ov : Nat) (size mv : SizeT) (k : List Byte) (m m' : Mem) (r : Bool) (t : List Leak)
    (hroom : o + size.toNat ≤ (m.bytes b).length) (hk : CStr (m.bytes bk) ok k) (hn : size.toNat < 2 ^ 32 - 1)
    (hkl : k.length < 2 ^ 64) (hvr : ov + mv.toNat ≤ (m.bytes bv).length)
    (hd : bv ≠ b ∨ ov + mv.toNat ≤ o ∨ o + size.toNat ≤ ov)
    (h : findByKeyT (ptr b o) size (ptr bk ok) (ptr bv ov) mv m = .ok (r, t) m') :
    t.length ≤ (size.toNat - k.length) * (4 * k.length + 7) + k.length + 6 := by
  obtain ⟨r', t', m1, h1, -, h3⟩ := C141_steps b o bk ok bv ov size mv k m hroom hk hn hkl hvr hd
  rw [h] at h1
  cases h1
  have := lookupSteps_le k (slice (m.bytes b) o size.toNat) mv.toNat
  rw [slice_length _ _ _ hroom] at this
  omega

/-! ### Where it is reached, and where it is not -/

theorem agree_near (a c : Byte) (hac : a ≠ c) : ∀ j n : Nat, j < n → agree (List.replicate n a) (List.replicate j a ++ [c]) = j
  | 0, 0, h => by omega
  | 0, n + 1, _ => by simp [List.replicate_succ, agree, hac]
  | j + 1, 0, h => by omega
  | j + 1, n + 1, h => by
    rw [List.replicate_succ, List.replicate_succ, List.cons_append, agree, if_pos rfl, agree_near a c hac j n (by omega)]

theorem near_not_prefix {a c : Byte} (hac : a ≠ c) (j n : Nat) : ¬ List.replicate j a ++ [c] <+: List.replicate n a := by
  intro h
  have := h.subset (List.mem_append_right _ (List.mem_singleton.mpr rfl))
  exact hac (List.eq_of_mem_replicate this).symm

theorem afterKey_none_of_prefix {k : List Byte} : ∀ t : List Byte, (∀ i, ¬ k <+: t.drop i) → afterKey k t = none := by
  intro t
  induction t with
  | nil => intro _; rfl
  | cons c t ih =>
    intro h
    rw [afterKey, if_neg (fun hp => h 0 hp.1)]
    exact ih (fun i => h (i + 1))

theorem findSteps_near {a c : Byte} (hac : a ≠ c) (j n : Nat) :
    findSteps (List.replicate j a ++ [c]) (List.replicate n a) = (n - (j + 1)) * (4 * j + 5) + 1 := by
  induction n with
  | zero => simp [findSteps]
  | succ n ih =>
    have hs : List.replicate (n + 1) a = a :: List.replicate n a := List.replicate_succ
    rw [hs, findSteps, ← hs]
    by_cases hl : j + 1 < n + 1
    · rw [if_pos (by simpa using hl), if_neg (near_not_prefix hac j (n + 1)), agree_near a c hac j (n + 1) (by omega), ih,
        show n + 1 - (j + 1) = (n - (j + 1)) + 1 by omega, Nat.add_mul, Nat.one_mul]
      omega
    · rw [if_neg (by simpa using hl), show n + 1 - (j + 1) = 0 by omega]
      omega

/-- C141: the bound is of the right order.  In a text of `n` equal bytes, a key of `j` such bytes and a different one costs
`(n - j - 1) (4 j + 5)` steps for the places alone. -/
theorem C141_worst {a c : Byte} (hac : a ≠ c) (j n room : Nat) :
    lookupSteps (List.replicate j a ++ [c]) (List.replicate n a) room = (n - (j + 1)) * (4 * j + 5) + j + 5 := by
  have hno : afterKey (List.replicate j a ++ [c]) (List.replicate n a) = none :=
    afterKey_none_of_prefix _ (fun i => by rw [List.drop_replicate]; exact near_not_prefix hac j _)
  rw [lookupSteps, findSteps_near hac, hno]
  simp only [List.length_append, List.length_replicate, List.length_singleton]
  omega

/-- C141: with half as many bytes in the key as in the text the number of steps is quadratic in the length of the text:
a text of `n = 2 (j + 1)` bytes can cost more than `n` times `n` steps. -/
theorem C141_quadratic (j : Nat) (hj : j < 2 ^ 31 - 1) : ∃ (m m' : Mem) (r : Bool) (t : List Leak) (size mv : SizeT),
    size.toNat = 2 * (j + 1) ∧ findByKeyT (ptr 0 0) size (ptr 1 0) (ptr 2 0) mv m = .ok (r, t) m' ∧
      t.length = (j + 1) * (4 * j + 5) + j + 5 ∧ 4 * (j + 1) * (j + 1) < t.length := by
  have hs : (BitVec.ofNat 64 (2 * (j + 1))).toNat = 2 * (j + 1) := Json.ofNat64 (by omega)
  have hb : ∀ l0 l1 l2 : List Byte, (memL [l0, l1, l2]).bytes 0 = l0 ∧ (memL [l0, l1, l2]).bytes 1 = l1 :=
    fun _ _ _ => ⟨rfl, rfl⟩
  obtain ⟨h0, h1⟩ := hb (List.replicate (2 * (j + 1)) 97#8) ((List.replicate j 97#8 ++ [98#8]) ++ 0#8 :: []) []
  obtain ⟨r, t, m', g1, -, g2⟩ := C141_steps 0 0 1 0 2 0 (BitVec.ofNat 64 (2 * (j + 1))) 0#64 (List.replicate j 97#8 ++ [98#8])
    (memL [List.replicate (2 * (j + 1)) 97#8, (List.replicate j 97#8 ++ [98#8]) ++ 0#8 :: [], []])
    (by rw [h0, hs]; simp)
    ⟨by
      intro h
      rcases List.mem_append.mp h with h | h
      · exact absurd (List.eq_of_mem_replicate h) (by decide)
      · exact absurd (List.mem_singleton.mp h) (by decide), [], by rw [h1]; rfl⟩
    (by omega) (by simp; omega) (by simp) (.inl (by decide))
  refine ⟨_, m', r, t, _, _, hs, g1, ?_, ?_⟩
  all_goals
    have hsl : slice (List.replicate (2 * (j + 1)) 97#8) 0 (2 * (j + 1)) = List.replicate (2 * (j + 1)) 97#8 := by
      unfold slice; rw [List.drop_zero, List.take_of_length_le (by simp)]
    rw [hs, h0, hsl, C141_worst (by decide), show 2 * (j + 1) - (j + 1) = j + 1 by omega] at g2
  · exact g2
  · rw [g2, show 4 * j + 5 = 4 * (j + 1) + 1 by omega, Nat.mul_add (j + 1) (4 * (j + 1)) 1, Nat.mul_comm (j + 1) (4 * (j + 1))]; omega

theorem findSteps_absent {a : Byte} (k : List Byte) : ∀ t : List Byte, a ∉ t →
    findSteps (a :: k) t = 5 * (t.length - (k.length + 1)) + 1 := by
  intro t
  induction t with
  | nil => intro _; simp [findSteps]
  | cons c t ih =>
    intro h
    have hc : c ≠ a := fun e => h (e ▸ List.mem_cons_self)
    rw [findSteps]
    by_cases hl : k.length + 1 < t.length + 1
    · rw [if_pos (by simpa using hl), if_neg (by rw [List.cons_prefix_cons]; exact fun hp => hc hp.1.symm), agree, if_neg hc,
        ih (fun hm => h (List.mem_cons_of_mem _ hm)), List.length_cons]
      omega
    · rw [if_neg (by simpa using hl), List.length_cons]; omega

/-- C141: where the first character of the key does not occur in the text, the lookup is linear. -/
theorem C141_linear {a : Byte} (k t : List Byte) (h : a ∉ t) (room : Nat) :
    lookupSteps (a :: k) t room = 5 * (t.length - (k.length + 1)) + k.length + 5 := by
  have hno : afterKey (a :: k) t = none :=
    afterKey_none_of_prefix _ (fun i hp => h (List.mem_of_mem_drop (hp.subset List.mem_cons_self)))
  rw [lookupSteps, findSteps_absent k t h, hno, List.length_cons]
  simp only
  omega

/-! ### What does not matter to a lookup that finds -/

theorem agree_append_right {k s : List Byte} (u : List Byte) (h : k.length ≤ s.length) : agree (s ++ u) k = agree s k := by
  rw [← Json.agree_take k (s ++ u), List.take_append_of_le_length h, Json.agree_take]

theorem findSteps_append {k t r : List Byte} (u : List Byte) (h : afterKey k t = some r) : findSteps k (t ++ u) = findSteps k t := by
  induction t with
  | nil => simp [afterKey] at h
  | cons c t ih =>
    have hlen := afterKey_length h
    have hl : k.length < (c :: t).length := by omega
    rw [List.cons_append, findSteps, findSteps, ← List.cons_append, if_pos (by rw [List.length_append]; omega), if_pos hl,
      agree_append_right u (Nat.le_of_lt hl)]
    by_cases hp : k <+: c :: t
    · rw [if_pos hp, if_pos (hp.trans (List.prefix_append _ _))]
    · rw [if_neg hp, if_neg (fun h' => hp (List.prefix_of_prefix_length_le h' (List.prefix_append _ _) (by omega)))]
      rw [afterKey, if_neg (fun h' => hp h'.1)] at h
      rw [ih h]

theorem afterKey_append {k t r : List Byte} (u : List Byte) (h : afterKey k t = some r) : afterKey k (t ++ u) = some (r ++ u) := by
  induction t with
  | nil => simp [afterKey] at h
  | cons c t ih =>
    have hlen := afterKey_length h
    have hl : k.length < (c :: t).length := by omega
    rw [List.cons_append, afterKey, ← List.cons_append]
    by_cases hp : k <+: c :: t
    · rw [afterKey, if_pos ⟨hp, hl⟩] at h
      rw [if_pos ⟨hp.trans (List.prefix_append _ _), by rw [List.length_append]; omega⟩, List.getElem?_append_left hl]
      split at h
      · next hq =>
        cases h
        rw [if_pos hq, List.drop_append_of_le_length (by omega)]
      · cases h
    · rw [if_neg (fun h' => hp (List.prefix_of_prefix_length_le h'.1 (List.prefix_append _ _) (by omega)))]
      rw [afterKey, if_neg (fun h' => hp h'.1)] at h
      exact ih h

theorem skipSteps_append {r : List Byte} (u : List Byte) (h : 34#8 ∈ r) : skipSteps (r ++ u) = skipSteps r := by
  induction r with
  | nil => cases h
  | cons c r ih =>
    rw [List.cons_append, skipSteps, skipSteps]
    by_cases hq : c = 34#8
    · rw [if_pos hq, if_pos hq]
    · rw [if_neg hq, if_neg hq, ih (by rcases List.mem_cons.mp h with h | h; exact absurd h.symm hq; exact h)]

theorem dropWhile_append {r : List Byte} (u : List Byte) (h : 34#8 ∈ r) :
    (r ++ u).dropWhile notQuote = r.dropWhile notQuote ++ u := by
  induction r with
  | nil => cases h
  | cons c r ih =>
    by_cases hq : c = 34#8
    · rw [List.cons_append, List.dropWhile_cons_of_neg (by simp [notQuote, hq]), List.dropWhile_cons_of_neg (by simp [notQuote, hq])]
      rfl
    · rw [List.cons_append, List.dropWhile_cons_of_pos (by simp [notQuote, hq]), List.dropWhile_cons_of_pos (by simp [notQuote, hq]),
        ih (by rcases List.mem_cons.mp h with h | h; exact absurd h.symm hq; exact h)]

theorem copySteps_quoted : ∀ (t : List Byte) (room : Nat), 34#8 ∈ t → (t.takeWhile notQuote).length < room →
    copySteps t room = 6 * (t.takeWhile notQuote).length + 7 := by
  intro t
  induction t with
  | nil => intro room h _; cases h
  | cons c t ih =>
    intro room h hr
    cases room with
    | zero => omega
    | succ room =>
      rw [copySteps]
      by_cases hq : c = 34#8
      · rw [if_pos hq, List.takeWhile_cons_of_neg (by simp [notQuote, hq])]; rfl
      · rw [List.takeWhile_cons_of_pos (by simp [notQuote, hq]), List.length_cons] at hr ⊢
        rw [if_neg hq, ih room (by rcases List.mem_cons.mp h with h | h; exact absurd h.symm hq; exact h) (by omega)]
        omega

theorem takeWhile_append {r : List Byte} (u : List Byte) (h : 34#8 ∈ r) :
    (r ++ u).takeWhile notQuote = r.takeWhile notQuote := by
  induction r with
  | nil => cases h
  | cons c r ih =>
    by_cases hq : c = 34#8
    · rw [List.cons_append, List.takeWhile_cons_of_neg (by simp [notQuote, hq]), List.takeWhile_cons_of_neg (by simp [notQuote, hq])]
    · rw [List.cons_append, List.takeWhile_cons_of_pos (by simp [notQuote, hq]), List.takeWhile_cons_of_pos (by simp [notQuote, hq]),
        ih (by rcases List.mem_cons.mp h with h | h; exact absurd h.symm hq; exact h)]

/-- C141: the steps of a lookup that finds do not depend on what follows in the buffer, on how large the buffer is or on how
much room there is in the output beyond the value and its NUL. -/
theorem C141_found {k t v : List Byte} (h : lookup k t = some v) (u : List Byte) {room room' : Nat} (hr : v.length < room)
    (hr' : v.length < room') : lookupSteps k (t ++ u) room' = lookupSteps k t room := by
  unfold lookup at h
  cases ha : afterKey k t with
  | none => rw [ha] at h; cases h
  | some r =>
    rw [ha, Option.bind_some] at h
    unfold quoted at h
    cases hd : r.dropWhile notQuote with
    | nil => rw [hd] at h; cases h
    | cons q s =>
      rw [hd] at h
      simp only at h
      split at h
      · next hq =>
        cases h
        have hm : 34#8 ∈ r := (List.dropWhile_suffix notQuote).subset (by rw [hd]; exact List.mem_cons_of_mem _ hq)
        rw [lookupSteps, lookupSteps, findSteps_append u ha, afterKey_append u ha, ha]
        simp only
        rw [skipSteps_append u hm, dropWhile_append u hm, hd, List.cons_append, List.drop_one, List.tail_cons, List.drop_one,
          List.tail_cons, copySteps_quoted s room hq hr,
          copySteps_quoted (s ++ u) room' (List.mem_append_left _ hq) (by rw [takeWhile_append u hq]; exact hr'),
          takeWhile_append u hq]
      · cases h

/-- The hypotheses of `C141_steps` are met: `bc` in `{"a":"1","bc":"xyz"}`, with enough room and with too little, and a key that
does not occur. -/
example : (∃ r t m', findByKeyT (ptr 0 0) 22 (ptr 1 0) (ptr 2 1) 4
      (memL [ascii "{\"a\":\"1\",\"bc\":\"xyz\"}" ++ [0, 9], [98, 99, 0], List.replicate 6 7]) = .ok (r, t) m' ∧ t.length = 98) ∧
    (∃ r t m', findByKeyT (ptr 0 0) 22 (ptr 1 0) (ptr 2 1) 0
      (memL [ascii "{\"a\":\"1\",\"bc\":\"xyz\"}" ++ [0, 9], [98, 100, 0], List.replicate 6 7]) = .ok (r, t) m' ∧ t.length = 110) := by
  constructor
  · obtain ⟨r, t, m', h1, -, h3⟩ := C141_steps 0 0 1 0 2 1 22 4 [98, 99]
      (memL [ascii "{\"a\":\"1\",\"bc\":\"xyz\"}" ++ [0, 9], [98, 99, 0], List.replicate 6 7]) (by decide +kernel)
      ⟨by decide, [], rfl⟩ (by decide) (by decide) (by decide +kernel) (.inl (by decide))
    exact ⟨r, t, m', h1, h3.trans (by decide +kernel)⟩
  · obtain ⟨r, t, m', h1, -, h3⟩ := C141_steps 0 0 1 0 2 1 22 0 [98, 100]
      (memL [ascii "{\"a\":\"1\",\"bc\":\"xyz\"}" ++ [0, 9], [98, 100, 0], List.replicate 6 7]) (by decide +kernel)
      ⟨by decide, [], rfl⟩ (by decide) (by decide) (by decide +kernel) (.inl (by decide))
    exact ⟨r, t, m', h1, h3.trans (by decide +kernel)⟩

/-- Those of `C141_found` and `C141_linear`. -/
example : lookup [107] (ascii "{\"k\":\"2\"") = some [50] ∧ lookupSteps [107] (ascii "{\"k\":\"2\"") 2 = 41 ∧
    (122#8 ∉ ascii "{\"k\":\"2\"") ∧ lookupSteps [122, 107] (ascii "{\"k\":\"2\"") 2 = 36 := by decide +kernel

end IMU.Props
