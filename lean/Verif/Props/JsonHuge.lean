import Verif.Props.Json
import Verif.Proofs.JsonHuge

/-!
# JSON: property C121, lookup in buffers of 4 GiB and more

Specification: `Verif/Spec/JsonHuge.lean`.  The loops of `Json_findByKey` count in `uint32_t`, its sizes are `size_t`.
-/

namespace IMU.Props
open Spec Spec.Json Json

/-- What the theorems suppose: `t` are the `size` bytes of the buffer, the key is a string, and the output does not
overlap the first 2^32 bytes of the buffer. -/
structure HugeCall (m : Mem) (b o bk ok bv ov : Nat) (size mv : SizeT) (k t : List Byte) : Prop where
  text : slice (m.bytes b) o size.toNat = t
  room : o + size.toNat ≤ (m.bytes b).length
  key : CStr (m.bytes bk) ok k
  out : ov + mv.toNat ≤ (m.bytes bv).length
  apart : bv ≠ b ∨ ov + mv.toNat ≤ o ∨ o + 2 ^ 32 ≤ ov

namespace HugeCall
variable {m : Mem} {b o bk ok bv ov : Nat} {size mv : SizeT} {k t : List Byte}

theorem reads (h : HugeCall m b o bk ok bv ov size mv k t) : Base64.Reads m b o t := h.text ▸ reads_slice h.room

theorem len (h : HugeCall m b o bk ok bv ov size mv k t) : size.toNat = t.length := by
  rw [← h.text, slice_length _ _ _ h.room]

end HugeCall

/-- C121: the key is found only if it occurs within the first `(buffer_size - key_size) % 2^32` positions.  If it does not,
the result is false and nothing is written, wherever else it may occur. -/
theorem C121_missed {m : Mem} {b o bk ok bv ov : Nat} {size mv : SizeT} {k t : List Byte}
    (h : HugeCall m b o bk ok bv ov size mv k t) (hkl : k.length < t.length)
    (hno : ∀ i, i < (t.length - k.length) % 2 ^ 32 → ¬ k <+: t.drop i) :
    findByKey (ptr b o) size (ptr bk ok) (ptr bv ov) mv m = .ok false m :=
  find_missed h.reads h.key h.len hkl hno

/-- C121: the exact result in a buffer of 4 GiB or more, if the first occurrence of the key is within those positions and
its closing quote within the first 2^32 bytes.  The value is sought in a circle over the first 2^32 bytes, starting behind
the key: `u` up to the first quote, `v` from there to the next one.  The result is true exactly if `v` fits with its NUL. -/
theorem C121_circle {m : Mem} {b o bk ok bv ov : Nat} {size mv : SizeT} {k t u r v s : List Byte} {p : Nat}
    (h : HugeCall m b o bk ok bv ov size mv k t) (hl : 2 ^ 32 ≤ size.toNat) (hp : p < (t.length - k.length) % 2 ^ 32)
    (hf : FirstAt k t p) (hq : t[p + k.length]? = some 34#8) (hend : p + k.length < 2 ^ 32)
    (hu : around (t.take (2 ^ 32)) (p + k.length + 1) = u ++ 34#8 :: r) (hu34 : 34#8 ∉ u)
    (hv : r ++ u ++ [34#8] = v ++ 34#8 :: s) (hv34 : 34#8 ∉ v) :
    ∃ m', findByKey (ptr b o) size (ptr bk ok) (ptr bv ov) mv m = .ok (decide (v.length < mv.toNat)) m' ∧
      OnlyChanged m m' bv ov mv.toNat ∧
      slice (m'.bytes bv) ov (min v.length mv.toNat) = v.take mv.toNat ∧
      (v.length < mv.toNat → slice (m'.bytes bv) ov (v.length + 1) = v ++ [0#8]) := by
  obtain ⟨m', h1, h2, h3, h4⟩ := find_ring h.reads h.key h.len (h.len ▸ hl) hp hf hq hend h.out h.apart hu hu34 hv hv34
  refine ⟨m', h1, h2, ?_, fun hfit => ?_⟩
  · apply List.ext_getElem?
    intro x
    rw [getElem?_slice, List.getElem?_take]
    by_cases hx : x < min v.length mv.toNat
    · rw [if_pos hx, if_pos (by omega), h3 x (by omega) (by omega)]
    · rw [if_neg hx]
      split
      · rw [List.getElem?_eq_none (by omega)]
      · rfl
  · apply List.ext_getElem?
    intro x
    rw [getElem?_slice]
    by_cases hx : x < v.length
    · rw [if_pos (by omega), h3 x hx (by omega), List.getElem?_append_left hx]
    · by_cases hx2 : x = v.length
      · subst hx2
        rw [if_pos (by omega), h4 hfit]; simp
      · rw [if_neg (by omega), List.getElem?_eq_none (by simp; omega)]

/-- There is always exactly one such `u` and `v`: the closing quote of the key lies on the circle. -/
theorem C121_circle_exists {t k : List Byte} {p : Nat} (hq : t[p + k.length]? = some 34#8) (hend : p + k.length < 2 ^ 32) :
    ∃ u r v s, around (t.take (2 ^ 32)) (p + k.length + 1) = u ++ 34#8 :: r ∧ 34#8 ∉ u ∧
      r ++ u ++ [34#8] = v ++ 34#8 :: s ∧ 34#8 ∉ v := by
  have hmem : 34#8 ∈ around (t.take (2 ^ 32)) (p + k.length + 1) := by
    unfold around
    rw [List.mem_append]
    right
    rw [List.take_take, Nat.min_eq_left (by omega)]
    obtain ⟨hlt, e⟩ := List.getElem?_eq_some_iff.mp hq
    rw [List.mem_take_iff_getElem]
    exact ⟨p + k.length, by omega, e⟩
  obtain ⟨u, r, e, hu⟩ := split_first _ hmem
  obtain ⟨v, s, e', hv⟩ := split_first (r ++ u ++ [34#8]) (by simp)
  exact ⟨u, r, v, s, e, hu, e', hv⟩

/-- C121: if both quotes of the value lie within the first 2^32 bytes, the value is the right one, as in a smaller buffer. -/
theorem C121_right {m : Mem} {b o bk ok bv ov : Nat} {size mv : SizeT} {k t pre mid v rest : List Byte}
    (h : HugeCall m b o bk ok bv ov size mv k t) (hl : 2 ^ 32 ≤ size.toNat)
    (ht : t = pre ++ k ++ [34#8] ++ mid ++ [34#8] ++ v ++ [34#8] ++ rest) (hm34 : 34#8 ∉ mid) (hv34 : 34#8 ∉ v)
    (hf : FirstAt k t pre.length) (hp : pre.length < (t.length - k.length) % 2 ^ 32)
    (hin : (pre ++ k ++ [34#8] ++ mid ++ [34#8] ++ v ++ [34#8]).length ≤ 2 ^ 32) :
    ∃ m', findByKey (ptr b o) size (ptr bk ok) (ptr bv ov) mv m = .ok (decide (v.length < mv.toNat)) m' ∧
      (v.length < mv.toNat → slice (m'.bytes bv) ov (v.length + 1) = v ++ [0#8]) := by
  have hlen := h.len
  have htake : t.take (2 ^ 32) = (pre ++ k ++ [34#8]) ++ (mid ++ 34#8 :: (v ++ 34#8 ::
      rest.take (2 ^ 32 - (pre ++ k ++ [34#8] ++ mid ++ [34#8] ++ v ++ [34#8]).length))) := by
    conv_lhs => rw [ht]
    rw [List.take_append, List.take_of_length_le hin]
    simp [List.append_assoc]
  generalize rest.take (2 ^ 32 - (pre ++ k ++ [34#8] ++ mid ++ [34#8] ++ v ++ [34#8]).length) = z at htake
  have hq : t[pre.length + k.length]? = some 34#8 := by
    rw [ht]; simp [List.append_assoc, List.getElem?_append]
  simp only [List.length_append, List.length_cons, List.length_nil] at hin
  obtain ⟨m', h1, _, _, h4⟩ := C121_circle (u := mid) (r := v ++ 34#8 :: z ++ (pre ++ k ++ [34#8])) (v := v)
    (s := z ++ (pre ++ k ++ [34#8]) ++ mid ++ [34#8]) h hl hp hf hq (by omega)
    (by
      unfold around
      rw [htake, List.drop_left' (by simp; omega), List.take_left' (by simp; omega)]
      simp [List.append_assoc]) hm34 (by simp [List.append_assoc]) hv34
  exact ⟨m', h1, h4⟩

/-- C121: if no quote follows the key within the first 2^32 bytes, the function returns, as the value, the text between the
first two quotes of the buffer: the name of the first member. -/
theorem C121_first_key {m : Mem} {b o bk ok bv ov : Nat} {size mv : SizeT} {k t x y z : List Byte} {p : Nat}
    (h : HugeCall m b o bk ok bv ov size mv k t) (hl : 2 ^ 32 ≤ size.toNat) (hp : p < (t.length - k.length) % 2 ^ 32)
    (hf : FirstAt k t p) (hq : t[p + k.length]? = some 34#8) (hend : p + k.length < 2 ^ 32)
    (hlast : 34#8 ∉ (t.take (2 ^ 32)).drop (p + k.length + 1))
    (ht : t.take (2 ^ 32) = x ++ 34#8 :: (y ++ 34#8 :: z)) (hx : 34#8 ∉ x) (hy : 34#8 ∉ y) :
    ∃ m', findByKey (ptr b o) size (ptr bk ok) (ptr bv ov) mv m = .ok (decide (y.length < mv.toNat)) m' ∧
      (y.length < mv.toNat → slice (m'.bytes bv) ov (y.length + 1) = y ++ [0#8]) := by
  have hlt : (x ++ 34#8 :: y).length ≤ p + k.length := by
    by_contra hc
    apply hlast
    rw [ht, show x ++ 34#8 :: (y ++ 34#8 :: z) = (x ++ 34#8 :: y) ++ 34#8 :: z by simp,
      List.drop_append_of_le_length (by omega)]
    simp
  obtain ⟨m', h1, _, _, h4⟩ := C121_circle (u := (t.take (2 ^ 32)).drop (p + k.length + 1) ++ x)
    (r := y ++ 34#8 :: z.take (p + k.length - (x ++ 34#8 :: y).length)) (v := y)
    (s := z.take (p + k.length - (x ++ 34#8 :: y).length) ++ ((t.take (2 ^ 32)).drop (p + k.length + 1) ++ x) ++ [34#8])
    h hl hp hf hq hend
    (by
      unfold around
      rw [List.append_assoc]
      congr 1
      rw [ht, show x ++ 34#8 :: (y ++ 34#8 :: z) = (x ++ 34#8 :: y) ++ ([34#8] ++ z) by simp, List.take_append,
        List.take_of_length_le (by omega), List.take_append,
        List.take_of_length_le (by simp only [List.length_cons, List.length_nil]; omega)]
      simp only [List.append_assoc, List.cons_append, List.nil_append, List.length_cons, List.length_nil]
      rw [show p + k.length + 1 - (x ++ 34#8 :: y).length - (0 + 1) = p + k.length - (x ++ 34#8 :: y).length by omega])
    (by
      rw [List.mem_append]
      rintro (h | h)
      · exact hlast h
      · exact hx h)
    (by simp [List.append_assoc]) hy
  exact ⟨m', h1, h4⟩

/-- C121: if the key's closing quote lies behind the first 2^32 bytes and there is no quote within them, the second loop
never ends: the outcome is "more rounds than allowed", however many rounds are allowed. -/
theorem C121_endless {m : Mem} {b o bk ok bv ov : Nat} {size mv : SizeT} {k t : List Byte} {p : Nat}
    (h : HugeCall m b o bk ok bv ov size mv k t) (hl : 2 ^ 32 ≤ size.toNat) (hkl : k.length < 2 ^ 63)
    (hp : p < (t.length - k.length) % 2 ^ 32) (hf : FirstAt k t p) (hq : t[p + k.length]? = some 34#8)
    (hno : 34#8 ∉ t.take (2 ^ 32)) :
    findByKey (ptr b o) size (ptr bk ok) (ptr bv ov) mv m = .ub .fuel ∧
      ∀ (fuel : Nat) (index : U32), skip (ptr b o) size fuel index m = .ub .fuel := by
  refine ⟨find_endless h.reads h.key h.len (h.len ▸ hl) hkl hp hf hq hno, fun fuel index => ?_⟩
  have := skip_endless h.reads hl (h.len ▸ hl) hno fuel index.toNat
  rwa [BitVec.ofNat_toNat, BitVec.setWidth_eq] at this

/-- C121: a buffer of exactly 2^32 - 1 bytes: if a quote follows the key, or the key is not found, everything is as in
smaller buffers. -/
theorem C121_limit_right {m : Mem} {b o bk ok bv ov : Nat} {size mv : SizeT} {k t : List Byte}
    (h : HugeCall m b o bk ok bv ov size mv k t) (hl : size.toNat = 2 ^ 32 - 1) (hkl : k.length < 2 ^ 64)
    (hq : ∀ r, afterKey k t = some r → 34#8 ∈ r) :
    ∃ r m', findByKey (ptr b o) size (ptr bk ok) (ptr bv ov) mv m = .ok r m' ∧ OnlyChanged m m' bv ov mv.toNat ∧
      (r = true ↔ ∃ v, lookup k t = some v ∧ v.length < mv.toNat) ∧
      (∀ v, r = true → lookup k t = some v → slice (m'.bytes bv) ov (v.length + 1) = v ++ [0#8]) := by
  have hlen := h.len
  have ha := h.apart
  obtain ⟨r, m', h1, h2, h3, h4⟩ := findByKey_ok h.reads h.key h.len (by omega) (.inr hq) hkl h.out (by omega)
  refine ⟨r, m', h1, h2, h3, fun v hr hv => ?_⟩
  apply List.ext_getElem?
  intro x
  rw [getElem?_slice]
  split
  · exact h4 v hr hv x (by omega)
  · rw [List.getElem?_eq_none (by simp; omega)]

/-- C121: a buffer of exactly 2^32 - 1 bytes without a quote behind the key: the function returns, as the value, the
beginning of the buffer up to its first quote. -/
theorem C121_limit_wrong {m : Mem} {b o bk ok bv ov : Nat} {size mv : SizeT} {k t r : List Byte}
    (h : HugeCall m b o bk ok bv ov size mv k t) (hl : size.toNat = 2 ^ 32 - 1) (hkl : k.length < 2 ^ 64)
    (ha : afterKey k t = some r) (hr : 34#8 ∉ r) :
    ∃ v s m', t = v ++ 34#8 :: s ∧ 34#8 ∉ v ∧ lookup k t = none ∧
      findByKey (ptr b o) size (ptr bk ok) (ptr bv ov) mv m = .ok (decide (v.length < mv.toNat)) m' ∧
      (v.length < mv.toNat → slice (m'.bytes bv) ov (v.length + 1) = v ++ [0#8]) := by
  have hlen := h.len
  have hap := h.apart
  have hmem : 34#8 ∈ t := by
    obtain ⟨pre, e, _⟩ := (afterKey_iff k t r).mp ha
    rw [e]; simp
  obtain ⟨v, s, e, hv⟩ := split_first t hmem
  obtain ⟨m', h1, _, h3⟩ := find_limit h.reads h.key h.len (by omega) hkl h.out (by omega) ha hr
  have htw : t.takeWhile notQuote = v := by rw [e, takeWhile_append hv]
  rw [htw] at h1 h3
  refine ⟨v, s, m', e, hv, ?_, h1, fun hfit => ?_⟩
  · unfold lookup quoted
    rw [ha, Option.bind_some, dropWhile_mem r hr]
  · apply List.ext_getElem?
    intro x
    rw [getElem?_slice]
    split
    · exact h3 hfit x (by omega)
    · rw [List.getElem?_eq_none (by simp; omega)]

/-- For the example: `{"a"` and zeros. -/
def hugeText (n : Nat) : List Byte := [123#8, 34#8, 97#8, 34#8] ++ List.replicate n 0#8

/-- The hypotheses of `C121_first_key` are met: `{"a"` and 2^32 zeros; asked for `a`, the function answers `a`. -/
example : ∃ (m : Mem) (size : SizeT) (z : List Byte), 2 ^ 32 ≤ size.toNat ∧
    HugeCall m 0 0 1 0 2 0 size 2#64 [97#8] (hugeText (2 ^ 32)) ∧
    2 < ((hugeText (2 ^ 32)).length - [97#8].length) % 2 ^ 32 ∧ FirstAt [97#8] (hugeText (2 ^ 32)) 2 ∧
    (hugeText (2 ^ 32))[2 + [97#8].length]? = some 34#8 ∧
    34#8 ∉ ((hugeText (2 ^ 32)).take (2 ^ 32)).drop (2 + [97#8].length + 1) ∧
    (hugeText (2 ^ 32)).take (2 ^ 32) = [123#8] ++ 34#8 :: ([97#8] ++ 34#8 :: z) := by
  have hlen : ∀ n, (hugeText n).length = n + 4 := by intro n; simp [hugeText]
  have key : ∀ n c, 4 ≤ c → (hugeText n).take c = [123#8, 34#8, 97#8, 34#8] ++ (List.replicate n 0#8).take (c - 4) := by
    intro n c hc
    unfold hugeText
    rw [List.take_append, List.take_of_length_le (by simpa using hc)]
    rfl
  have hfirst : ∀ n, FirstAt [97#8] (hugeText n) 2 := by
    intro n
    refine ⟨by simp [hugeText], fun i hi => ?_⟩
    match i, hi with
    | 0, _ => simp [hugeText]
    | 1, _ => simp [hugeText]
  have hquote : ∀ n, (hugeText n)[2 + [97#8].length]? = some 34#8 := by intro n; simp [hugeText]
  generalize hN : (2 : Nat) ^ 32 = N
  have hN' : N = 4294967296 := by rw [← hN]; rfl
  refine ⟨⟨fun b => if b = 0 then hugeText N else if b = 1 then [97#8, 0#8] else [0#8, 0#8], fun _ => []⟩,
    BitVec.ofNat 64 (N + 4), (List.replicate N 0#8).take (N - 4), ?_, ⟨?_, ?_, ?_, ?_, ?_⟩, ?_, hfirst N, hquote N, ?_, ?_⟩
  · rw [ofNat64 (by omega)]; omega
  · show slice (hugeText N) 0 _ = _
    rw [ofNat64 (by omega), slice, List.drop_zero, List.take_of_length_le (by rw [hlen])]
  · show 0 + _ ≤ (hugeText N).length
    rw [ofNat64 (by omega), hlen]; omega
  · show CStr [97#8, 0#8] 0 [97#8]
    exact cstr_iff.mpr (by decide)
  · show 0 + (2#64).toNat ≤ [0#8, 0#8].length
    decide
  · exact .inl (by decide)
  · rw [hlen]
    show 2 < (N + 4 - 1) % N
    rw [show N + 4 - 1 = N + 3 by omega, Nat.add_mod_left, Nat.mod_eq_of_lt (by omega)]
    omega
  · rw [key N N (by omega), List.drop_append, List.drop_of_length_le (by decide)]
    intro h
    rw [List.nil_append] at h
    have h1 := List.eq_of_mem_replicate (List.mem_of_mem_take (List.mem_of_mem_drop h))
    exact absurd h1 (by decide)
  · exact key N N (by omega)

end IMU.Props
