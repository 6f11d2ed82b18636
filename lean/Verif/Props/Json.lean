import Verif.Proofs.JsonHistory
import Verif.Props.Base64

/-!
# JSON builder and lookup: C64 - C71
-/

namespace IMU.Props
open Spec
open IMU.Json
open Spec.Json (document members member sep add lookup addAll build run Holds before structural)

/-- A memory with the given blocks (for the examples). -/
def memL (l : List (List Byte)) : Mem := ⟨fun b => l.getD b [], fun _ => []⟩

/-- For the examples: the run ends with result `a` and contents `l` of block `b`. -/
def ends {α : Type} [DecidableEq α] (x : Res α) (a : α) (b : Nat) (l : List Byte) : Bool :=
  match x with
  | .ok a' m' => decide (a' = a ∧ m'.bytes b = l)
  | .ub _ => false

theorem of_ends {α : Type} [DecidableEq α] {x : Res α} {a : α} {b : Nat} {l : List Byte} (h : ends x a b l = true) :
    ∃ m', x = .ok a m' ∧ m'.bytes b = l := by
  unfold ends at h
  split at h
  · rename_i a' m'
    obtain ⟨h1, h2⟩ := of_decide_eq_true h
    exact ⟨m', by rw [h1], h2⟩
  · cases h

/-- For the examples: the undefined behaviour of a run. -/
def ubOf {α : Type} : Res α → Option UB
  | .ok _ _ => none
  | .ub e => some e

theorem of_ubOf {α : Type} {x : Res α} {e : UB} (h : ubOf x = some e) : x = .ub e := by
  cases x with
  | ok a m => cases h
  | ub e' => exact congrArg Res.ub (Option.some.inj h)

/-! ### C64 -/

/-- If the document and its NUL fit, `Json_startString`, one `Json_addData` per member and `Json_endString` all
return true, leave exactly the document in the buffer and change no byte outside the buffer.  Keys and values may
be any strings outside the buffer (they may share storage with each other). -/
theorem C64_build (b o : Nat) (size : SizeT) (l : List (List Byte × List Byte)) (ps : List (Ptr × Ptr)) (m : Mem)
    (hroom : o + size.toNat ≤ (m.bytes b).length) (hh : Holds m b o size.toNat ps l)
    (hfit : (document l).length + 1 ≤ size.toNat)
    (hsm : ∀ x ∈ l, size.toNat + x.1.length + x.2.length + 7 < 2 ^ 64) :
    ∃ m', build (ptr b o) size ps m = .ok (List.replicate (l.length + 2) true) m' ∧
      CStr (m'.bytes b) o (document l) ∧ OnlyChanged m m' b o size.toNat := build_ok l ps m hroom hh hfit hsm

/-- Any sequence of additions to any non-empty text, including failing ones: the results and the text are those of
the specification `run`. -/
theorem C64_additions (b o : Nat) (size : SizeT) (l : List (List Byte × List Byte)) (ps : List (Ptr × Ptr))
    (t : List Byte) (m : Mem) (ht : CStr (m.bytes b) o t) (hn : t ≠ []) (hl : t.length < size.toNat)
    (hroom : o + size.toNat ≤ (m.bytes b).length) (hh : Holds m b o size.toNat ps l)
    (hsm : ∀ x ∈ l, size.toNat + x.1.length + x.2.length + 7 < 2 ^ 64) (rs : List Bool) (t' : List Byte)
    (hrun : run size.toNat t l = some (rs, t')) :
    ∃ m', addAll (ptr b o) size ps m = .ok rs m' ∧ CStr (m'.bytes b) o t' ∧
      OnlyChanged m m' b (o + t.length) (size.toNat - t.length) :=
  (addAll_ok l ps t m ht hn hl hroom hh hsm).1 _ hrun

/-- Non-vacuity: two members in a buffer of 19 bytes, `{"a":"1","bc":""}` has 17 characters. -/
example : Holds (memL [ascii "??" ++ List.replicate 19 7, [97, 0, 49, 0], [98, 99, 0]]) 0 2 19
      [(ptr 1 0, ptr 1 2), (ptr 2 0, ptr 2 2)] [([97], [49]), ([98, 99], [])] ∧
    document [([97], [49]), ([98, 99], [])] = ascii "{\"a\":\"1\",\"bc\":\"\"}" ∧
    (document [([97], [49]), ([98, 99], [])]).length + 1 ≤ (19#64).toNat := by
  refine ⟨⟨⟨1, 0, 1, 2, rfl, ⟨by decide, ⟨_, rfl⟩⟩, ⟨by decide, ⟨_, rfl⟩⟩, by decide, by decide⟩,
    ⟨2, 0, 2, 2, rfl, ⟨by decide, ⟨_, rfl⟩⟩, ⟨by decide, ⟨_, rfl⟩⟩, by decide, by decide⟩, trivial⟩, by decide +kernel, by decide +kernel⟩

/-- ... and the calls run. -/
example : ∃ m', build (ptr 0 2) 19 [(ptr 1 0, ptr 1 2), (ptr 2 0, ptr 2 2)]
      (memL [ascii "??" ++ List.replicate 19 7, [97, 0, 49, 0], [98, 99, 0]]) = .ok [true, true, true, true] m' ∧
    m'.bytes 0 = ascii "??{\"a\":\"1\",\"bc\":\"\"}" ++ [0, 7] := of_ends (by decide +kernel)

/-- Non-vacuity of the specification of failing additions: the second of three does not fit, the third does. -/
example : run 18 (ascii "{") [([97], [49]), ([98, 99, 100], [49]), ([98], [])] =
    some ([true, false, true], ascii "{\"a\":\"1\",\"b\":\"\"") := by decide +kernel

/-! ### C65 -/

/-- `Json_startString` succeeds exactly for two bytes or more, and then the text is `{`; otherwise nothing is
written. -/
theorem C65_start (b o : Nat) (size : SizeT) (m : Mem) (hroom : o + size.toNat ≤ (m.bytes b).length) :
    (2 ≤ size.toNat → ∃ m', startString (ptr b o) size m = .ok true m' ∧ CStr (m'.bytes b) o [123#8] ∧
      OnlyChanged m m' b o 2) ∧
    (size.toNat < 2 → startString (ptr b o) size m = .ok false m) := by
  refine ⟨startString_ok hroom, fun h => ?_⟩
  unfold startString
  rw [if_neg (by rw [BitVec.le_def]; simp; omega)]
  rfl

/-- `Json_addData` succeeds exactly when the new text with separator and NUL fits in `size` bytes; the new text is
then the old text, a comma if the old text ends in a quote, and `"key":"value"`. -/
theorem C65_add (b o bk ok bv ov : Nat) (size : SizeT) (t k v : List Byte) (m : Mem) (ht : CStr (m.bytes b) o t)
    (hk : CStr (m.bytes bk) ok k) (hv : CStr (m.bytes bv) ov v)
    (hka : bk ≠ b ∨ ok + k.length + 1 ≤ o ∨ o + size.toNat ≤ ok)
    (hva : bv ≠ b ∨ ov + v.length + 1 ≤ o ∨ o + size.toNat ≤ ov)
    (hroom : o + size.toNat ≤ (m.bytes b).length) (hsmall : t.length + k.length + v.length + 7 < 2 ^ 64) (hn : t ≠ [])
    (hfit : t.length + (sep t).length < size.toNat) :
    ∃ m' r, addData (ptr b o) size (ptr bk ok) (ptr bv ov) m = .ok r m' ∧
      (r = true ↔ (t ++ sep t ++ member k v).length + 1 ≤ size.toNat) ∧
      (r = true → CStr (m'.bytes b) o (t ++ sep t ++ member k v)) ∧
      (r = false → CStr (m'.bytes b) o (t ++ sep t)) := by
  obtain ⟨m', h1, h2, _⟩ := addData_ok (size := size) ⟨ht, hk, hv, hka, hva, hroom, by omega⟩ hn hsmall hfit
  refine ⟨m', _, h1, ?_⟩
  unfold add at h2 ⊢
  split at h2
  · rename_i h; rw [if_pos h]; exact ⟨⟨fun _ => h, fun _ => rfl⟩, fun _ => h2, fun h => by cases h⟩
  · rename_i h; rw [if_neg h]; exact ⟨⟨(fun h' => nomatch h'), fun h' => absurd h' h⟩, (fun h' => nomatch h'), fun _ => h2⟩

/-- `Json_endString` succeeds exactly when `}` and the NUL fit; otherwise nothing is written. -/
theorem C65_end (b o : Nat) (size : SizeT) (t : List Byte) (m : Mem) (ht : CStr (m.bytes b) o t)
    (hroom : o + size.toNat ≤ (m.bytes b).length) (hsmall : t.length + 2 < 2 ^ 64) :
    (t.length + 2 ≤ size.toNat → ∃ m', endString (ptr b o) size m = .ok true m' ∧
      CStr (m'.bytes b) o (t ++ [125#8]) ∧ OnlyChanged m m' b (o + t.length) 2) ∧
    (size.toNat < t.length + 2 → endString (ptr b o) size m = .ok false m) :=
  ⟨endString_ok ht hroom hsmall, endString_fail ht hsmall⟩

/-- Non-vacuity: 9 bytes hold `{"a":"1"`, 8 bytes do not. -/
example : ∃ m', addData (ptr 0 0) 9 (ptr 1 0) (ptr 1 2) (memL [123 :: List.replicate 8 0, [97, 0, 49, 0]]) = .ok true m' ∧
    m'.bytes 0 = ascii "{\"a\":\"1\"" ++ [0] := of_ends (by decide +kernel)
example : ∃ m', addData (ptr 0 0) 8 (ptr 1 0) (ptr 1 2) (memL [123 :: List.replicate 8 0, [97, 0, 49, 0]]) = .ok false m' ∧
    m'.bytes 0 = 123 :: List.replicate 8 0 := of_ends (by decide +kernel)

/-! ### C66 -/

/-- A failing addition behind a text that does not end in a quote changes nothing at all. -/
theorem C66_unchanged (b o bk ok bv ov : Nat) (size : SizeT) (t k v : List Byte) (m : Mem) (ht : CStr (m.bytes b) o t)
    (hk : CStr (m.bytes bk) ok k) (hv : CStr (m.bytes bv) ov v) (hn : t ≠ [])
    (hsmall : t.length + k.length + v.length + 6 < 2 ^ 64) (hq : t.getLast? ≠ some 34#8)
    (hbig : size.toNat < (t ++ member k v).length + 1) :
    addData (ptr b o) size (ptr bk ok) (ptr bv ov) m = .ok false m := addData_same ht hk hv hn hsmall hq hbig

/-- A failing addition behind a quote, that is behind any earlier member, leaves a trailing comma; ending the
document then yields a text ending in `,}`, which is no document. -/
theorem C66_trailing_comma (b o bk ok bv ov : Nat) (size : SizeT) (t k v : List Byte) (m : Mem)
    (ht : CStr (m.bytes b) o t) (hk : CStr (m.bytes bk) ok k) (hv : CStr (m.bytes bv) ov v)
    (hka : bk ≠ b ∨ ok + k.length + 1 ≤ o ∨ o + size.toNat ≤ ok)
    (hva : bv ≠ b ∨ ov + v.length + 1 ≤ o ∨ o + size.toNat ≤ ov)
    (hroom : o + size.toNat ≤ (m.bytes b).length) (hsmall : t.length + k.length + v.length + 7 < 2 ^ 64)
    (hq : t.getLast? = some 34#8) (hfit : t.length + 3 ≤ size.toNat)
    (hbig : size.toNat < (t ++ [44#8] ++ member k v).length + 1) :
    ∃ m', addData (ptr b o) size (ptr bk ok) (ptr bv ov) m = .ok false m' ∧ CStr (m'.bytes b) o (t ++ [44#8]) ∧
      ∃ m'', endString (ptr b o) size m' = .ok true m'' ∧ CStr (m''.bytes b) o (t ++ [44#8, 125#8]) ∧
        ∀ l, document l ≠ t ++ [44#8, 125#8] := by
  have hs : sep t = [44#8] := by simp [sep, hq]
  have hn : t ≠ [] := by rintro rfl; simp at hq
  have hsz := size.isLt
  obtain ⟨m', h1, h2, h3⟩ := addData_ok (size := size) ⟨ht, hk, hv, hka, hva, hroom, by omega⟩ hn hsmall
    (by rw [hs]; simp; omega)
  unfold add at h1 h2
  rw [hs, if_neg (by dsimp only; omega)] at h1 h2
  dsimp only at h2
  obtain ⟨m'', e1, e2, _⟩ := endString_ok (size := size) h2 (by rw [oc_length h3]; exact hroom) (by simp; omega)
    (by simp; omega)
  refine ⟨m', h1, h2, m'', e1, ?_, fun l => Spec.Json.document_ne l t⟩
  rw [List.append_assoc] at e2
  exact e2

/-- The run: 12 bytes, `{"a":"b"` and a member that does not fit. -/
theorem C66_witness : ∃ m', (do
      let a ← addData (ptr 0 0) 12 (ptr 1 0) (ptr 1 0)
      let e ← endString (ptr 0 0) 12
      return (a, e)) (memL [ascii "{\"a\":\"b\"" ++ [0, 0, 0, 0], [97, 0]]) = .ok (false, true) m' ∧
    m'.bytes 0 = ascii "{\"a\":\"b\",}" ++ [0, 0] := of_ends (by decide +kernel)

/-! ### C67 -/

/-- The exact bounds: behind a non-empty text `t`, if `t`, its due separator and the NUL fit in `size` bytes, no byte
outside the unused part of the buffer changes and nothing outside the buffer and the two strings is accessed (the
buffer may be all of its object). -/
theorem C67_bounds (b o bk ok bv ov : Nat) (size : SizeT) (t k v : List Byte) (m : Mem) (ht : CStr (m.bytes b) o t)
    (hk : CStr (m.bytes bk) ok k) (hv : CStr (m.bytes bv) ov v)
    (hka : bk ≠ b ∨ ok + k.length + 1 ≤ o ∨ o + size.toNat ≤ ok)
    (hva : bv ≠ b ∨ ov + v.length + 1 ≤ o ∨ o + size.toNat ≤ ov)
    (hroom : o + size.toNat ≤ (m.bytes b).length) (hsmall : t.length + k.length + v.length + 7 < 2 ^ 64) (hn : t ≠ [])
    (hfit : t.length + (sep t).length < size.toNat) :
    ∃ r m', addData (ptr b o) size (ptr bk ok) (ptr bv ov) m = .ok r m' ∧
      OnlyChanged m m' b (o + t.length) (size.toNat - t.length) := by
  obtain ⟨m', h1, _, h3⟩ := addData_ok (size := size) ⟨ht, hk, hv, hka, hva, hroom, by omega⟩ hn hsmall hfit
  exact ⟨_, m', h1, h3⟩

/-- The empty text: `buffer[-1]` is read. -/
theorem C67_empty (b o bk ok bv ov : Nat) (size : SizeT) (k v : List Byte) (m : Mem) (ht : CStr (m.bytes b) o [])
    (hk : CStr (m.bytes bk) ok k) (hv : CStr (m.bytes bv) ov v) (hsmall : (m.bytes b).length < 2 ^ 64) :
    addData (ptr b o) size (ptr bk ok) (ptr bv ov) m = .ub .oobRead := addData_empty ht hk hv hsmall

/-- A text that ends in a quote and fills its object: the comma's NUL is written behind the object, whatever
`size`. -/
theorem C67_full (b o bk ok bv ov : Nat) (size : SizeT) (t k v : List Byte) (m : Mem) (ht : CStr (m.bytes b) o t)
    (hk : CStr (m.bytes bk) ok k) (hv : CStr (m.bytes bv) ov v) (hsmall : t.length < 2 ^ 64)
    (hl : t.getLast? = some 34#8) (hend : (m.bytes b).length = o + t.length + 1) :
    addData (ptr b o) size (ptr bk ok) (ptr bv ov) m = .ub .oobWrite := addData_oob ht hk hv hsmall hl hend

/-- Over any sequence of additions to a buffer at the end of its object, the write behind it happens exactly when
`run` says so. -/
theorem C67_additions (b o : Nat) (size : SizeT) (l : List (List Byte × List Byte)) (ps : List (Ptr × Ptr))
    (t : List Byte) (m : Mem) (ht : CStr (m.bytes b) o t) (hn : t ≠ []) (hl : t.length < size.toNat)
    (hend : (m.bytes b).length = o + size.toNat) (hh : Holds m b o size.toNat ps l)
    (hsm : ∀ x ∈ l, size.toNat + x.1.length + x.2.length + 7 < 2 ^ 64) :
    addAll (ptr b o) size ps m = .ub .oobWrite ↔ run size.toNat t l = none := by
  have h := addAll_ok l ps t m ht hn hl (by omega) hh hsm
  constructor
  · intro hu
    cases hr : run size.toNat t l with
    | none => rfl
    | some r =>
      obtain ⟨m', e, _⟩ := h.1 r hr
      rw [hu] at e; cases e
  · intro hr; exact h.2 hr hend

/-- The runs: a zeroed buffer; and `{"a":"b"` in 9 bytes. -/
theorem C67_witness : addData (ptr 0 0) 9 (ptr 1 0) (ptr 1 0) (memL [List.replicate 9 0, [97, 0]]) = .ub .oobRead ∧
    addData (ptr 0 0) 9 (ptr 1 0) (ptr 1 0) (memL [ascii "{\"a\":\"b\"" ++ [0], [97, 0]]) = .ub .oobWrite :=
  ⟨of_ubOf (by decide +kernel), of_ubOf (by decide +kernel)⟩

/-! ### C68 -/

/-- What is looked up, in plain words: the text is `pre key " mid " value " rest` without quotes in `mid` and in
`value`, and the key does not occur in the text at an earlier place than behind `pre`. -/
theorem C68_lookup (k t v : List Byte) : lookup k t = some v ↔
    ∃ pre mid rest, t = pre ++ k ++ [34#8] ++ mid ++ [34#8] ++ v ++ [34#8] ++ rest ∧ 34#8 ∉ mid ∧ 34#8 ∉ v ∧
      ∀ p s, t = p ++ k ++ s → pre.length ≤ p.length := Spec.Json.lookup_iff k t v

/-- `Json_findByKey` returns true exactly when the lookup in the `size` bytes of the buffer finds a value that fits
the output with its NUL, and then the output is this value, NUL-terminated. -/
theorem C68_findByKey (b o bk ok bv ov : Nat) (size mv : SizeT) (k : List Byte) (m : Mem)
    (hroom : o + size.toNat ≤ (m.bytes b).length) (hk : CStr (m.bytes bk) ok k) (hn : size.toNat < 2 ^ 32 - 1)
    (hkl : k.length < 2 ^ 64) (hvr : ov + mv.toNat ≤ (m.bytes bv).length)
    (hd : bv ≠ b ∨ ov + mv.toNat ≤ o ∨ o + size.toNat ≤ ov) :
    ∃ r m', findByKey (ptr b o) size (ptr bk ok) (ptr bv ov) mv m = .ok r m' ∧
      (r = true ↔ ∃ v, lookup k (slice (m.bytes b) o size.toNat) = some v ∧ v.length < mv.toNat) ∧
      (∀ v, r = true → lookup k (slice (m.bytes b) o size.toNat) = some v →
        slice (m'.bytes bv) ov (v.length + 1) = v ++ [0#8]) := by
  have hl : (slice (m.bytes b) o size.toNat).length = size.toNat := by simp [slice]; omega
  obtain ⟨r, m', h1, _, h3, h4⟩ := findByKey_ok (T := slice (m.bytes b) o size.toNat) (size := size) (mv := mv)
    (reads_slice hroom) hk hl.symm (by omega) (.inl (by omega)) hkl hvr (by rw [hl]; exact hd)
  refine ⟨r, m', h1, h3, fun v hr hv => ?_⟩
  apply List.ext_getElem?
  intro x
  rw [getElem?_slice]
  split
  · exact h4 v hr hv x (by omega)
  · rw [List.getElem?_eq_none (by simp; omega)]

/-- Non-vacuity: a lookup that finds, with exactly enough room, and with one byte too few. -/
example : lookup (ascii "bc") (ascii "{\"a\":\"1\",\"bc\":\"xyz\"}" ++ [0, 9]) = some (ascii "xyz") := by decide +kernel
example : ∃ m', findByKey (ptr 0 0) 22 (ptr 1 0) (ptr 2 1) 4
    (memL [ascii "{\"a\":\"1\",\"bc\":\"xyz\"}" ++ [0, 9], [98, 99, 0], List.replicate 6 7]) = .ok true m' ∧
    m'.bytes 2 = [7] ++ ascii "xyz" ++ [0, 7] := of_ends (by decide +kernel)
example : ∃ m', findByKey (ptr 0 0) 22 (ptr 1 0) (ptr 2 1) 3
    (memL [ascii "{\"a\":\"1\",\"bc\":\"xyz\"}" ++ [0, 9], [98, 99, 0], List.replicate 6 7]) = .ok false m' ∧
    m'.bytes 2 = [7] ++ ascii "xyz" ++ [7, 7] := of_ends (by decide +kernel)

/-! ### C69 -/

/-- In a document (followed by anything, for instance the unused part of the buffer) the lookup of a key finds its
value, if the value has no quote and the key's text does not occur earlier in the document. -/
theorem C69_lookup (l : List (List Byte × List Byte)) (k v : List Byte) (l' : List (List Byte × List Byte))
    (tail : List Byte) (hv : 34#8 ∉ v)
    (hfirst : ∀ p s, document (l ++ (k, v) :: l') = p ++ k ++ s → (before l).length ≤ p.length) :
    lookup k (document (l ++ (k, v) :: l') ++ tail) = some v := Spec.Json.lookup_document l k v l' tail hv hfirst

/-- The proviso holds for every non-empty key without the characters `{ } " : ,` that is not part of an earlier key
or value. -/
theorem C69_proviso (k : List Byte) (hk : ∀ c ∈ structural, c ∉ k) (hn : k ≠ []) (l : List (List Byte × List Byte))
    (hl : ∀ x ∈ l, ¬ k <:+: x.1 ∧ ¬ k <:+: x.2) (v : List Byte) (l' : List (List Byte × List Byte)) (p s : List Byte)
    (h : document (l ++ (k, v) :: l') = p ++ k ++ s) : (before l).length ≤ p.length :=
  Spec.Json.first_occurrence hk hn l hl v l' p s h

/-- The calls together: a document is built in a buffer and a key of it is looked up there. -/
theorem C69_build_then_find (b o bq oq bv ov : Nat) (size mv : SizeT) (l : List (List Byte × List Byte))
    (k v : List Byte) (l' : List (List Byte × List Byte)) (ps : List (Ptr × Ptr)) (m : Mem)
    (hroom : o + size.toNat ≤ (m.bytes b).length) (hh : Holds m b o size.toNat ps (l ++ (k, v) :: l'))
    (hfit : (document (l ++ (k, v) :: l')).length + 1 ≤ size.toNat) (hsize : size.toNat < 2 ^ 32 - 1)
    (hsm : ∀ x ∈ l ++ (k, v) :: l', x.1.length + x.2.length < 2 ^ 63)
    (hq : CStr (m.bytes bq) oq k) (hqa : bq ≠ b ∨ oq + k.length + 1 ≤ o ∨ o + size.toNat ≤ oq)
    (hvr : ov + mv.toNat ≤ (m.bytes bv).length) (hd : bv ≠ b ∨ ov + mv.toNat ≤ o ∨ o + size.toNat ≤ ov)
    (hk : ∀ c ∈ structural, c ∉ k) (hn : k ≠ []) (hl : ∀ x ∈ l, ¬ k <:+: x.1 ∧ ¬ k <:+: x.2) (hv : 34#8 ∉ v)
    (hmv : v.length < mv.toNat) :
    ∃ rs m' m'', build (ptr b o) size ps m = .ok rs m' ∧ (∀ r ∈ rs, r = true) ∧
      findByKey (ptr b o) size (ptr bq oq) (ptr bv ov) mv m' = .ok true m'' ∧
      slice (m''.bytes bv) ov (v.length + 1) = v ++ [0#8] := by
  have hk1 : k.length < 2 ^ 64 := by
    have := hsm (k, v) (by simp)
    dsimp only at this
    omega
  obtain ⟨m', h1, h2, h3⟩ := build_ok (size := size) _ ps m hroom hh hfit
    (fun x hx => by have := hsm x hx; omega)
  have hroom' : o + size.toNat ≤ (m'.bytes b).length := by rw [oc_length h3]; exact hroom
  obtain ⟨r, m'', f1, f2, f3⟩ := C68_findByKey b o bq oq bv ov size mv k m' hroom' (cstr_frame hq h3 (by omega)) hsize hk1
    (by rw [oc_length h3]; exact hvr) hd
  have hT : ∃ tail, slice (m'.bytes b) o size.toNat = document (l ++ (k, v) :: l') ++ tail := by
    obtain ⟨t, ht⟩ := h2.2
    refine ⟨(0#8 :: t).take (size.toNat - (document (l ++ (k, v) :: l')).length), ?_⟩
    unfold slice
    rw [ht, List.take_append, List.take_of_length_le (by omega)]
  obtain ⟨tail, hT⟩ := hT
  have hlk : lookup k (slice (m'.bytes b) o size.toNat) = some v := by
    rw [hT]
    exact C69_lookup l k v l' tail hv (fun p s h => C69_proviso k hk hn l hl v l' p s h)
  have hr : r = true := f2.mpr ⟨v, hlk, hmv⟩
  subst hr
  exact ⟨_, m', m'', h1, fun r hr => List.eq_of_mem_replicate hr, f1, f3 v rfl hlk⟩

/-- Non-vacuity: `bc` in `{"a":"b","bc":"x","bcd":""}`. -/
example : (∀ c ∈ structural, c ∉ ascii "bc") ∧
    (∀ x ∈ [(ascii "a", ascii "b")], ¬ ascii "bc" <:+: x.1 ∧ ¬ ascii "bc" <:+: x.2) ∧
    document ([(ascii "a", ascii "b")] ++ (ascii "bc", ascii "x") :: [(ascii "bcd", [])]) =
      ascii "{\"a\":\"b\",\"bc\":\"x\",\"bcd\":\"\"}" := by decide +kernel

/-! ### C70 -/

/-- Keys `xa` and `a`: looking up `a` yields the value of `xa`.  A value `a` before the key `a`: the key is taken
for it, and the next key is returned as its value.  Keys `ab` and `a`: `a` is not found. -/
theorem C70_wrong :
    lookup (ascii "a") (document [(ascii "xa", ascii "1"), (ascii "a", ascii "2")]) = some (ascii "1") ∧
    lookup (ascii "a") (document [(ascii "k", ascii "a"), (ascii "a", ascii "2")]) = some (ascii "a") ∧
    lookup (ascii "a") (document [(ascii "k", ascii "a"), (ascii "b", ascii "2")]) = some (ascii "b") ∧
    lookup (ascii "a") (document [(ascii "ab", ascii "1"), (ascii "a", ascii "2")]) = none := by decide +kernel

/-- The same as runs of the code. -/
theorem C70_runs :
    (∃ m', findByKey (ptr 0 0) 18 (ptr 1 0) (ptr 2 0) 4 (memL [ascii "{\"xa\":\"1\",\"a\":\"2\"}", [97, 0], [7, 7, 7, 7]]) =
      .ok true m' ∧ m'.bytes 2 = ascii "1" ++ [0, 7, 7]) ∧
    (∃ m', findByKey (ptr 0 0) 17 (ptr 1 0) (ptr 2 0) 4 (memL [ascii "{\"k\":\"a\",\"b\":\"2\"}", [97, 0], [7, 7, 7, 7]]) =
      .ok true m' ∧ m'.bytes 2 = ascii "b" ++ [0, 7, 7]) ∧
    (∃ m', findByKey (ptr 0 0) 18 (ptr 1 0) (ptr 2 0) 4 (memL [ascii "{\"ab\":\"1\",\"a\":\"2\"}", [97, 0], [7, 7, 7, 7]]) =
      .ok false m' ∧ m'.bytes 2 = [7, 7, 7, 7]) :=
  ⟨of_ends (by decide +kernel), of_ends (by decide +kernel), of_ends (by decide +kernel)⟩

/-- In general: a key that ends an earlier key whose other characters do not contain it is answered by the earlier
member's value (here the first member). -/
theorem C70_suffix (k u v : List Byte) (l' : List (List Byte × List Byte)) (tail : List Byte) (hv : 34#8 ∉ v)
    (hk : ∀ c ∈ structural, c ∉ k) (hn : k ≠ []) (hu : ∀ p s, u ++ k = p ++ k ++ s → u.length ≤ p.length) :
    lookup k (document ((u ++ k, v) :: l') ++ tail) = some v := by
  rw [Spec.Json.lookup_iff]
  obtain ⟨rest, hr⟩ := Spec.Json.document_mid [] (u ++ k) v l'
  rw [List.nil_append] at hr
  refine ⟨[123#8, 34#8] ++ u, [58#8], rest ++ tail, by rw [hr]; simp [before, members], by decide, hv, ?_⟩
  intro p s h
  apply Classical.byContradiction
  intro hlt
  rw [hr] at h
  have hb : before [] = [123#8, 34#8] := by simp [before, members]
  rw [hb] at h
  simp only [List.length_append, List.length_cons, List.length_nil] at hlt
  have hk0 : 0 < k.length := List.length_pos_iff.mpr hn
  cases p with
  | nil =>
    cases k with
    | nil => exact hn rfl
    | cons c k =>
      simp only [List.nil_append, List.cons_append, List.append_assoc] at h
      injection h with h1 _
      exact hk 123#8 (by simp [structural]) (by simp [h1])
  | cons x p =>
    cases p with
    | nil =>
      cases k with
      | nil => exact hn rfl
      | cons c k =>
        simp only [List.nil_append, List.cons_append, List.append_assoc] at h
        injection h with _ h
        injection h with h1 _
        exact hk 34#8 (by simp [structural]) (by simp [h1])
    | cons y p =>
      simp only [List.length_cons] at hlt
      simp only [List.nil_append, List.cons_append, List.append_assoc] at h
      injection h with _ h
      injection h with _ h
      rw [← List.append_assoc] at h
      have h2 := congrArg (List.take (u ++ k).length) h
      rw [List.take_left, List.take_append, List.take_of_length_le (by simp; omega), List.take_append,
        List.take_of_length_le (by simp; omega), ← List.append_assoc] at h2
      have := hu p _ h2
      omega

/-! ### C71 -/

/-- For every buffer, key and output of the given sizes, none of which has to extend further, `Json_findByKey`
terminates without undefined behaviour and changes at most `value[0..max_value_size)`. -/
theorem C71_footprint (b o bk ok bv ov : Nat) (size mv : SizeT) (k : List Byte) (m : Mem)
    (hroom : o + size.toNat ≤ (m.bytes b).length) (hk : CStr (m.bytes bk) ok k) (hn : size.toNat < 2 ^ 32 - 1)
    (hkl : k.length < 2 ^ 64) (hvr : ov + mv.toNat ≤ (m.bytes bv).length)
    (hd : bv ≠ b ∨ ov + mv.toNat ≤ o ∨ o + size.toNat ≤ ov) :
    ∃ r m', findByKey (ptr b o) size (ptr bk ok) (ptr bv ov) mv m = .ok r m' ∧ OnlyChanged m m' bv ov mv.toNat := by
  have hl : (slice (m.bytes b) o size.toNat).length = size.toNat := by simp [slice]; omega
  obtain ⟨r, m', h1, h2, _⟩ := findByKey_ok (T := slice (m.bytes b) o size.toNat) (size := size) (mv := mv)
    (reads_slice hroom) hk hl.symm (by omega) (.inl (by omega)) hkl hvr (by rw [hl]; exact hd)
  exact ⟨r, m', h1, h2⟩

/-- The bound on the size is needed: if `buffer_size - key_size` is a multiple of 2^32, nothing is ever found. -/
theorem C71_huge (b o bk ok bv ov : Nat) (size mv : SizeT) (k : List Byte) (m : Mem) (hk : CStr (m.bytes bk) ok k)
    (hkl : k.length < size.toNat) (hn : (size.toNat - k.length) % 2 ^ 32 = 0) :
    findByKey (ptr b o) size (ptr bk ok) (ptr bv ov) mv m = .ok false m := by
  have hsz := size.isLt
  have hmx : (if BitVec.ofNat 64 k.length < size then (size - BitVec.ofNat 64 k.length).setWidth 32 else 0#32) = 0#32 := by
    split
    · apply BitVec.eq_of_toNat_eq
      rw [BitVec.toNat_setWidth, BitVec.toNat_sub_of_le (by rw [BitVec.le_def, ofNat64 (by omega)]; omega),
        ofNat64 (by omega), hn]
      rfl
    · rfl
  unfold findByKey
  rw [C.bind_ok (strlen_ok hk)]
  simp only [hmx]
  rw [C.bind_ok (show search (ptr b o) (ptr bk ok) (BitVec.ofNat 64 k.length) 0#32 (size.toNat + 1) 0#32 m =
    .ok (0#32, false) m from rfl)]
  rfl

/-- Non-vacuity: one byte key, 4294967297 bytes. -/
example : ((4294967297#64).toNat - (ascii "a").length) % 2 ^ 32 = 0 := by
  rw [show (ascii "a").length = 1 from rfl]; simp

/-- Non-vacuity of the footprint: an unterminated text, a missing closing quote, output of zero bytes. -/
example : ∃ m', findByKey (ptr 0 0) 8 (ptr 1 0) (ptr 2 0) 0 (memL [ascii "{\"a\":\"xx", [97, 0], []]) = .ok false m' ∧
    m'.bytes 2 = [] := of_ends (by decide +kernel)

end IMU.Props
