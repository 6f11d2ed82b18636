import Verif.Proofs.JsonOverlap
import Verif.Proofs.Base64Overlap
import Verif.Props.Json

/-!
# Property C112: arguments of the text functions inside one another
-/

namespace IMU.Props
open Spec
open IMU.Json
open Spec.Json (lookup member sep)

/-- The text is `pre key " mid " v " rest`, as in `C68_lookup`. -/
structure Hit (k T pre mid v rest : List Byte) : Prop where
  text : T = pre ++ k ++ [34#8] ++ mid ++ [34#8] ++ v ++ [34#8] ++ rest
  mid_plain : 34#8 ∉ mid
  val_plain : 34#8 ∉ v
  first : ∀ p s, T = p ++ k ++ s → pre.length ≤ p.length

theorem Hit.start_lt {k T pre mid v rest : List Byte} (h : Hit k T pre mid v rest) :
    pre.length + k.length + mid.length + 2 + v.length < T.length := by
  rw [h.text]; simp; omega

theorem Hit.get {k T pre mid v rest : List Byte} (h : Hit k T pre mid v rest) (x : Nat) (hx : x ≤ v.length) :
    T[pre.length + k.length + mid.length + 2 + x]? = (v ++ [34#8])[x]? := by
  have : T = (pre ++ k ++ [34#8] ++ mid ++ [34#8]) ++ ((v ++ [34#8]) ++ rest) := by rw [h.text]; simp
  rw [this, List.getElem?_append_right (by simp; omega), List.getElem?_append_left (by simp; omega)]
  congr 1; simp; omega

theorem val_ne {v : List Byte} (h : 34#8 ∉ v) {x : Nat} {c : Byte} (hc : (v ++ [34#8])[x]? = some c) (hx : x < v.length) :
    c ≠ 34#8 := by
  rw [List.getElem?_append_left hx] at hc
  rintro rfl
  exact h (List.mem_of_getElem? hc)

section
variable {b o bk ok ov : Nat} {size mv : SizeT} {k : List Byte} {m : Mem}
  (hroom : o + size.toNat ≤ (m.bytes b).length) (hk : CStr (m.bytes bk) ok k) (hn : size.toNat < 2 ^ 32 - 1)
  (hvr : ov + mv.toNat ≤ (m.bytes b).length)
include hroom hk hn hvr

/-- What is looked up, if the output lies in the object of the buffer, wherever: the value text starts at offset
`s = o + pre.length + k.length + mid.length + 2`.  The call delivers the value unless the output starts inside the
value text or at its closing quote (behind its first character): then, and also if the value does not fit, it returns
false, and the output is the text from `s` on, respectively its first `ov - s` bytes over and over. -/
theorem C112_find {pre mid v rest : List Byte} (h : Hit k (slice (m.bytes b) o size.toNat) pre mid v rest) (s : Nat)
    (hs : s = o + (pre.length + k.length + mid.length + 2)) :
    (v.length < mv.toNat → ¬ (s < ov ∧ ov ≤ s + v.length) →
      ∃ m', findByKey (ptr b o) size (ptr bk ok) (ptr b ov) mv m = .ok true m' ∧
        slice (m'.bytes b) ov (v.length + 1) = v ++ [0#8] ∧ OnlyChanged m m' b ov (v.length + 1)) ∧
    (mv.toNat ≤ v.length ∨ s < ov ∧ ov ≤ s + v.length →
      ∃ m', findByKey (ptr b o) size (ptr bk ok) (ptr b ov) mv m = .ok false m' ∧
        OnlyChanged m m' b ov (min (o + size.toNat - s) mv.toNat) ∧
        ∀ x < min (o + size.toNat - s) mv.toNat,
          (m'.bytes b)[ov + x]? = (m.bytes b)[s + (if ov ≤ s then x else x % (ov - s))]?) := by
  have hl : (slice (m.bytes b) o size.toNat).length = size.toNat := by simp [slice]; omega
  have hlt := h.start_lt
  rw [hl] at hlt
  have e : slice (m.bytes b) o size.toNat = pre ++ k ++ [34#8] ++ mid ++ [34#8] ++ (v ++ [34#8] ++ rest) := by
    rw [h.text]; simp
  have hT := reads_slice hroom
  have hfirst := h.first
  rw [e] at hT hfirst
  have hrun := findByKey_upto (value := ptr b ov) (mv := mv) hT hk (by rw [← e]; exact hl.symm) hn h.mid_plain hfirst
  have hm0 : copied m b ov s 0 = m := by simp [copied, splice_nil]
  generalize hi0 : pre.length + k.length + mid.length + 2 = i0 at *
  -- the bytes of the value text
  have hget : ∀ x, x ≤ v.length → (m.bytes b)[s + x]? = (v ++ [34#8])[x]? := by
    intro x hx
    have := h.get x hx
    rw [getElem?_slice, if_pos (by omega), hi0] at this
    rw [← this, hs]; congr 1; omega
  have hmoved : ∀ x, s + x < (m.bytes b).length →
      some (Utils.moved (m.bytes b) ov s x) = (m.bytes b)[s + (if ov ≤ s then x else x % (ov - s))]? := by
    intro x hx
    unfold Utils.moved
    by_cases hc : ov ≤ s
    · rw [if_pos hc, if_pos hc]; exact (Utils.getD_some hx).symm
    · have := Nat.mod_le x (ov - s)
      rw [if_neg hc, if_neg hc]; exact (Utils.getD_some (by omega)).symm
  constructor
  · intro hfit hno
    have hsame : ∀ x, x ≤ v.length → some (Utils.moved (m.bytes b) ov s x) = (v ++ [34#8])[x]? := by
      intro x hx
      rw [hmoved x (by omega), ← hget x hx]
      by_cases hc : ov ≤ s
      · rw [if_pos hc]
      · rw [if_neg hc, Nat.mod_eq_of_lt (by omega)]
    have hrun2 := copy_found (m := m) (b := b) (o := o) (ov := ov) (i0 := i0) (mv := mv) hn hroom hvr (x := v.length)
      (by omega) hfit
      (by rw [← hs]; have := hsame v.length (Nat.le_refl _); simp at this; exact this)
      (fun y hy => by rw [← hs]; exact val_ne h.val_plain (hsame y (by omega)).symm hy)
      (size.toNat + 1) 0 (by omega) (by omega)
    have hv : (List.range v.length).map (Utils.moved (m.bytes b) ov s) = v := by
      apply List.ext_getElem?
      intro x
      by_cases hx : x < v.length
      · rw [List.getElem?_map, List.getElem?_range hx, Option.map_some, hsame x (by omega), List.getElem?_append_left hx]
      · rw [List.getElem?_eq_none (by simp; omega), List.getElem?_eq_none (by omega)]
    rw [← hs, hm0, hv, Nat.add_zero] at hrun2
    refine ⟨_, hrun.trans hrun2, ?_, ?_⟩
    · rw [Mem.upd_bytes, if_pos rfl]
      have := slice_splice_same (m.bytes b) ov (v ++ [0#8]) (by simp; omega)
      simpa using this
    · have := onlyChanged_splice m b ov (v ++ [0#8]) (by simp; omega)
      simpa using this
  · intro hbad
    have hrun2 := copy_all (m := m) (b := b) (o := o) (ov := ov) (i0 := i0) (mv := mv) hn hroom hvr
      (N := min (size.toNat - i0) mv.toNat) rfl
      (fun x hx => by
        rw [← hs]
        have hm := hmoved x (by omega)
        have hy : (if ov ≤ s then x else x % (ov - s)) < v.length := by
          by_cases hc : ov ≤ s
          · rw [if_pos hc]; omega
          · rw [if_neg hc]
            rcases hbad with hb | hb
            · have := Nat.mod_le x (ov - s); omega
            · have := Nat.mod_lt x (show 0 < ov - s by omega); omega
        rw [hget _ (by omega)] at hm
        exact val_ne h.val_plain hm.symm hy)
      (by omega) (size.toNat + 1) 0 (by omega) (by omega)
    rw [← hs, hm0, Nat.add_zero] at hrun2
    have hN : o + size.toNat - s = size.toNat - i0 := by omega
    rw [hN]
    refine ⟨_, hrun.trans hrun2, ?_, ?_⟩
    · have := onlyChanged_splice m b ov ((List.range (min (size.toNat - i0) mv.toNat)).map (Utils.moved (m.bytes b) ov s))
        (by simp; omega)
      simpa using this
    · intro x hx
      rw [Mem.upd_bytes, if_pos rfl, Utils.splice_map_get _ _ _ _ (by omega), if_pos (by omega), ← hmoved x (by omega)]
      congr 2; omega

/-- In particular the output may be the buffer itself, of any length that the object has: the call returns true exactly
if there is a value and it fits, and then the value stands at the start of the buffer.  The key may be anywhere, in the
buffer as well. -/
theorem C112_find_in_place (hov : ov = o) {v : List Byte} (h : lookup k (slice (m.bytes b) o size.toNat) = some v) :
    (v.length < mv.toNat → ∃ m', findByKey (ptr b o) size (ptr bk ok) (ptr b ov) mv m = .ok true m' ∧
      slice (m'.bytes b) o (v.length + 1) = v ++ [0#8] ∧ OnlyChanged m m' b o (v.length + 1)) ∧
    (mv.toNat ≤ v.length → ∃ m', findByKey (ptr b o) size (ptr bk ok) (ptr b ov) mv m = .ok false m') := by
  obtain ⟨pre, mid, rest, h1, h2, h3, h4⟩ := (C68_lookup _ _ _).mp h
  have hc := C112_find (mv := mv) hroom hk hn hvr ⟨h1, h2, h3, h4⟩ _ rfl
  subst hov
  refine ⟨fun hf => hc.1 hf (by omega), fun hf => ?_⟩
  obtain ⟨m', e, _⟩ := hc.2 (.inl hf)
  exact ⟨m', e⟩

end

/-- Nothing is found: false, wherever the output lies, and nothing outside it changes. -/
theorem C112_find_none {b o bk ok ov : Nat} {size mv : SizeT} {k : List Byte} {m : Mem}
    (hroom : o + size.toNat ≤ (m.bytes b).length) (hk : CStr (m.bytes bk) ok k) (hn : size.toNat < 2 ^ 32 - 1)
    (hkl : k.length < 2 ^ 64) (hvr : ov + mv.toNat ≤ (m.bytes b).length)
    (h : lookup k (slice (m.bytes b) o size.toNat) = none) :
    ∃ m', findByKey (ptr b o) size (ptr bk ok) (ptr b ov) mv m = .ok false m' ∧ OnlyChanged m m' b ov mv.toNat :=
  find_none hroom hk hn hkl hvr h

/-- Non-vacuity: a value taken out to the start of its own buffer, with a key inside the buffer. -/
example : ∃ m', findByKey (ptr 0 0) 12 (ptr 0 13) (ptr 0 0) 12 (memL [ascii "{\"ab\":\"xyz\"}?" ++ [97, 98, 0]]) = .ok true m' ∧
    m'.bytes 0 = ascii "xyz" ++ [0] ++ ascii "\":\"xyz\"}?" ++ [97, 98, 0] := of_ends (by decide +kernel)
/-- An output that starts at the second character of the value: the closing quote is overwritten before it is read. -/
example : ∃ m', findByKey (ptr 0 0) 18 (ptr 1 0) (ptr 0 8) 8
    (memL [ascii "{\"ab\":\"xyz\"}......", [97, 98, 0]]) = .ok false m' ∧
    m'.bytes 0 = ascii "{\"ab\":\"xxxxxxxxx.." := of_ends (by decide +kernel)
example : Hit (ascii "ab") (ascii "{\"ab\":\"xyz\"}") (ascii "{\"") (ascii ":") (ascii "xyz") (ascii "}") := by
  refine ⟨by decide +kernel, by decide +kernel, by decide +kernel, fun p s h => ?_⟩
  match p with
  | [] =>
    have := congrArg (·[0]?) h
    revert this
    simp only [List.nil_append]
    intro this
    exact absurd this (by simp [ascii])
  | [x] =>
    have := congrArg (·[1]?) h
    exact absurd this (by simp [ascii])
  | x :: y :: p => simp [ascii]

/-! ### `Json_addData` -/

/-- A key that starts inside the buffer's text (or is its empty end): if the addition does not fit it is refused as
with any other key; otherwise the call is undefined, because the quote in front of the new key is written over the
NUL that ends the key. -/
theorem C112_add_own_key (b o bv ov j : Nat) (size : SizeT) (t v : List Byte) (m : Mem) (ht : CStr (m.bytes b) o t)
    (hj : j ≤ t.length) (hv : CStr (m.bytes bv) ov v) (hn : t ≠ [])
    (hsmall : 2 * t.length + v.length + 7 < 2 ^ 64) (hfit : t.length + (sep t).length < size.toNat)
    (hroom : o + size.toNat ≤ (m.bytes b).length) :
    ((t ++ sep t ++ member (t.drop j) v).length + 1 ≤ size.toNat →
      addData (ptr b o) size (ptr b (o + j)) (ptr bv ov) m = .ub .overlap) ∧
    (size.toNat < (t ++ sep t ++ member (t.drop j) v).length + 1 →
      ∃ m', addData (ptr b o) size (ptr b (o + j)) (ptr bv ov) m = .ok false m' ∧ CStr (m'.bytes b) o (t ++ sep t)) := by
  have hsl : (sep t).length ≤ 1 := by unfold sep; split <;> simp
  obtain ⟨m1, a1, a2, a3⟩ := addData_upto ht (cstr_drop ht hj) hv hn (by simp; omega) hfit hroom
  rw [a3]
  constructor
  · intro hf
    rw [if_pos hf]
    rw [List.length_append, member_length] at hf
    rw [C.bind_ub]
    exact addMember_own_key a1 (by simp; omega) (by rw [oc_length a2]; omega) (by simp; omega)
  · intro hf
    rw [if_neg (by omega)]
    exact ⟨m1, rfl, a1⟩

/-- The same for the value, with a key elsewhere. -/
theorem C112_add_own_value (b o bk ok j : Nat) (size : SizeT) (t k : List Byte) (m : Mem) (ht : CStr (m.bytes b) o t)
    (hk : CStr (m.bytes bk) ok k) (hka : bk ≠ b ∨ ok + k.length + 1 ≤ o ∨ o + size.toNat ≤ ok)
    (hj : j ≤ t.length) (hn : t ≠ [])
    (hsmall : 2 * t.length + k.length + 7 < 2 ^ 64) (hfit : t.length + (sep t).length < size.toNat)
    (hroom : o + size.toNat ≤ (m.bytes b).length) :
    ((t ++ sep t ++ member k (t.drop j)).length + 1 ≤ size.toNat →
      addData (ptr b o) size (ptr bk ok) (ptr b (o + j)) m = .ub .overlap) ∧
    (size.toNat < (t ++ sep t ++ member k (t.drop j)).length + 1 →
      ∃ m', addData (ptr b o) size (ptr bk ok) (ptr b (o + j)) m = .ok false m' ∧ CStr (m'.bytes b) o (t ++ sep t)) := by
  have hsl : (sep t).length ≤ 1 := by unfold sep; split <;> simp
  obtain ⟨m1, a1, a2, a3⟩ := addData_upto ht hk (cstr_drop ht hj) hn (by simp; omega) hfit hroom
  rw [a3]
  constructor
  · intro hf
    rw [if_pos hf]
    rw [List.length_append, member_length] at hf
    rw [C.bind_ub]
    exact addMember_own_value a1 (cstr_frame hk a2 (by omega)) (by simp; omega) (by rw [oc_length a2]; omega) (by omega)
      (by simp at hf ⊢; omega)
  · intro hf
    rw [if_neg (by omega)]
    exact ⟨m1, rfl, a1⟩

/-- The runs: the text `{"a":"b"` with its own `b"` as key, and as value; and in a buffer that is too small. -/
example : addData (ptr 0 0) 20 (ptr 0 6) (ptr 1 0) (memL [ascii "{\"a\":\"b\"" ++ List.replicate 12 0, [97, 0]]) = .ub .overlap ∧
    addData (ptr 0 0) 20 (ptr 1 0) (ptr 0 6) (memL [ascii "{\"a\":\"b\"" ++ List.replicate 12 0, [97, 0]]) = .ub .overlap :=
  ⟨of_ubOf (by decide +kernel), of_ubOf (by decide +kernel)⟩
example : ∃ m', addData (ptr 0 0) 12 (ptr 0 6) (ptr 1 0) (memL [ascii "{\"a\":\"b\"" ++ List.replicate 12 0, [97, 0]]) =
    .ok false m' ∧ m'.bytes 0 = ascii "{\"a\":\"b\"," ++ List.replicate 11 0 := of_ends (by decide +kernel)

/-! ### `Base64_encode` -/

theorem encode_enc {n mx : SizeT} {b oi bp op : Nat} (hfit : 4 * ((n.toNat + 2) / 3) < 2 ^ 64) :
    IMU.Base64.encode (ptr b oi) n (ptr bp op) mx = Base64.enc n mx (n.toNat + 1) b oi bp op 0#64 0#64 := by
  unfold IMU.Base64.encode
  simp only []
  rw [if_neg (by rw [Base64.len_check]; omega)]
  rfl

theorem at_start {n mx : SizeT} (hfit : 4 * ((n.toNat + 2) / 3) < 2 ^ 64) : Base64.At n mx 0#64 0#64 n.toNat mx.toNat :=
  ⟨by simp, by simp, by simpa using hfit⟩

/-- Wherever the two ranges lie, overlapping or not, the call is defined, its status is that of C60, and it writes
only the place of the text and of the NUL. -/
theorem C112_encode_defined (b oi bp op : Nat) (n mx : SizeT) (m : Mem) (hfit : 4 * ((n.toNat + 2) / 3) < 2 ^ 64)
    (hi : oi + n.toNat ≤ (m.bytes b).length)
    (ho : op + min (4 * ((n.toNat + 2) / 3)) (4 * (mx.toNat / 4)) + 1 ≤ (m.bytes bp).length) :
    ∃ m', IMU.Base64.encode (ptr b oi) n (ptr bp op) mx m = .ok (if 4 * ((n.toNat + 2) / 3) ≤ mx.toNat then 0 else 1) m' ∧
      OnlyChanged m m' bp op (min (4 * ((n.toNat + 2) / 3)) (4 * (mx.toNat / 4)) + 1) := by
  rw [encode_enc hfit]
  exact Base64.enc_any _ (at_start hfit) (by omega) hi ho

/-- Data that start at least as many bytes behind the text as groups are written are encoded correctly, although the
text is written over them. -/
theorem C112_encode_near (b oi op : Nat) (n mx : SizeT) (m : Mem) (hfit : 4 * ((n.toNat + 2) / 3) < 2 ^ 64)
    (hi : oi + n.toNat ≤ (m.bytes b).length)
    (ho : op + min (4 * ((n.toNat + 2) / 3)) (4 * (mx.toNat / 4)) + 1 ≤ (m.bytes b).length)
    (hd : op + min ((n.toNat + 2) / 3) (mx.toNat / 4) ≤ oi) :
    ∃ m', IMU.Base64.encode (ptr b oi) n (ptr b op) mx m = .ok (if 4 * ((n.toNat + 2) / 3) ≤ mx.toNat then 0 else 1) m' ∧
      slice (m'.bytes b) op (((b64 m b oi n.toNat).take (4 * (mx.toNat / 4))).length + 1) =
        (b64 m b oi n.toNat).take (4 * (mx.toNat / 4)) ++ [0#8] := by
  have hl := slice_length (m.bytes b) oi n.toNat hi
  have h := Base64.enc_near (slice (m.bytes b) oi n.toNat) (dl := n) (mx := mx) (fuel := n.toNat + 1) (bl := b) (oi := oi)
    (op := op) (m := m) (by rw [hl]; exact at_start hfit) (by omega) (reads_slice hi) (by rw [hl]; exact hd)
  have hb := b64_length hi
  have ht : ((b64 m b oi n.toNat).take (4 * (mx.toNat / 4))).length = min (4 * ((n.toNat + 2) / 3)) (4 * (mx.toNat / 4)) := by
    rw [List.length_take, hb]; omega
  rw [hl, C.bind_ok (Base64.puts_ok (by rw [List.length_append, ht]; simp; omega))] at h
  rw [encode_enc hfit]
  refine ⟨_, h, ?_⟩
  rw [Mem.upd_bytes, if_pos rfl]
  have := slice_splice_same (m.bytes b) op ((b64 m b oi n.toNat).take (4 * (mx.toNat / 4)) ++ [0#8])
    (by rw [List.length_append, ht]; simp; omega)
  rw [List.length_append, List.length_singleton] at this
  exact this

/-- The exact condition, for data and text in one object and an output that is large enough: the text is right for
all contents of the memory if and only if the text starts behind the data, or the data start at least as many bytes
behind the text as there are groups. -/
theorem C112_encode_exact (b oi op L : Nat) (n mx : SizeT) (hn : 0 < n.toNat)
    (hmx : 4 * ((n.toNat + 2) / 3) ≤ mx.toNat) (hi : oi + n.toNat ≤ L) (ho : op + 4 * ((n.toNat + 2) / 3) + 1 ≤ L) :
    (∀ m : Mem, (m.bytes b).length = L → ∃ m', IMU.Base64.encode (ptr b oi) n (ptr b op) mx m = .ok 0 m' ∧
      slice (m'.bytes b) op (4 * ((n.toNat + 2) / 3) + 1) = b64 m b oi n.toNat ++ [0#8]) ↔
    oi + n.toNat ≤ op ∨ op + (n.toNat + 2) / 3 ≤ oi := by
  have hfit : 4 * ((n.toNat + 2) / 3) < 2 ^ 64 := by have := mx.isLt; omega
  constructor
  · intro h
    by_cases hc : oi + n.toNat ≤ op ∨ op + (n.toNat + 2) / 3 ≤ oi
    · exact hc
    exfalso
    -- zero data
    obtain ⟨m', h1, h2⟩ := h ⟨fun _ => List.replicate L 0#8, fun _ => []⟩ (by simp)
    generalize hm : (⟨fun _ => List.replicate L 0#8, fun _ => []⟩ : Mem) = m at *
    have hml : (m.bytes b).length = L := by rw [← hm]; simp
    have hz : ∀ i < n.toNat, (m.bytes b)[oi + i]? = some 0#8 := by
      intro i hi
      rw [← hm]
      simp only []
      rw [List.getElem?_replicate, if_pos (by omega)]
    have hsl : slice (m.bytes b) oi n.toNat = List.replicate n.toNat 0#8 := by
      apply List.ext_getElem?
      intro i
      rw [getElem?_slice, List.getElem?_replicate]
      by_cases hx : i < n.toNat
      · rw [if_pos hx, if_pos hx, hz i hx]
      · rw [if_neg hx, if_neg hx]
    -- a character of the text is not the one it should be
    have key : ∀ x, x < (4 * n.toNat + 2) / 3 → (m'.bytes b)[op + x]? = some 65#8 := by
      intro x hx
      have := congrArg (fun l => l[x]?) h2
      rw [getElem?_slice, if_pos (by omega), b64, hsl,
        List.getElem?_append_left (by rw [Base64.encode_length, List.length_replicate]; omega),
        Base64.encode_zeros _ _ hx hn] at this
      exact this
    rw [encode_enc hfit] at h1
    by_cases hD : op ≤ oi
    · obtain ⟨m2, c, s1, s2, s3⟩ := Base64.enc_hit (oi - op) (fuel := n.toNat + 1) (bl := b) (oi := oi) (op := op) (m := m)
        (at_start (mx := mx) hfit) (by omega) (by omega) (by omega) hz (by omega) (by omega)
      rw [s1] at h1
      injection h1 with _ h1
      subst h1
      have e := key (4 * (oi - op) + 1) (by omega)
      rw [show op + (4 * (oi - op) + 1) = op + 4 * (oi - op) + 1 by omega, s2] at e
      exact s3 (Option.some.inj e)
    · obtain ⟨m2, c, s1, s2, s3⟩ := Base64.enc_behind (fuel := n.toNat + 1) (j := op - oi) (bl := b) (oi := oi) (op := op)
        (m := m) (at_start (mx := mx) hfit) (by omega) (by omega) (by omega) (by omega) hmx hz (by omega) (by omega)
      rw [s1] at h1
      injection h1 with _ h1
      subst h1
      have e := key (4 * ((op - oi) / 3) + (op - oi) % 3) (by omega)
      rw [show op + (4 * ((op - oi) / 3) + (op - oi) % 3) = op + 4 * ((op - oi) / 3) + (op - oi) % 3 by omega, s2] at e
      exact s3 (Option.some.inj e)
  · intro hd m hm
    have hl := b64_length (m := m) (bi := b) (oi := oi) (n := n.toNat) (by omega)
    rcases hd with hd | hd
    · obtain ⟨m', h1, h2, _⟩ := C58_encode (m := m) (bi := b) (oi := oi) (bp := b) (op := op) (n := n) (mx := mx)
        ⟨by omega, .inr (.inl hd), by omega⟩ (by omega) (by omega)
      refine ⟨m', h1, ?_⟩
      have := h2.slice_eq
      rw [hl] at this
      exact this
    · obtain ⟨m', h1, h2⟩ := C112_encode_near b oi op n mx m hfit (by omega) (by omega) (by omega)
      rw [List.take_of_length_le (by omega), hl] at h2
      rw [if_pos hmx] at h1
      exact ⟨m', h1, h2⟩

/-- Two groups: two bytes behind the text is far enough, one is not, and in place not even one group is right. -/
example : ∃ m', IMU.Base64.encode (ptr 0 2) 6 (ptr 0 0) 8 (memL [ascii "??abcdef?"]) = .ok 0 m' ∧
    m'.bytes 0 = ascii "YWJjZGVm" ++ [0] := of_ends (by decide +kernel)
example : ∃ m', IMU.Base64.encode (ptr 0 1) 6 (ptr 0 0) 8 (memL [ascii "?abcdef??"]) = .ok 0 m' ∧
    m'.bytes 0 = ascii "YWJjZm1x" ++ [0] := of_ends (by decide +kernel)
example : ∃ m', IMU.Base64.encode (ptr 0 0) 3 (ptr 0 0) 4 (memL [ascii "abc??"]) = .ok 0 m' ∧
    m'.bytes 0 = ascii "YWdk" ++ [0] := of_ends (by decide +kernel)

end IMU.Props
