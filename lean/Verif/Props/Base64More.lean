import Verif.Proofs.Base64More
import Verif.Props.Base64

/-!
# Property C101: which texts Base64_decode takes for which data
-/

namespace IMU.Props
open Spec

/-- C101: the text of at least three bytes in any of the alphabets, with or without padding, is decoded to them. -/
theorem C101_alphabets {m : Mem} {bi oi bo oo : Nat} {n mx : SizeT} {s d : List Byte} (h : DecArgs m bi oi bo oo n s)
    (ht : Spec.Base64.TextOf d s) (hd : 3 ≤ d.length) (hn : n.toNat = s.length) (hmx : d.length ≤ mx.toNat)
    (hroom : oo + d.length ≤ (m.bytes bo).length) :
    ∃ m', IMU.Base64.decode (ptr bi oi) n (ptr bo oo) mx m = .ok 0 m' ∧ slice (m'.bytes bo) oo d.length = d ∧
      OnlyChanged m m' bo oo d.length := by
  have hdec := Base64.TextOf.decode ht
  have hl := Base64.TextOf.length ht
  obtain ⟨v, m', a1, a2, a3, a4, a5⟩ := C62_decode (mx := mx) h (by omega) hn (by rw [hdec]; omega)
  have hle : LongEnough s := by
    by_cases h5 : 5 ≤ s.length
    · exact .inl h5
    · refine .inr ⟨by omega, ?_⟩
      intro hp
      have hmem : Spec.Base64.pad ∈ s.map Spec.Base64.standard :=
        List.mem_map.mpr ⟨_, List.mem_of_getLast? hp, (Base64.standard_pad _).mpr rfl⟩
      have hd3 : d.length = 3 := by omega
      match d, hd3 with
      | [a, b, c], _ =>
        have hno : Spec.Base64.pad ∉ Spec.Base64.encode [a, b, c] := by
          simp only [Spec.Base64.encode, List.append_nil, List.mem_cons, List.not_mem_nil, or_false, not_or]
          exact ⟨Ne.symm (Base64.char_ne_pad (Base64.sextet_lt _ _)), Ne.symm (Base64.char_ne_pad (Base64.sextet_lt _ _)),
            Ne.symm (Base64.char_ne_pad (Base64.sextet_lt _ _)), Ne.symm (Base64.char_ne_pad (Base64.sextet_lt _ _))⟩
        rcases ht with e | e
        · rw [e] at hmem; exact hno hmem
        · rw [e] at hmem; exact hno (List.mem_filter.mp hmem).1
  have hv := a2.mpr ⟨hle, by rw [hdec]; omega⟩
  subst hv
  rw [hdec] at a4 a5
  refine ⟨m', a1, a4 rfl, ?_⟩
  rwa [Nat.min_eq_left hmx] at a5

/-- Non-vacuity: base64url without padding and the alphabet of IMAP with padding; the data are FB FF FE 7F. -/
example : Spec.Base64.TextOf [0xFB, 0xFF, 0xFE, 0x7F] (ascii "-__-fw") ∧
    Spec.Base64.TextOf [0xFB, 0xFF, 0xFE, 0x7F] (ascii "+,,+fw==") ∧
    Spec.Base64.encode [0xFB, 0xFF, 0xFE, 0x7F] = ascii "+//+fw==" ∧
    DecArgs (mem1 (ascii "-__-fw")) 0 0 0 0 6 (ascii "-__-fw") :=
  ⟨by decide +kernel, by decide +kernel, by decide +kernel, by decide, by decide, .inr (.inr (by decide)), by decide⟩

/-- C101: two texts that are decoded give the same bytes exactly if the digits that matter are the same. -/
theorem C101_same {m m' : Mem} {bi oi bo oo bi' oi' bo' oo' : Nat} {n mx n' mx' : SizeT} {s t : List Byte}
    (h : DecArgs m bi oi bo oo n s) (h' : DecArgs m' bi' oi' bo' oo' n' t)
    (h1 : s.length % 4 ≠ 1) (h1' : t.length % 4 ≠ 1) (hn : n.toNat = s.length) (hn' : n'.toNat = t.length)
    (hl : LongEnough s) (hl' : LongEnough t)
    (hmx : (Spec.Base64.decode s).length ≤ mx.toNat) (hmx' : (Spec.Base64.decode t).length ≤ mx'.toNat)
    (hroom : oo + (Spec.Base64.decode s).length ≤ (m.bytes bo).length)
    (hroom' : oo' + (Spec.Base64.decode t).length ≤ (m'.bytes bo').length) :
    ∃ r r' : Mem, IMU.Base64.decode (ptr bi oi) n (ptr bo oo) mx m = .ok 0 r ∧
      IMU.Base64.decode (ptr bi' oi') n' (ptr bo' oo') mx' m' = .ok 0 r' ∧
      (slice (r.bytes bo) oo (Spec.Base64.decode s).length = slice (r'.bytes bo') oo' (Spec.Base64.decode t).length ↔
        Spec.Base64.digits s = Spec.Base64.digits t) := by
  obtain ⟨v, r, a1, a2, -, a4, -⟩ := C62_decode (mx := mx) h h1 hn (by omega)
  obtain ⟨v', r', b1, b2, -, b4, -⟩ := C62_decode (mx := mx') h' h1' hn' (by omega)
  have hv := a2.mpr ⟨hl, hmx⟩
  have hv' := b2.mpr ⟨hl', hmx'⟩
  subst hv
  subst hv'
  refine ⟨r, r', a1, b1, ?_⟩
  rw [a4 rfl, b4 rfl]
  exact Base64.decode_digits s t h1 h1'

/-- A character that has a place in none of the alphabets and is not the padding. -/
def OutsideAlphabet (c : Byte) : Prop :=
  c ≠ Spec.Base64.pad ∧ Spec.Base64.standard c ∉ (List.range 64).map Spec.Base64.char

instance (c : Byte) : Decidable (OutsideAlphabet c) := by unfold OutsideAlphabet; infer_instance

theorem digits_map (g : Byte → Byte) (hv : ∀ c, Spec.Base64.value (g c) = Spec.Base64.value c)
    (hp : ∀ c, g c = Spec.Base64.pad ↔ c = Spec.Base64.pad) (s : List Byte) :
    Spec.Base64.digits (s.map g) = Spec.Base64.digits s := by
  have hl : ∀ a b c, Spec.Base64.lastDigits (g a) (g b) (g c) = Spec.Base64.lastDigits a b c := by
    intro a b c; simp only [Spec.Base64.lastDigits, hv, hp]
  have hl2 : ∀ a b, Spec.Base64.lastDigits (g a) (g b) Spec.Base64.pad = Spec.Base64.lastDigits a b Spec.Base64.pad := by
    intro a b; simp only [Spec.Base64.lastDigits, hv]
  match s with
  | [] => rfl
  | [_] => rfl
  | [a, b] => exact hl2 a b
  | [a, b, c] => exact hl a b c
  | a :: b :: c :: d :: t =>
    simp only [List.map_cons, Spec.Base64.digits, hl, hv, hp, List.map_eq_nil_iff, digits_map g hv hp t]

/-- C101: a character outside the alphabets counts as `A`: putting `A` for all of them changes none of the digits, so that
the two texts give the same bytes. -/
theorem C101_outside (s : List Byte) :
    Spec.Base64.digits (s.map (fun c => if OutsideAlphabet c then 65#8 else c)) = Spec.Base64.digits s := by
  refine digits_map _ ?_ ?_ s
  · have : ∀ c : Byte, Spec.Base64.value (if OutsideAlphabet c then 65#8 else c) = Spec.Base64.value c := by decide +kernel
    exact this
  · have : ∀ c : Byte, (if OutsideAlphabet c then 65#8 else c) = Spec.Base64.pad ↔ c = Spec.Base64.pad := by decide +kernel
    exact this

/-- Line breaks and blanks are outside. -/
example : OutsideAlphabet 10#8 ∧ OutsideAlphabet 13#8 ∧ OutsideAlphabet 32#8 ∧ ¬ OutsideAlphabet 45#8 ∧ ¬ OutsideAlphabet 65#8 := by decide +kernel

/-- Non-vacuity: a character outside the alphabet counts as `A`, and unused bits do not matter. -/
example : Spec.Base64.digits (ascii "Zm9vYg==") = Spec.Base64.digits (ascii "Zm9vYh") ∧
    Spec.Base64.digits (ascii "Zm9vYmA") = Spec.Base64.digits (ascii "Zm9vYm*=") ∧
    Spec.Base64.digits (ascii "Zm9vYg==") ≠ Spec.Base64.digits (ascii "Zm9vYw==") ∧
    LongEnough (ascii "Zm9vYh") ∧ LongEnough (ascii "Zm9vYg==") := by decide +kernel

/-- A line break inside a text is taken for a digit: "Zm9vYmFy" is "foobar", broken after the first group it is decoded
to seven other bytes. -/
example : ∃ m', IMU.Base64.decode (ptr 0 0) 10 (ptr 1 0) 7 (mem2 (ascii "Zm9v\r\nYmFy") (List.replicate 7 0)) = .ok 0 m' ∧
    m'.bytes 1 = ascii "foo" ++ [0, 6, 38, 23] := ⟨_, rfl, by decide +kernel⟩

end IMU.Props
