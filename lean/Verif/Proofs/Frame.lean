import Verif.Proofs.Blob
import Verif.Spec.Frame

namespace IMU
open Spec Utils

theorem onlyChanged_splice (m : Mem) (b o : Nat) (s : List Byte) (h : o + s.length ≤ (m.bytes b).length) :
    OnlyChanged m (m.upd b (splice (m.bytes b) o s)) b o s.length := by
  refine ⟨rfl, fun x hx => by simp [hx], by simp [splice_length _ _ _ h], ?_⟩
  intro i hi
  rw [Mem.upd_bytes, if_pos rfl, getElem?_splice _ _ _ h]
  split
  · rfl
  · rw [if_neg (by omega)]

theorem onlyChanged_eq {m m' : Mem} {b o n : Nat} (h : OnlyChanged m m' b o n)
    (hl : o + n ≤ (m.bytes b).length) (hs : slice (m'.bytes b) o n = slice (m.bytes b) o n) :
    m' = m := by
  obtain ⟨hw, hx, hlen, hi⟩ := h
  apply Mem.ext'
  · intro x
    by_cases hxb : x = b
    · subst hxb
      apply List.ext_getElem?; intro i
      by_cases h1 : i < o ∨ o + n ≤ i
      · exact hi i h1
      · have := congrArg (·[i - o]?) hs
        simp only [getElem?_slice] at this
        rw [if_pos (by omega), if_pos (by omega), show o + (i - o) = i by omega] at this
        exact this
    · exact hx x hxb
  · intro x; rw [hw]

theorem serialises_of {w : Nat} {ser : Ptr → BitVec w → C Unit} {k : Nat} {value : List Byte → Nat}
    (S : BitVec w → List Byte) (hS : ∀ v, (S v).length = k)
    (hv : ∀ v, value (S v) = v.toNat % 256 ^ k)
    (h : ∀ b o v m, ser (ptr b o) v m = if o + k ≤ (m.bytes b).length then
        .ok () (m.upd b (splice (m.bytes b) o (S v))) else .ub .oobWrite) :
    Serialises ser k value := by
  intro b o v m
  constructor
  · intro hl
    have hl' : o + (S v).length ≤ (m.bytes b).length := by rw [hS]; exact hl
    refine ⟨_, by rw [h, if_pos hl], ?_, ?_⟩
    · have h2 := slice_splice_same (m.bytes b) o (S v) hl'
      rw [hS] at h2
      rw [Mem.upd_bytes, if_pos rfl, h2, hv]
    · have h2 := onlyChanged_splice m b o (S v) hl'
      rw [hS] at h2; exact h2
  · intro hl
    rw [h, if_neg (by omega)]

theorem roundTrips_of {w : Nat} {ser : Ptr → BitVec w → C Unit} {des : Ptr → C (BitVec w)} {k : Nat}
    {value : List Byte → Nat}
    (hinj : ∀ s t : List Byte, s.length = t.length → value s = value t → s = t)
    (hlt : ∀ s : List Byte, value s < 256 ^ s.length)
    (hs : Serialises ser k value) (hd : Deserialises des k value) : RoundTrips ser des k := by
  intro b o m hl
  constructor
  · intro v
    obtain ⟨m', h1, h2, h3⟩ := (hs b o v m).1 hl
    obtain ⟨v', h4, h5⟩ := (hd b o m').1 (by rw [h3.2.2.1]; exact hl)
    exact ⟨m', v', h1, h4, by rw [h5, h2]⟩
  · obtain ⟨v, h4, h5⟩ := (hd b o m).1 hl
    obtain ⟨m', h1, h2, h3⟩ := (hs b o v m).1 hl
    refine ⟨v, h4, ?_⟩
    have hlt' := hlt (slice (m.bytes b) o k)
    rw [slice_length _ _ _ hl] at hlt'
    have : slice (m'.bytes b) o k = slice (m.bytes b) o k := by
      apply hinj
      · rw [slice_length _ _ _ hl, slice_length _ _ _ (by rw [h3.2.2.1]; exact hl)]
      · rw [h2, h5, Nat.mod_eq_of_lt hlt']
    rw [h1, onlyChanged_eq h3 hl this]

theorem valueLE_lt (s : List Byte) : valueLE s < 256 ^ s.length := by
  induction s with
  | nil => simp [valueLE]
  | cons c s ih =>
    simp only [valueLE, List.length_cons, Nat.pow_succ]
    have := c.isLt; omega

theorem valueBE_lt (s : List Byte) : valueBE s < 256 ^ s.length := by
  rw [valueBE_eq_LE]
  have := valueLE_lt s.reverse
  simpa using this

end IMU
