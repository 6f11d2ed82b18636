import Verif.Proofs.Overlap
import Verif.Props.Utils

/-!
# Utilities: property C108, source and destination overlap
-/

namespace IMU.Props
open Spec Utils

theorem onlyChanged_range (m : Mem) (b o n : Nat) (g : Nat → Byte) (h : o + n ≤ (m.bytes b).length) :
    OnlyChanged m (m.upd b (splice (m.bytes b) o ((List.range n).map g))) b o n := by
  have := onlyChanged_splice m b o ((List.range n).map g) (by simpa using h)
  simpa using this

theorem range_get (m : Mem) (b o n : Nat) (g : Nat → Byte) (h : o + n ≤ (m.bytes b).length) {i : Nat} (hi : i < n) :
    ((m.upd b (splice (m.bytes b) o ((List.range n).map g))).bytes b)[o + i]? = some (g i) := by
  rw [Mem.upd_bytes, if_pos rfl, splice_map_get _ _ _ _ h, if_pos (by omega), show o + i - o = i by omega]

/-- C108: copying a blob towards lower addresses, or onto itself, is right even if the ranges overlap; towards higher
addresses it repeats the bytes that come before the destination. -/
theorem C108_blobBE_overlap (b od os : Nat) (size : U32) (m : Mem) (hd : od + size.toNat ≤ (m.bytes b).length)
    (hs : os + size.toNat ≤ (m.bytes b).length) :
    ∃ m', serializeBlobBE (ptr b od) (ptr b os) size m = .ok () m' ∧ deserializeBlobBE (ptr b os) (ptr b od) size m = .ok () m' ∧
      (∀ i < size.toNat, (m'.bytes b)[od + i]? =
        if od ≤ os then (m.bytes b)[os + i]? else (m.bytes b)[os + i % (od - os)]?) ∧
      OnlyChanged m m' b od size.toNat := by
  refine ⟨_, blobBE_alias b od os size m hd hs, blobBE_alias b od os size m hd hs, fun i hi => ?_, onlyChanged_range _ _ _ _ _ hd⟩
  rw [range_get _ _ _ _ _ hd hi]
  unfold moved
  have hm : i % (od - os) ≤ i := Nat.mod_le _ _
  split
  · exact (getD_some (by omega)).symm
  · exact (getD_some (by omega)).symm

/-- C108: reversing a blob leaves those bytes of the destination as they were whose source has been overwritten by then. -/
theorem C108_blobLE_overlap (b od os : Nat) (size : U32) (m : Mem) (hsz : size.toNat < 2 ^ 31)
    (hd : od + size.toNat ≤ (m.bytes b).length) (hs : os + size.toNat ≤ (m.bytes b).length) :
    ∃ m', serializeBlobLE (ptr b od) (ptr b os) size m = .ok () m' ∧ deserializeBlobLE (ptr b os) (ptr b od) size m = .ok () m' ∧
      (∀ i < size.toNat, (m'.bytes b)[od + i]? =
        if od ≤ os + (size.toNat - 1 - i) ∧ os + (size.toNat - 1 - i) < od + i then (m.bytes b)[od + i]?
        else (m.bytes b)[os + (size.toNat - 1 - i)]?) ∧
      OnlyChanged m m' b od size.toNat := by
  refine ⟨_, blobLE_alias b od os size m hsz hd hs, blobLE_alias b od os size m hsz hd hs, fun i hi => ?_,
    onlyChanged_range _ _ _ _ _ hd⟩
  rw [range_get _ _ _ _ _ hd hi]
  unfold mirrored
  split
  · exact (getD_some (by omega)).symm
  · exact (getD_some (by omega)).symm

/-- C108: reversing a blob in place loses its first half: it becomes the mirror image of the second half. -/
theorem C108_blobLE_in_place (b o : Nat) (size : U32) (m : Mem) (hsz : size.toNat < 2 ^ 31)
    (h : o + size.toNat ≤ (m.bytes b).length) :
    ∃ m', serializeBlobLE (ptr b o) (ptr b o) size m = .ok () m' ∧
      slice (m'.bytes b) o size.toNat = (slice (m'.bytes b) o size.toNat).reverse ∧
      (∀ i, size.toNat / 2 ≤ i → i < size.toNat → (m'.bytes b)[o + i]? = (m.bytes b)[o + i]?) ∧
      (slice (m'.bytes b) o size.toNat = (slice (m.bytes b) o size.toNat).reverse ↔
        slice (m.bytes b) o size.toNat = (slice (m.bytes b) o size.toNat).reverse) := by
  obtain ⟨m', h1, _, h2, h3⟩ := C108_blobLE_overlap b o o size m hsz h h
  have hl' : (m'.bytes b).length = (m.bytes b).length := h3.2.2.1
  generalize size.toNat = n at *
  have hup : ∀ i, n / 2 ≤ i → i < n → (m'.bytes b)[o + i]? = (m.bytes b)[o + i]? := by
    intro i h4 h5
    rw [h2 i h5]
    split
    · rfl
    · congr 1; omega
  have hlow : ∀ i, i < n / 2 → (m'.bytes b)[o + i]? = (m.bytes b)[o + (n - 1 - i)]? := by
    intro i h4
    rw [h2 i (by omega), if_neg (by omega)]
  have hg : ∀ l : List Byte, l.length = (m.bytes b).length → ∀ k, (slice l o n).reverse[k]? =
      if k < n then l[o + (n - 1 - k)]? else none := by
    intro l hl k
    by_cases hk : k < n
    · rw [List.getElem?_reverse (by rw [slice_length _ _ _ (by omega)]; exact hk), slice_length _ _ _ (by omega),
        getElem?_slice, if_pos (by omega), if_pos hk]
    · rw [if_neg hk, List.getElem?_eq_none]
      rw [List.length_reverse, slice_length _ _ _ (by omega)]; omega
  have hpal : slice (m'.bytes b) o n = (slice (m'.bytes b) o n).reverse := by
    apply List.ext_getElem?
    intro k
    rw [hg _ hl', getElem?_slice]
    split
    · by_cases hk : k < n / 2
      · rw [hlow k hk, hup _ (by omega) (by omega)]
      · rw [hup k (by omega) (by omega)]
        by_cases hk2 : n - 1 - k < n / 2
        · rw [hlow _ hk2]; congr 2; omega
        · rw [hup _ (by omega) (by omega)]; congr 2; omega
    · rfl
  refine ⟨m', h1, hpal, hup, ?_⟩
  constructor
  · intro he
    rw [hpal] at he
    have he := List.reverse_inj.mp he
    rw [he] at hpal
    exact hpal
  · intro he
    apply List.ext_getElem?
    intro k
    have hk0 : (slice (m.bytes b) o n)[k]? = (slice (m.bytes b) o n).reverse[k]? := by rw [← he]
    rw [hg _ rfl] at hk0 ⊢
    rw [getElem?_slice] at hk0 ⊢
    split
    · rename_i hk
      rw [if_pos hk, if_pos hk] at hk0
      by_cases hk2 : k < n / 2
      · exact hlow k hk2
      · rw [hup k (by omega) hk, hk0]
    · rfl

/-- C108: exchanging two ranges of which the second begins `d` bytes behind the first and inside of it.  The upper range
gets what was in the lower one, but the lower one does not get what was in the upper one: its first `d` bytes get the
last `d` bytes, turned round; the rest follows from the first statement. -/
theorem C108_swap_overlap (b o d : Nat) (size : U32) (m : Mem) (hd : 0 < d) (hd' : d < size.toNat)
    (h : o + d + size.toNat ≤ (m.bytes b).length) :
    ∃ m', swapElements (ptr b o) (ptr b (o + d)) size m = .ok () m' ∧
      swapElements (ptr b (o + d)) (ptr b o) size m = .ok () m' ∧
      slice (m'.bytes b) (o + d) size.toNat = slice (m.bytes b) o size.toNat ∧
      (∀ i < d, ∃ j, size.toNat ≤ j ∧ j < size.toNat + d ∧ j % d = i ∧ (m'.bytes b)[o + i]? = (m.bytes b)[o + j]?) ∧
      OnlyChanged m m' b o (size.toNat + d) := by
  obtain ⟨m1, h1, w1, l1, x1, g1⟩ := swap_overlap b o d o (o + d) size m hd h (.inl ⟨rfl, rfl⟩)
  obtain ⟨m2, h2, w2, l2, x2, g2⟩ := swap_overlap b o d (o + d) o size m hd h (.inr ⟨rfl, rfl⟩)
  have he : m2 = m1 := by
    cases m1; cases m2
    simp only at w1 w2 x1 x2 g1 g2
    simp only [Mem.mk.injEq]
    refine ⟨?_, w2.trans w1.symm⟩
    funext x
    by_cases hx : x = b
    · subst hx
      apply List.ext_getElem?
      intro i
      rw [g1, g2]
    · rw [x1 x hx, x2 x hx]
  subst he
  generalize size.toNat = n at *
  refine ⟨m2, h1, h2, ?_, ?_, w1, x1, l1, ?_⟩
  · apply List.ext_getElem?
    intro k
    rw [getElem?_slice, getElem?_slice]
    split
    · rw [g1, rotated, if_pos (by omega)]
      congr 1; omega
    · rfl
  · intro i hi
    have hm := Nat.mod_lt (n + d - 1 - i) hd
    have hq := Nat.div_add_mod (n + d - 1 - i) d
    refine ⟨n + d - 1 - (n + d - 1 - i) % d, by omega, by omega, ?_, ?_⟩
    · rw [show n + d - 1 - (n + d - 1 - i) % d = i + d * ((n + d - 1 - i) / d) by omega, Nat.add_mul_mod_self_left,
        Nat.mod_eq_of_lt hi]
    · rw [g1, rotated, if_neg (by omega), if_pos (by omega), show o + n + d - 1 - (o + i) = n + d - 1 - i by omega]
      congr 1; omega
  · intro i hi
    rw [g1, rotated, if_neg (by omega), if_neg (by omega)]

/-- Eight bytes in an object. -/
def overlapMem : Mem := ⟨fun b => if b = 0 then [1, 2, 3, 4, 5, 6, 7, 8] else [], fun _ => []⟩

/-- Moving five bytes down by two, up by two. -/
example : (∃ m', serializeBlobBE (ptr 0 0) (ptr 0 2) 5 overlapMem = .ok () m' ∧ m'.bytes 0 = [3, 4, 5, 6, 7, 6, 7, 8]) ∧
    (∃ m', serializeBlobBE (ptr 0 2) (ptr 0 0) 5 overlapMem = .ok () m' ∧ m'.bytes 0 = [1, 2, 1, 2, 1, 2, 1, 8]) :=
  ⟨⟨_, rfl, by decide⟩, ⟨_, rfl, by decide⟩⟩

/-- Reversing five bytes in place, and two bytes further up. -/
example : (∃ m', serializeBlobLE (ptr 0 0) (ptr 0 0) 5 overlapMem = .ok () m' ∧ m'.bytes 0 = [5, 4, 3, 4, 5, 6, 7, 8]) ∧
    (∃ m', serializeBlobLE (ptr 0 2) (ptr 0 0) 5 overlapMem = .ok () m' ∧ m'.bytes 0 = [1, 2, 5, 4, 5, 2, 1, 8]) :=
  ⟨⟨_, rfl, by decide⟩, ⟨_, rfl, by decide⟩⟩

/-- Exchanging the five bytes from the first on with the five bytes from the third on. -/
example : ∃ m', swapElements (ptr 0 0) (ptr 0 2) 5 overlapMem = .ok () m' ∧ m'.bytes 0 = [7, 6, 1, 2, 3, 4, 5, 8] :=
  ⟨_, rfl, by decide⟩

end IMU.Props
