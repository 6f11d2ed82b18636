import Verif.Proofs.Blob
import Mathlib.Data.Nat.ModEq

/-! # Overlapping ranges -/

namespace IMU.Utils
open Spec

/-- A loop copying byte `srcOff j` of an object to its byte `od + j`; what it reads may have been written before. -/
theorem alias_loop (n b od : Nat) (srcOff : Nat → Nat) (g : Nat → Byte) (m : Mem) (hd : od + n ≤ (m.bytes b).length)
    (hg : ∀ j < n, (splice (m.bytes b) od ((List.range j).map g))[srcOff j]? = some (g j))
    (body : Nat → Unit → C Unit)
    (hbody : ∀ j < n, ∀ m', body j () m' =
      (do let v ← load (ptr b (srcOff j)); store (ptr b (od + j)) v : C Unit) m') :
    forN n 0 body () m = .ok () (m.upd b (splice (m.bytes b) od ((List.range n).map g))) := by
  have key := forN_inv (fun k (_ : Unit) mk => mk = m.upd b (splice (m.bytes b) od ((List.range k).map g))) n 0 body () m
      (by simp [splice_nil]) ?_
  · obtain ⟨s', m', h1, h2⟩ := key
    rw [h1, h2, Nat.zero_add]
  · intro k s mk _ hk hI
    subst hI
    rw [Nat.zero_add] at hk
    have hlen : (splice (m.bytes b) od ((List.range k).map g)).length = (m.bytes b).length :=
        splice_length _ _ _ (by simp; omega)
    refine ⟨(), _, ?_, rfl⟩
    rw [hbody k hk, C.bind_run, load_ok (by rw [Mem.upd_bytes, if_pos rfl]; exact hg k hk)]
    simp only
    rw [store_ok (by rw [Mem.upd_bytes, if_pos rfl, hlen]; omega)]
    simp only [Mem.upd_bytes, if_true, Mem.upd_upd]
    rw [List.range_succ, List.map_append, List.map_singleton, splice_append_set _ _ _ _ (by simp; omega)]
    simp

theorem getD_some {l : List Byte} {i : Nat} (h : i < l.length) : l[i]? = some (l.getD i 0) := by
  simp [List.getD, h]

theorem splice_map_get (l : List Byte) (o j : Nat) (g : Nat → Byte) (h : o + j ≤ l.length) (k : Nat) :
    (splice l o ((List.range j).map g))[k]? = if o ≤ k ∧ k < o + j then some (g (k - o)) else l[k]? := by
  rw [getElem?_splice _ _ _ (by simpa using h)]
  simp only [List.length_map, List.length_range]
  by_cases h1 : k < o
  · rw [if_pos h1, if_neg (by omega)]
  · rw [if_neg h1]
    by_cases h2 : k < o + j
    · rw [if_pos h2, if_pos (by omega)]
      simp [show k - o < j by omega]
    · rw [if_neg h2, if_neg (by omega)]

/-- The byte that ends up at place `i` when a range is copied upwards, byte by byte. -/
def moved (l : List Byte) (od os i : Nat) : Byte :=
  l.getD (if od ≤ os then os + i else os + i % (od - os)) 0

/-- The byte that ends up at place `i` when a range of `n` bytes is reversed, byte by byte. -/
def mirrored (l : List Byte) (od os n i : Nat) : Byte :=
  l.getD (if od ≤ os + (n - 1 - i) ∧ os + (n - 1 - i) < od + i then od + i else os + (n - 1 - i)) 0

theorem blobBE_alias (b od os : Nat) (size : U32) (m : Mem) (hd : od + size.toNat ≤ (m.bytes b).length)
    (hs : os + size.toNat ≤ (m.bytes b).length) :
    serializeBlobBE (ptr b od) (ptr b os) size m =
      .ok () (m.upd b (splice (m.bytes b) od ((List.range size.toNat).map (moved (m.bytes b) od os)))) := by
  unfold serializeBlobBE
  apply alias_loop _ _ _ (fun j => os + j) _ _ hd
  · intro j hj
    rw [splice_map_get _ _ _ _ (by omega)]
    by_cases h : od ≤ os
    · rw [if_neg (by omega)]
      unfold moved
      rw [if_pos h]
      exact getD_some (by omega)
    · by_cases h2 : od ≤ os + j
      · rw [if_pos (by omega)]
        unfold moved
        rw [if_neg h, if_neg h]
        have : (os + j - od) % (od - os) = j % (od - os) := by
          have e : j = os + j - od + (od - os) := by omega
          conv_rhs => rw [e]
          rw [Nat.add_mod_right]
        rw [this]
      · rw [if_neg (by omega)]
        unfold moved
        rw [if_neg h, Nat.mod_eq_of_lt (by omega)]
        exact getD_some (by omega)
  · intro j _ m'
    simp

theorem blobLE_alias (b od os : Nat) (size : U32) (m : Mem) (hsz : size.toNat < 2^31)
    (hd : od + size.toNat ≤ (m.bytes b).length) (hs : os + size.toNat ≤ (m.bytes b).length) :
    serializeBlobLE (ptr b od) (ptr b os) size m =
      .ok () (m.upd b (splice (m.bytes b) od ((List.range size.toNat).map (mirrored (m.bytes b) od os size.toNat)))) := by
  have hti : size.toInt = size.toNat := by
    rw [BitVec.toInt_eq_toNat_cond, if_pos (by omega)]
  unfold serializeBlobLE
  rw [hti, C.bind_run, i32, if_pos (by omega)]
  simp only [C.pure_run]
  rw [show ((size.toNat : Int) - 1 + 1).toNat = size.toNat by omega]
  apply alias_loop _ _ _ (fun j => os + (size.toNat - 1 - j)) _ _ hd
  · intro j hj
    rw [splice_map_get _ _ _ _ (by omega)]
    by_cases h : od ≤ os + (size.toNat - 1 - j) ∧ os + (size.toNat - 1 - j) < od + j
    · rw [if_pos h]
      unfold mirrored
      rw [if_pos h, if_neg (by omega)]
      congr 2
      omega
    · rw [if_neg h]
      unfold mirrored
      rw [if_neg h]
      exact getD_some (by omega)
  · intro j hj m'
    have : (ptr b os).addZ ((size.toNat : Int) - 1 - j) = ptr b (os + (size.toNat - 1 - j)) := by
      simp only [Ptr.addZ, Ptr.mk.injEq, true_and]; omega
    simp only [this, ptr_addN]

/-! ### swap -/

/-- Byte `i` after the rounds `n - 1, ..., k` of exchanging the ranges of `n` bytes at `o` and at `o + d`. -/
def rotated (l : List Byte) (o d n k i : Nat) : Option Byte :=
  if o + k + d ≤ i ∧ i < o + n + d then l[i - d]?
  else if o + k ≤ i ∧ i < o + k + d then l[o + n + d - 1 - (o + n + d - 1 - i) % d]?
  else l[i]?

theorem set_set_get (l : List Byte) {i j : Nat} {a c : Byte} (hij : i ≠ j) (hi : i < l.length) (hj : j < l.length) (x : Nat) :
    ((l.set i a).set j c)[x]? = if x = i then some a else if x = j then some c else l[x]? := by
  rw [List.getElem?_set, List.getElem?_set]
  simp only [List.length_set]
  by_cases h1 : x = i
  · subst h1
    rw [if_neg (Ne.symm hij), if_pos rfl, if_pos hi, if_pos rfl]
  · rw [if_neg h1]
    by_cases h2 : x = j
    · subst h2; rw [if_pos rfl, if_pos hj, if_pos rfl]
    · rw [if_neg (Ne.symm h2), if_neg (Ne.symm h1), if_neg h2]

theorem rotated_step {l : List Byte} {o d n k : Nat} (hd : 0 < d) (hk : k < n) (i : Nat) :
    rotated l o d n k i =
      if i = o + k then rotated l o d n (k + 1) (o + k + d) else
      if i = o + k + d then rotated l o d n (k + 1) (o + k) else rotated l o d n (k + 1) i := by
  by_cases h1 : i = o + k
  · subst h1
    rw [if_pos rfl]
    unfold rotated
    rw [if_neg (by omega), if_pos (by omega), if_neg (by omega), if_pos (by omega)]
    have e : o + n + d - 1 - (o + k) = o + n + d - 1 - (o + k + d) + d := by omega
    rw [e, Nat.add_mod_right]
  · rw [if_neg h1]
    by_cases h2 : i = o + k + d
    · subst h2
      rw [if_pos rfl]
      unfold rotated
      rw [if_pos (by omega), if_neg (by omega), if_neg (by omega)]
      congr 1; omega
    · rw [if_neg h2]
      unfold rotated
      by_cases h3 : o + k + d ≤ i ∧ i < o + n + d
      · rw [if_pos h3, if_pos (by omega)]
      · have h5 : ¬ (o + (k + 1) + d ≤ i ∧ i < o + n + d) := by omega
        rw [if_neg h3, if_neg h5]
        by_cases h4 : o + k ≤ i ∧ i < o + k + d
        · rw [if_pos h4, if_pos (by omega)]
        · rw [if_neg h4, if_neg (by omega)]

theorem swap_overlap (b o d o1 o2 : Nat) (size : U32) (m : Mem) (hd : 0 < d)
    (h : o + d + size.toNat ≤ (m.bytes b).length) (ho : o1 = o ∧ o2 = o + d ∨ o1 = o + d ∧ o2 = o) :
    ∃ m', swapElements (ptr b o1) (ptr b o2) size m = .ok () m' ∧ m'.words = m.words ∧
      (m'.bytes b).length = (m.bytes b).length ∧ (∀ x ≠ b, m'.bytes x = m.bytes x) ∧
      ∀ i, (m'.bytes b)[i]? = rotated (m.bytes b) o d size.toNat 0 i := by
  generalize hn : size.toNat = n at *
  have key := forDown_inv (fun k (_ : Unit) mk => k ≤ n ∧ mk.words = m.words ∧
      (mk.bytes b).length = (m.bytes b).length ∧ (∀ x ≠ b, mk.bytes x = m.bytes x) ∧
      ∀ i, (mk.bytes b)[i]? = rotated (m.bytes b) o d n k i) n
    (fun index _ => do
      let temp ← load ((ptr b o1).addN index)
      let s ← load ((ptr b o2).addN index)
      store ((ptr b o1).addN index) s
      store ((ptr b o2).addN index) temp) () m ?_ ?_
  · obtain ⟨s', m', h3, h4⟩ := key
    refine ⟨m', ?_, h4.2.1, h4.2.2.1, h4.2.2.2.1, h4.2.2.2.2⟩
    unfold swapElements; rw [hn]; exact h3
  · refine ⟨Nat.le_refl _, rfl, rfl, fun _ _ => rfl, ?_⟩
    intro i
    unfold rotated
    rw [if_neg (by omega)]
    by_cases h4 : o + n ≤ i ∧ i < o + n + d
    · rw [if_pos h4, Nat.mod_eq_of_lt (by omega)]
      congr 1; omega
    · rw [if_neg h4]
  · rintro k ⟨⟩ mk hk ⟨hkn, hw, hlen, hx, hI⟩
    have l1 : o1 + k < (mk.bytes b).length := by omega
    have l2 : o2 + k < (mk.bytes b).length := by omega
    have e1 := getD_some l1
    have e2 := getD_some l2
    refine ⟨(), mk.upd b (((mk.bytes b).set (o1 + k) ((mk.bytes b).getD (o2 + k) 0)).set (o2 + k)
      ((mk.bytes b).getD (o1 + k) 0)), ?_, ?_⟩
    · simp only [C.bind_run, ptr_addN]
      rw [load_ok e1]; simp only
      rw [load_ok e2]; simp only
      rw [store_ok l1]; simp only
      rw [store_ok (by simpa using l2)]
      simp
    · refine ⟨by omega, by simpa using hw, by simpa using hlen, fun x hxb => ?_, fun i => ?_⟩
      · rw [Mem.upd_bytes, if_neg hxb]; exact hx x hxb
      · rw [Mem.upd_bytes, if_pos rfl, set_set_get _ (by omega) l1 l2, ← e1, ← e2, rotated_step hd (by omega), ← hI, ← hI, ← hI]
        rcases ho with ⟨rfl, rfl⟩ | ⟨rfl, rfl⟩
        · by_cases h1 : i = o1 + k
          · rw [if_pos h1, if_pos h1, show o1 + d + k = o1 + k + d by omega]
          · rw [if_neg h1, if_neg h1, show o1 + d + k = o1 + k + d by omega]
        · by_cases h1 : i = o2 + k
          · rw [if_neg (by omega), if_pos h1, if_pos h1, show o2 + d + k = o2 + k + d by omega]
          · rw [show o2 + d + k = o2 + k + d by omega, if_neg h1, if_neg h1]

end IMU.Utils
