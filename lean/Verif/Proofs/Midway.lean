import Verif.Proofs.JsonBuild
import Verif.Spec.Midway

namespace IMU
open Spec
open IMU.Json (oc_mono oc_trans oc_refl oc_length)

theorem getD_congr {l l' : List Byte} {i : Nat} (h : l[i]? = l'[i]?) : l.getD i 0 = l'.getD i 0 := by
  rw [List.getD_eq_getElem?_getD, List.getD_eq_getElem?_getD, h]

theorem mid_now {m M : Mem} {br ro K : Nat} (h : OnlyChanged m M br ro K) (b i : Nat) :
    midByte m M br ro K b i = (M.bytes b).getD i 0 := by
  unfold midByte
  split
  · rfl
  · rename_i hn
    by_cases hb : b = br
    · subst hb
      exact (getD_congr (h.2.2.2 i (by omega))).symm
    · rw [h.2.1 b hb]

theorem slice_range {l : List Byte} {o n : Nat} (h : o + n ≤ l.length) :
    (List.range n).map (fun k => l.getD (o + k) 0) = slice l o n := by
  apply List.ext_getElem?; intro k
  rw [List.getElem?_map, getElem?_slice]
  by_cases hk : k < n
  · rw [List.getElem?_range hk, if_pos hk, Option.map_some, List.getD_eq_getElem?_getD,
      List.getElem?_eq_getElem (show o + k < l.length by omega)]; rfl
  · rw [List.getElem?_eq_none (by simpa using hk), if_neg hk]; rfl

theorem midRange_now {m M : Mem} {br ro K : Nat} (h : OnlyChanged m M br ro K) {b o n : Nat}
    (hb : o + n ≤ (m.bytes b).length) : midRange m M br ro K b o n = slice (M.bytes b) o n := by
  unfold midRange
  simp only [mid_now h]
  exact slice_range (by rw [oc_length h]; exact hb)

theorem mid_later {m M M' : Mem} {br ro K : Nat}
    (h : ∀ i, ro ≤ i → i < ro + K → (M'.bytes br)[i]? = (M.bytes br)[i]?) (b i : Nat) :
    midByte m M' br ro K b i = midByte m M br ro K b i := by
  unfold midByte
  split
  · rename_i hn
    obtain ⟨rfl, h1, h2⟩ := hn
    exact getD_congr (h i h1 h2)
  · rfl

theorem midRange_later {m M M' : Mem} {br ro K : Nat}
    (h : ∀ i, ro ≤ i → i < ro + K → (M'.bytes br)[i]? = (M.bytes br)[i]?) (b o n : Nat) :
    midRange m M' br ro K b o n = midRange m M br ro K b o n := by
  unfold midRange
  simp only [mid_later h]

theorem mid_old {m M : Mem} {br ro K b i : Nat} (h : b ≠ br ∨ i < ro ∨ ro + K ≤ i) :
    midByte m M br ro K b i = (m.bytes b).getD i 0 := by
  unfold midByte
  rw [if_neg (by omega)]

theorem mid_new {m M : Mem} {br ro K i : Nat} (h : ro ≤ i) (h' : i < ro + K) :
    midByte m M br ro K br i = (M.bytes br).getD i 0 := by
  unfold midByte
  rw [if_pos ⟨rfl, h, h'⟩]

theorem midRange_old {m M : Mem} {br ro K b o n : Nat} (h : b ≠ br ∨ o + n ≤ ro ∨ ro + K ≤ o)
    (hl : o + n ≤ (m.bytes b).length) : midRange m M br ro K b o n = slice (m.bytes b) o n := by
  rw [← slice_range hl]
  unfold midRange
  apply List.map_congr_left
  intro k hk
  rw [List.mem_range] at hk
  exact mid_old (by omega)

theorem midRange_new {m M : Mem} {br ro K o n : Nat} (h : ro ≤ o) (h' : o + n ≤ ro + K)
    (hl : o + n ≤ (M.bytes br).length) : midRange m M br ro K br o n = slice (M.bytes br) o n := by
  rw [← slice_range hl]
  unfold midRange
  apply List.map_congr_left
  intro k hk
  rw [List.mem_range] at hk
  exact mid_new (by omega) (by omega)

theorem midRange_zero {m M : Mem} {br ro b o n : Nat} (hl : o + n ≤ (m.bytes b).length) :
    midRange m M br ro 0 b o n = slice (m.bytes b) o n := by
  rw [← slice_range hl]
  unfold midRange
  apply List.map_congr_left
  intro k _
  exact mid_old (by omega)

/-- A list of bytes is known from its bytes. -/
theorem slice_eq_of {l : List Byte} {o n : Nat} {s : List Byte} (hl : o + n ≤ l.length) (hs : s.length = n)
    (h : ∀ i < n, l.getD (o + i) 0 = s.getD i 0) : slice l o n = s := by
  rw [← slice_range hl]
  apply List.ext_getElem
  · simp [hs]
  · intro i h1 h2
    rw [List.getElem_map, List.getElem_range, h i (by omega), List.getD_eq_getElem?_getD, List.getElem?_eq_getElem h2]
    rfl

end IMU
