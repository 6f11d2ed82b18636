import Verif.Model.Sort
import Verif.Spec.Sort
import Verif.Proofs.Array

namespace IMU.Sort
open Spec Utils

theorem u32_toNat {sz : Nat} (h : sz < 2 ^ 31) : (u32 (sz : Int)).toNat = sz := by
  unfold u32
  rw [BitVec.ofInt_natCast, BitVec.toNat_ofNat]
  omega
theorem szt_eq {sz : Nat} (h : sz < 2 ^ 31) : szt (sz : Int) = sz := by
  unfold szt
  rw [BitVec.ofInt_natCast, BitVec.toNat_ofNat]
  omega

theorem i32_ok {x : Int} (h1 : -2147483648 ≤ x) (h2 : x ≤ 2147483647) (m : Mem) : i32 x m = .ok x m := by
  simp [i32, h1, h2]

theorem elemAt_ok {b o sz k : Nat} (h : k * sz < 2 ^ 31) (m : Mem) :
    elemAt (ptr b o) sz k m = .ok (ptr b (o + k * sz)) m := by
  have e : ((k : Int) * (sz : Int)) = ((k * sz : Nat) : Int) := by simp
  unfold elemAt
  rw [e, C.bind_ok (i32_ok (by omega) (by omega) m), C.pure_run, ptr_addZ_nat]

theorem compareAt_ok (cmp : Cmp) {m0 : Mem} {b o sz : Nat} {l : List (List Byte)} (h : Fits m0 b o sz l)
    {i j : Nat} {x y : List Byte} (hi : i * sz < 2 ^ 31) (hj : j * sz < 2 ^ 31)
    (hx : l[i]? = some x) (hy : l[j]? = some y) :
    compareAt cmp (ptr b o) sz i j (arr m0 b o l) = .ok (cmp x y) (arr m0 b o l) := by
  unfold compareAt
  rw [C.bind_ok (elemAt_ok hi _), C.bind_ok (elemAt_ok hj _)]
  unfold compareFun
  rw [Int.toNat_natCast, C.bind_ok (arr_loadN h hx), C.bind_ok (arr_loadN h hy)]
  rfl

theorem swapElems_ok {m0 : Mem} {b o sz : Nat} {l : List (List Byte)} (h : Fits m0 b o sz l)
    (hsz : sz < 2 ^ 31) {i j : Nat} (hi : i * sz < 2 ^ 31) (hj : j * sz < 2 ^ 31)
    (hx : i < l.length) (hy : j < l.length) :
    swapElems (ptr b o) sz i j (arr m0 b o l) = .ok () (arr m0 b o (swapAt l i j)) := by
  unfold swapElems
  rw [C.bind_ok (elemAt_ok hi _), C.bind_ok (elemAt_ok hj _)]
  have e := u32_toNat hsz
  have := arr_swap (size := u32 (sz : Int)) (m0 := m0) (b := b) (o := o) (l := l) (by rw [e]; exact h) hx hy
  rw [e] at this
  exact this

theorem mul_lim {n sz k : Nat} (h : (n - 1) * sz < 2 ^ 31) (hk : k < n) : k * sz < 2 ^ 31 :=
  Nat.lt_of_le_of_lt (Nat.mul_le_mul_right _ (by omega)) h

theorem swapAt_length {α} (l : List α) (i j : Nat) : (swapAt l i j).length = l.length := by
  unfold swapAt; split <;> simp

theorem swapAt_perm {α} (l : List α) (i j : Nat) : l.Perm (swapAt l i j) := by
  unfold swapAt
  split
  · rename_i x y hx hy
    obtain ⟨hi, rfl⟩ := List.getElem?_eq_some_iff.mp hx
    obtain ⟨hj, rfl⟩ := List.getElem?_eq_some_iff.mp hy
    exact (List.set_set_perm hi hj).symm
  · exact .refl _

theorem swapAt_getD {α} (l : List α) (i j k : Nat) (d : α) (hi : i < l.length) (hj : j < l.length) :
    (swapAt l i j).getD k d = if k = j then l.getD i d else if k = i then l.getD j d else l.getD k d := by
  unfold swapAt
  rw [List.getElem?_eq_getElem hi, List.getElem?_eq_getElem hj]
  simp only [List.getD_eq_getElem?_getD]
  by_cases h1 : k = j
  · subst h1
    rw [if_pos rfl, List.getElem?_set_self (by simpa using hj), List.getElem?_eq_getElem hi]
  · rw [if_neg h1, List.getElem?_set_ne (Ne.symm h1)]
    by_cases h2 : k = i
    · subst h2
      rw [if_pos rfl, List.getElem?_set_self hi, List.getElem?_eq_getElem hj]
    · rw [if_neg h2, List.getElem?_set_ne (Ne.symm h2)]

theorem getElem?_getD {α} {l : List α} {k : Nat} (d : α) (h : k < l.length) : l[k]? = some (l.getD k d) := by
  simp [h]

theorem sorted_iff {gt : Cmp} {l : List (List Byte)} :
    Sorted gt l ↔ ∀ p q, p < q → q < l.length → gt (l.getD p []) (l.getD q []) = false := by
  unfold Sorted
  rw [List.pairwise_iff_getElem]
  constructor
  · intro h p q hpq hq
    have := h p q (by omega) hq hpq
    simpa [hq, show p < l.length by omega] using this
  · intro h p q hp hq hpq
    have := h p q hpq hq
    simpa [hq, hp] using this

theorem _root_.IMU.Spec.StrictWeak.irrefl {α} {gt : α → α → Bool} (h : StrictWeak gt) (a : α) : gt a a = false := by
  cases he : gt a a with
  | false => rfl
  | true => have := h.asymm a a he; rw [he] at this; exact absurd this (by simp)

theorem _root_.IMU.Spec.StrictWeak.trans' {α} {gt : α → α → Bool} (h : StrictWeak gt) {a b c : α}
    (h1 : gt a b = true) (h2 : gt a c = false) : gt b c = false := by
  cases he : gt b c with
  | false => rfl
  | true => have := h.negTrans a c b h2 (h.asymm _ _ he); rw [h1] at this; exact absurd this (by simp)

theorem _root_.IMU.Spec.SameTies.refl {gt : Cmp} (l : List (List Byte)) : SameTies gt l l := fun _ => rfl
theorem _root_.IMU.Spec.SameTies.trans {gt : Cmp} {l l' l'' : List (List Byte)} (h : SameTies gt l l') (h' : SameTies gt l' l'') :
    SameTies gt l l'' := fun x => (h x).trans (h' x)
theorem _root_.IMU.Spec.SameTies.append {gt : Cmp} {l l' k k' : List (List Byte)} (h : SameTies gt l l') (h' : SameTies gt k k') :
    SameTies gt (l ++ k) (l' ++ k') := fun x => by rw [List.filter_append, List.filter_append, h x, h' x]
theorem _root_.IMU.Spec.SameTies.cons {gt : Cmp} {l l' : List (List Byte)} (a : List Byte) (h : SameTies gt l l') :
    SameTies gt (a :: l) (a :: l') := SameTies.append (l := [a]) (l' := [a]) (fun _ => rfl) h

/-- Elements of which one is greater are not both tied with a third. -/
theorem tied_not_both {gt : Cmp} (h : StrictWeak gt) {a b : List Byte} (hab : gt a b = true) (x : List Byte) :
    tied gt x a = true → tied gt x b = false := by
  intro ha
  cases hb : tied gt x b with
  | false => rfl
  | true =>
    simp only [tied, Bool.and_eq_true, Bool.not_eq_true'] at ha hb
    have := h.negTrans a x b ha.2 hb.1
    rw [hab] at this
    exact absurd this (by simp)

theorem _root_.IMU.Spec.SameTies.swap {gt : Cmp} (h : StrictWeak gt) {a b : List Byte} (hab : gt a b = true) (l : List (List Byte)) :
    SameTies gt (a :: b :: l) (b :: a :: l) := by
  intro x
  have := tied_not_both h hab x
  simp only [List.filter_cons]
  cases ha : tied gt x a with
  | false => simp
  | true => rw [this ha]; simp

end IMU.Sort
