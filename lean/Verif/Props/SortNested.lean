import Verif.Proofs.SortNested
import Verif.Props.SortEffects

/-!
# Property C106: sorting inside a comparison function

Specification: `Verif/Spec/SortNested.lean`.
-/

namespace IMU.Props
open Spec Utils IMU.Sort

/-- What a sort of the array does to the memory, whatever the comparison function answers. -/
theorem run_ok (a : Alg) (m : Mem) (st b o sz n fuel : Nat) (cmp : Cmp) (h : a.Setup m st b o sz n fuel) (hst : st ≠ b) :
    ∃ m', a.run fuel (ptr st 0) (ptr b o) n sz (compareFun cmp sz) m = .ok () m' ∧
      (∀ c, c ≠ b → ¬ (c = st ∧ a = .insertion) → m'.bytes c = m.bytes c) ∧
      (m'.bytes b).length = (m.bytes b).length ∧ (m'.bytes st).length = (m.bytes st).length ∧
      (elems (m.bytes b) o sz n).Perm (elems (m'.bytes b) o sz n) ∧
      (a = .insertion → 2 ≤ n → slice (m'.bytes st) 0 sz = slice (m.bytes b) (o + (n - 1) * sz) sz) := by
  obtain ⟨hsz, hn, h⟩ := h
  cases a with
  | bubble =>
    obtain ⟨h1, h2, h3, h4⟩ := h
    obtain ⟨m', g1, g2, g3, -⟩ := bubble_all m b o sz n fuel cmp ⟨hsz, hn, h1, h2⟩ h3 h4
    rw [bubbleSort_eq] at g1
    exact ⟨m', g1, fun c hc _ => g2.2.1 c hc, g2.2.2.1, by rw [g2.2.1 st hst], g3, by simp⟩
  | selection =>
    obtain ⟨h1, h2⟩ := h
    obtain ⟨m', g1, g2, g3, -⟩ := selection_all m b o sz n cmp ⟨hsz, hn, h1, h2⟩
    rw [selectionSort_eq] at g1
    exact ⟨m', g1, fun c hc _ => g2.2.1 c hc, g2.2.2.1, by rw [g2.2.1 st hst], g3, by simp⟩
  | insertion =>
    obtain ⟨h1, h2, h3, h4, h5⟩ := h
    obtain ⟨m', X, g1, g2, g3, g4, g5, -⟩ := (insertion_all m st b o sz n cmp ⟨hsz, hn, h1, h2⟩ hst h3 h4).1 (.inl h5)
    rw [insertionSort_eq] at g1
    have hx : m'.bytes st = X := by rw [g4.2.1 st hst, Mem.upd_bytes, if_pos rfl]
    refine ⟨m', g1, fun c hc hcs => ?_, ?_, by rw [hx, g2, h3], g5, fun _ hn2 => by rw [hx]; exact g3.2 hn2⟩
    · rw [g4.2.1 c hc, Mem.upd_bytes, if_neg]
      exact fun e => hcs ⟨e, rfl⟩
    · rw [g4.2.2.1, Mem.upd_bytes, if_neg (Ne.symm hst)]
  | heap =>
    obtain ⟨h1, h2, h3, h4⟩ := h
    obtain ⟨m', g1, g2, g3, -⟩ := heap_all m b o sz n fuel cmp ⟨hsz, h1, h2, h3⟩ h4
    rw [heapSort_eq] at g1
    exact ⟨m', g1, fun c hc _ => g2.2.1 c hc, g2.2.2.1, by rw [g2.2.1 st hst], g3, by simp⟩

/-- Setups depend on the sizes of objects only. -/
theorem setup_congr {a : Alg} {m m' : Mem} {st b o sz n fuel : Nat} (h : a.Setup m st b o sz n fuel)
    (hb : (m'.bytes b).length = (m.bytes b).length) (hs : a = .insertion → (m'.bytes st).length = (m.bytes st).length) :
    a.Setup m' st b o sz n fuel := by
  obtain ⟨hsz, hn, h⟩ := h
  refine ⟨hsz, hn, ?_⟩
  cases a with
  | bubble => simp only at h ⊢; rw [hb]; exact h
  | selection => simp only at h ⊢; rw [hb]; exact h
  | insertion => simp only at h ⊢; rw [hb, hs rfl]; exact h
  | heap => simp only at h ⊢; rw [hb]; exact h

/-- C106: a sort with a comparison function that itself sorts another array, with any of the four sorts and any
comparison function: the array is sorted, unless both are insertion sorts. -/
theorem C106_nested (outer inner : Alg) (hne : ¬ (outer = .insertion ∧ inner = .insertion)) (m : Mem)
    (st b o sz n fuel b' o' sz' n' fuel' : Nat) (cmp cmp' : Cmp) (hw : StrictWeak cmp)
    (ho : outer.Setup m st b o sz n fuel) (hi : inner.Setup m st b' o' sz' n' fuel')
    (hb : b ≠ b') (hst : st ≠ b) (hst' : st ≠ b') :
    ∃ m', outer.run fuel (ptr st 0) (ptr b o) n sz
        (after (inner.run fuel' (ptr st 0) (ptr b' o') n' sz' (compareFun cmp' sz')) cmp sz) m = .ok () m' ∧
      Sorted cmp (elems (m'.bytes b) o sz n) ∧ (elems (m.bytes b) o sz n).Perm (elems (m'.bytes b) o sz n) ∧
      (elems (m.bytes b') o' sz' n').Perm (elems (m'.bytes b') o' sz' n') ∧
      (∀ c, c ≠ b → c ≠ b' → c ≠ st → m'.bytes c = m.bytes c) := by
  let P : Nat → Prop := fun c => c = b' ∨ (c = st ∧ inner = .insertion)
  let I : Mem → Prop := fun m1 => inner.Setup m1 st b' o' sz' n' fuel' ∧
    (elems (m.bytes b') o' sz' n').Perm (elems (m1.bytes b') o' sz' n')
  have hI : Concerns P I := by
    rintro m1 m2 h _ ⟨h1, h2⟩
    have hb' := h b' (.inl rfl)
    exact ⟨setup_congr h1 (by rw [hb']) (fun e => by rw [h st (.inr ⟨rfl, e⟩)]), by rw [hb']; exact h2⟩
  have hm : I m := ⟨hi, .refl _⟩
  have hPb : ¬ P b := by
    rintro (h | h)
    · exact hb h
    · exact hst h.1.symm
  have hg : ∀ Q : Nat → Prop, (∀ c, Q c → ¬ P c) → AnswersAs I P Q sz cmp
      (after (inner.run fuel' (ptr st 0) (ptr b' o') n' sz' (compareFun cmp' sz')) cmp sz) := by
    intro Q hQ p q m1 x y h1 hp hq hx hy
    obtain ⟨m2, g1, g2, g3, g4, g5, -⟩ := run_ok inner m1 st b' o' sz' n' fuel' cmp' h1.1 hst'
    have hfr : ∀ c, ¬ P c → m2.bytes c = m1.bytes c := fun c hc => g2 c (fun e => hc (.inl e)) (fun e => hc (.inr e))
    refine ⟨m2, ?_, hfr, setup_congr h1.1 g3 (fun _ => g4), h1.2.trans g5⟩
    unfold after
    rw [C.bind_ok g1]
    have hl : ∀ (r : Ptr) (z : List Byte), Q r.blk → loadN r sz m1 = .ok z m1 → loadN r sz m2 = .ok z m2 := by
      intro r z hr hz
      unfold loadN at hz ⊢
      rw [hfr r.blk (hQ _ hr)]
      repeat' split at hz
      · rename_i h0
        rw [if_pos h0]; simp only [Res.ok.injEq, and_true] at hz ⊢; exact hz
      · rename_i h0 h0'
        rw [if_neg h0, if_pos h0']; simp only [Res.ok.injEq, and_true] at hz ⊢; exact hz
      · cases hz
    unfold compareFun
    rw [Int.toNat_natCast, C.bind_ok (hl p x hp hx), C.bind_ok (hl q y hq hy)]
    rfl
  have hQb : ∀ c, c = b → ¬ P c := by rintro c rfl; exact hPb
  obtain ⟨hsz, hn, h⟩ := ho
  have fin : ∀ {m'}, SortedApart (fun c => P c ∨ c = st) cmp m m' b o sz n → I m' →
      Sorted cmp (elems (m'.bytes b) o sz n) ∧ (elems (m.bytes b) o sz n).Perm (elems (m'.bytes b) o sz n) ∧
      (elems (m.bytes b') o' sz' n').Perm (elems (m'.bytes b') o' sz' n') ∧
      (∀ c, c ≠ b → c ≠ b' → c ≠ st → m'.bytes c = m.bytes c) := by
    rintro m' ⟨s1, s2, s3, -⟩ ⟨-, s4⟩
    refine ⟨s1, s2, s4, fun c h1 h2 h3 => s3 c ?_ h1⟩
    rintro ((h | h) | h)
    · exact h2 h
    · exact h3 h.1
    · exact h3 h
  have weaken : ∀ {m'}, SortedApart P cmp m m' b o sz n → SortedApart (fun c => P c ∨ c = st) cmp m m' b o sz n := by
    rintro m' ⟨s1, s2, s3, s4⟩
    exact ⟨s1, s2, fun c hc => s3 c fun e => hc (.inl e), s4⟩
  cases outer with
  | bubble =>
    obtain ⟨h1, h2, h3, h4⟩ := h
    obtain ⟨m', m1, g1, g2, -, -, -, g3⟩ := C94_bubble I P m b o sz n fuel cmp _ hw ⟨hsz, hn, h1, h2⟩ h3 h4 hI hm hPb
      (hg _ hQb)
    exact ⟨m', g1, fin (weaken g2) g3⟩
  | selection =>
    obtain ⟨h1, h2⟩ := h
    obtain ⟨m', m1, g1, g2, -, -, g3⟩ := C94_selection I P m b o sz n cmp _ hw ⟨hsz, hn, h1, h2⟩ hI hm hPb (hg _ hQb)
    exact ⟨m', g1, fin (weaken g2) g3⟩
  | insertion =>
    obtain ⟨h1, h2, h3, h4, h5⟩ := h
    have hPst : ¬ P st := by
      rintro (h | h)
      · exact hst' h
      · exact hne ⟨rfl, h.2⟩
    obtain ⟨m', m1, g1, g2, -, -, -, g3⟩ := C94_insertion I P m st b o sz n cmp _ hw ⟨hsz, hn, h1, h2⟩ hst h3 h4 h5 hI hm
      hPb hPst (hg _ (by rintro c (rfl | rfl); exacts [hPb, hPst]))
    exact ⟨m', g1, fin g2 g3⟩
  | heap =>
    obtain ⟨h1, h2, h3, h4⟩ := h
    obtain ⟨m', m1, g1, g2, -, -, g3⟩ := C94_heap I P m b o sz n fuel cmp _ hw ⟨hsz, h1, h2, h3⟩ h4 hI hm hPb (hg _ hQb)
    exact ⟨m', g1, fin (weaken g2) g3⟩

/-- C106: insertion sort with a comparison function that overwrites the static buffer: of the elements only the first is
kept, the others are replaced by what the comparison function left there. -/
theorem C106_overwritten (I : Mem → Prop) (V : List Byte → Prop) (Q : Nat → Prop) (m : Mem) (st b o sz n : Nat)
    (g : CmpFun) (h : Alg.insertion.Setup m st b o sz n 0) (hst : st ≠ b) (hn : 1 ≤ n) (hI : Concerns Q I) (hm : I m)
    (hQb : ¬ Q b) (hQst : ¬ Q st) (hg : Leaves I st b sz V g) :
    ∃ m' vs, insertionSortE (ptr st 0) (ptr b o) n sz g m = .ok () m' ∧ vs.length = n - 1 ∧ (∀ v ∈ vs, V v) ∧
      (elems (m'.bytes b) o sz n).Perm (slice (m.bytes b) o sz :: vs) ∧ I m' := by
  obtain ⟨hsz, hn31, h1, h2, h3, h4, h5⟩ := h
  have hl := elems_length (m.bytes b) o sz n
  have hE : elems (m.bytes b) o sz n = [slice (m.bytes b) o sz] ++ (elems (m.bytes b) o sz n).tail := by
    obtain ⟨k, rfl⟩ : ∃ k, n = k + 1 := ⟨n - 1, by omega⟩
    simp [elems, List.range_succ_eq_map]
  have hs : NState I st b o sz m (elems (m.bytes b) o sz n) := ⟨by rw [hl], by rw [hl]; exact h2, h3, hm⟩
  have hlim : ((elems (m.bytes b) o sz n).length - 1) * sz < 2 ^ 31 := by rw [hl]; exact h1
  rw [hE] at hs hlim
  obtain ⟨l, vs, m', g1, g2, g3, g4, g5⟩ := nested_loop hg hI hQb hQst hst h4 h5 _ _ m (by simp) hs hlim
  have htl : (elems (m.bytes b) o sz n).tail.length = n - 1 := by rw [List.length_tail, hl]
  have hll : l.length = n := by
    rw [← g5.length_eq, List.length_append, g3, htl, List.length_singleton]; omega
  refine ⟨m', vs, ?_, g3.trans htl, g4, ?_, g2.inv⟩
  · unfold insertionSortE
    rw [show ((n : Int) - 1).toNat = n - 1 by omega]
    rw [htl] at g1
    exact g1
  · have := g2.elems_eq
    rw [hll] at this
    rw [this]
    exact g5.symm

/-- C106: insertion sort with a comparison function that itself calls insertion sort on another array, of at least two
elements that are at least as long: every element but the first is lost; the beginnings of elements of the other array
take their places. -/
theorem C106_insertion_in_itself (m : Mem) (st b o sz n b' o' sz' n' : Nat) (cmp cmp' : Cmp)
    (ho : Alg.insertion.Setup m st b o sz n 0) (hi : Alg.insertion.Setup m st b' o' sz' n' 0)
    (hb : b ≠ b') (hst : st ≠ b) (hst' : st ≠ b') (hn : 1 ≤ n) (hn' : 2 ≤ n') (hle : sz ≤ sz') :
    ∃ m' vs, insertionSortE (ptr st 0) (ptr b o) n sz
        (after (insertionSortE (ptr st 0) (ptr b' o') n' sz' (compareFun cmp' sz')) cmp sz) m = .ok () m' ∧
      vs.length = n - 1 ∧ (∀ v ∈ vs, ∃ e ∈ elems (m.bytes b') o' sz' n', v = e.take sz) ∧
      (elems (m'.bytes b) o sz n).Perm (slice (m.bytes b) o sz :: vs) := by
  let I : Mem → Prop := fun m1 => (m1.bytes b').length = (m.bytes b').length ∧
    (elems (m.bytes b') o' sz' n').Perm (elems (m1.bytes b') o' sz' n')
  have hI : Concerns (· = b') I := by
    rintro m1 m2 h _ ⟨h1, h2⟩
    have hb' := h b' rfl
    exact ⟨by rw [hb', h1], by rw [hb']; exact h2⟩
  have hg : Leaves I st b sz (fun v => ∃ e ∈ elems (m.bytes b') o' sz' n', v = e.take sz)
      (after (insertionSortE (ptr st 0) (ptr b' o') n' sz' (compareFun cmp' sz')) cmp sz) := by
    intro p q m1 x y h1 hs hp hq hx hy
    obtain ⟨m2, g1, g2, g3, g4, g5, g6⟩ := run_ok .insertion m1 st b' o' sz' n' 0 cmp'
      (setup_congr hi h1.1 fun _ => by rw [hs, hi.2.2.2.2.1]) hst'
    have hb2 : m2.bytes b = m1.bytes b := g2 b hb fun e => hst e.1.symm
    have hc : ∃ c, compareFun cmp sz p q m2 = .ok c m2 := by
      have hl : ∀ (r : Ptr) (z : List Byte), r.blk = b ∨ r.blk = st → loadN r sz m1 = .ok z m1 →
          ∃ z', loadN r sz m2 = .ok z' m2 := by
        intro r z hr hz
        have hlen : (m2.bytes r.blk).length = (m1.bytes r.blk).length := by
          rcases hr with hr | hr
          · rw [hr, hb2]
          · rw [hr, g4]
        unfold loadN at hz ⊢
        rw [hlen]
        repeat' split at hz
        · rename_i h0
          rw [if_pos h0]; exact ⟨_, rfl⟩
        · rename_i h0 h0'
          rw [if_neg h0, if_pos h0']; exact ⟨_, rfl⟩
        · cases hz
      obtain ⟨x', hx'⟩ := hl p x hp hx
      obtain ⟨y', hy'⟩ := hl q y hq hy
      unfold compareFun
      rw [Int.toNat_natCast, C.bind_ok hx', C.bind_ok hy']
      exact ⟨_, rfl⟩
    obtain ⟨c, hc⟩ := hc
    refine ⟨c, m2, ?_, hb2, by rw [g4, hs], ⟨slice (m1.bytes b') (o' + (n' - 1) * sz') sz', ?_, ?_⟩, by rw [g3, h1.1],
      h1.2.trans g5⟩
    · unfold after
      rw [C.bind_ok (show insertionSortE (ptr st 0) (ptr b' o') n' sz' (compareFun cmp' sz') m1 = .ok () m2 from g1)]
      exact hc
    · rw [h1.2.mem_iff]
      exact List.mem_of_getElem? (elems_get (show n' - 1 < n' by omega))
    · rw [← g6 rfl hn']
      unfold slice
      rw [List.take_take, Nat.min_eq_left hle]
  obtain ⟨m', vs, f1, f2, f3, f4, -⟩ := C106_overwritten I _ (· = b') m st b o sz n _ ho hst hn hI ⟨rfl, .refl _⟩ hb hst' hg
  exact ⟨m', vs, f1, f2, f3, f4⟩

/-- C106: the static buffer keeps the element that was the last one of the array. -/
theorem C106_remains (m : Mem) (st b o sz n : Nat) (cmp : Cmp) (h : Alg.insertion.Setup m st b o sz n 0) (hst : st ≠ b)
    (hn : 2 ≤ n) :
    ∃ m', insertionSort (ptr st 0) (ptr b o) n sz cmp m = .ok () m' ∧
      slice (m'.bytes st) 0 sz = slice (m.bytes b) (o + (n - 1) * sz) sz := by
  obtain ⟨m', h1, -, -, -, -, h2⟩ := run_ok .insertion m st b o sz n 0 cmp h hst
  rw [insertionSort_eq]
  exact ⟨m', h1, h2 rfl hn⟩

/-- The array to sort in object 0, the array that the comparison function sorts in object 2, the static buffer in
object 1. -/
def nestedMem : Mem := (memI [0, 3, 1, 2, 0, 0, 0, 0]).upd 2 [0, 9, 7, 0, 0, 0]

/-- Non-vacuity, and what happens: bubble sort with insertion sort inside sorts, insertion sort with bubble sort inside
too, insertion sort inside insertion sort makes 3, 7, 9 out of 3, 1, 2. -/
example : (∀ a : Alg, a.Setup nestedMem 1 0 1 1 3 3) ∧ (∀ a : Alg, a.Setup nestedMem 1 2 1 1 2 2) ∧
    outBytes (bubbleSortE 3 (ptr 0 1) 3 1 (after (insertionSortE (ptr 1 0) (ptr 2 1) 2 1 (compareFun byFirst 1)) byFirst 1)
      nestedMem) 0 = some [0, 1, 2, 3, 0, 0, 0, 0] ∧
    outBytes (insertionSortE (ptr 1 0) (ptr 0 1) 3 1 (after (bubbleSortE 2 (ptr 2 1) 2 1 (compareFun byFirst 1)) byFirst 1)
      nestedMem) 0 = some [0, 1, 2, 3, 0, 0, 0, 0] ∧
    outBytes (insertionSortE (ptr 1 0) (ptr 0 1) 3 1
      (after (insertionSortE (ptr 1 0) (ptr 2 1) 2 1 (compareFun byFirst 1)) byFirst 1) nestedMem) 0 =
      some [0, 3, 7, 9, 0, 0, 0, 0] := by
  refine ⟨?_, ?_, by decide +kernel, by decide +kernel, by decide +kernel⟩
  · intro a
    cases a <;> unfold Alg.Setup <;> decide +kernel
  · intro a
    cases a <;> unfold Alg.Setup <;> decide +kernel

end IMU.Props
