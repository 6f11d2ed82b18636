import Verif.Proofs.SortKeys
import Verif.Props.SortNested

/-!
# Property C126: sorting by several keys in turn

Specification: `Verif/Spec/SortKeys.lean`.
-/

namespace IMU.Props
open Spec Utils IMU.Sort

/-- A run of a sort with a strict weak order. -/
theorem run_sorts (a : Alg) (m : Mem) (st b o sz n fuel : Nat) (cmp : Cmp) (hw : StrictWeak cmp)
    (h : a.Setup m st b o sz n fuel) (hst : st ≠ b) :
    ∃ m', a.run fuel (ptr st 0) (ptr b o) n sz (compareFun cmp sz) m = .ok () m' ∧
      (∀ c, c ≠ b → c ≠ st → m'.bytes c = m.bytes c) ∧
      (m'.bytes b).length = (m.bytes b).length ∧ (m'.bytes st).length = (m.bytes st).length ∧
      (elems (m.bytes b) o sz n).Perm (elems (m'.bytes b) o sz n) ∧
      Sorted cmp (elems (m'.bytes b) o sz n) ∧
      (a.stable = true → SameTies cmp (elems (m.bytes b) o sz n) (elems (m'.bytes b) o sz n)) := by
  obtain ⟨m', g1, g2, g3, g4, g5, -⟩ := run_ok a m st b o sz n fuel cmp h hst
  refine ⟨m', g1, fun c h1 h2 => g2 c h1 (fun e => h2 e.1), g3, g4, g5, ?_⟩
  obtain ⟨hsz, hn, h⟩ := h
  cases a with
  | bubble =>
    obtain ⟨h1, h2, h3, h4⟩ := h
    obtain ⟨m1, k1, -, -, k4⟩ := bubble_all m b o sz n fuel cmp ⟨hsz, hn, h1, h2⟩ h3 h4
    rw [bubbleSort_eq] at k1
    obtain rfl : m' = m1 := by
      have := g1.symm.trans k1
      injection this
    exact ⟨(k4 hw).1, fun _ => (k4 hw).2⟩
  | selection =>
    obtain ⟨h1, h2⟩ := h
    obtain ⟨m1, k1, -, -, k4, -⟩ := selection_all m b o sz n cmp ⟨hsz, hn, h1, h2⟩
    rw [selectionSort_eq] at k1
    obtain rfl : m' = m1 := by
      have := g1.symm.trans k1
      injection this
    exact ⟨k4 hw, fun e => by cases e⟩
  | insertion =>
    obtain ⟨h1, h2, h3, h4, h5⟩ := h
    obtain ⟨m1, X, k1, -, -, -, -, k6⟩ := (insertion_all m st b o sz n cmp ⟨hsz, hn, h1, h2⟩ hst h3 h4).1 (.inl h5)
    rw [insertionSort_eq] at k1
    obtain rfl : m' = m1 := by
      have := g1.symm.trans k1
      injection this
    exact ⟨(k6 hw).1, fun _ => (k6 hw).2⟩
  | heap =>
    obtain ⟨h1, h2, h3, h4⟩ := h
    obtain ⟨m1, k1, -, -, k4⟩ := heap_all m b o sz n fuel cmp ⟨hsz, h1, h2, h3⟩ h4
    rw [heapSort_eq] at k1
    obtain rfl : m' = m1 := by
      have := g1.symm.trans k1
      injection this
    exact ⟨k4 hw, fun e => by cases e⟩

/-- The passes, from an array that is sorted by `gts` already. -/
theorem passes_ok (st b o sz n fuel : Nat) (hst : st ≠ b) :
    ∀ (l : List (Alg × Cmp)) (m : Mem) (gts : List Cmp),
      (∀ p ∈ l, p.1.stable = true ∧ StrictWeak p.2 ∧ p.1.Setup m st b o sz n fuel) →
      Sorted (lexAll gts) (elems (m.bytes b) o sz n) →
      ∃ m', passes fuel (ptr st 0) (ptr b o) n sz l m = .ok () m' ∧
        (∀ c, c ≠ b → c ≠ st → m'.bytes c = m.bytes c) ∧
        (elems (m.bytes b) o sz n).Perm (elems (m'.bytes b) o sz n) ∧
        Sorted (lexAll ((l.map Prod.snd).reverse ++ gts)) (elems (m'.bytes b) o sz n) ∧
        ∀ L0, SameTies (lexAll gts) L0 (elems (m.bytes b) o sz n) →
          SameTies (lexAll ((l.map Prod.snd).reverse ++ gts)) L0 (elems (m'.bytes b) o sz n)
  | [], m, gts, _, hs => ⟨m, rfl, fun _ _ _ => rfl, .refl _, by simpa using hs, fun L0 h => by simpa using h⟩
  | (a, cmp) :: l, m, gts, h, hs => by
    obtain ⟨ha, hw, hset⟩ := h (a, cmp) (by simp)
    obtain ⟨m1, g1, g2, g3, g4, g5, g6, g7⟩ := run_sorts a m st b o sz n fuel cmp hw hset hst
    have hs1 := sorted_lexAll hw hs g6 (g7 ha)
    obtain ⟨m', k1, k2, k3, k4, k5⟩ := passes_ok st b o sz n fuel hst l m1 (cmp :: gts) (fun p hp => by
      obtain ⟨q1, q2, q3⟩ := h p (by simp [hp])
      exact ⟨q1, q2, setup_congr q3 g3 (fun _ => g4)⟩) hs1
    refine ⟨m', ?_, fun c h1 h2 => (k2 c h1 h2).trans (g2 c h1 h2), g5.trans k3, ?_, ?_⟩
    · rw [passes, C.bind_ok g1, k1]
    · simpa using k4
    · intro L0 hL
      have := k5 L0 (sameTies_lexAll hL (g7 ha))
      simpa using this

/-- C126: an array sorted by several keys in turn, the least significant one first, with bubble or insertion sort, is
sorted by all keys, the last one being the most significant; elements tied by every key keep their order. -/
theorem C126_stable (l : List (Alg × Cmp)) (m : Mem) (st b o sz n fuel : Nat) (hst : st ≠ b)
    (h : ∀ p ∈ l, p.1.stable = true ∧ StrictWeak p.2 ∧ p.1.Setup m st b o sz n fuel) :
    ∃ m', passes fuel (ptr st 0) (ptr b o) n sz l m = .ok () m' ∧
      Sorted (lexAll (l.map Prod.snd).reverse) (elems (m'.bytes b) o sz n) ∧
      SameTies (lexAll (l.map Prod.snd).reverse) (elems (m.bytes b) o sz n) (elems (m'.bytes b) o sz n) ∧
      (elems (m.bytes b) o sz n).Perm (elems (m'.bytes b) o sz n) ∧
      (∀ c, c ≠ b → c ≠ st → m'.bytes c = m.bytes c) := by
  obtain ⟨m', h1, h2, h3, h4, h5⟩ := passes_ok st b o sz n fuel hst l m [] h (by
    rw [Sorted, List.pairwise_iff_forall_sublist]; intros; rfl)
  refine ⟨m', h1, by simpa using h4, ?_, h3, h2⟩
  have := h5 _ (fun _ => rfl)
  simpa using this

/-- C126: the first pass may be any sort; only the ties are lost. -/
theorem C126_first_any (a : Alg) (cmp : Cmp) (hw : StrictWeak cmp) (l : List (Alg × Cmp)) (m : Mem)
    (st b o sz n fuel : Nat) (hst : st ≠ b) (ha : a.Setup m st b o sz n fuel)
    (h : ∀ p ∈ l, p.1.stable = true ∧ StrictWeak p.2 ∧ p.1.Setup m st b o sz n fuel) :
    ∃ m', passes fuel (ptr st 0) (ptr b o) n sz ((a, cmp) :: l) m = .ok () m' ∧
      Sorted (lexAll (((a, cmp) :: l).map Prod.snd).reverse) (elems (m'.bytes b) o sz n) ∧
      (elems (m.bytes b) o sz n).Perm (elems (m'.bytes b) o sz n) := by
  obtain ⟨m1, g1, g2, g3, g4, g5, g6, -⟩ := run_sorts a m st b o sz n fuel cmp hw ha hst
  have hs1 : Sorted (lexAll [cmp]) (elems (m1.bytes b) o sz n) := by
    have e : lexAll [cmp] = cmp := by
      funext x y
      simp [lexAll]
    rw [e]
    exact g6
  obtain ⟨m', k1, k2, k3, k4, -⟩ := passes_ok st b o sz n fuel hst l m1 [cmp] (fun p hp => by
    obtain ⟨q1, q2, q3⟩ := h p hp
    exact ⟨q1, q2, setup_congr q3 g3 (fun _ => g4)⟩) hs1
  refine ⟨m', ?_, by simpa using k4, g5.trans k3⟩
  rw [passes, C.bind_ok g1, k1]

/-- C126: the passes leave the same array as one stable sort with the combined comparison function. -/
theorem C126_once (l : List (Alg × Cmp)) (a : Alg) (m : Mem) (st b o sz n fuel : Nat) (hst : st ≠ b)
    (h : ∀ p ∈ l, p.1.stable = true ∧ StrictWeak p.2 ∧ p.1.Setup m st b o sz n fuel)
    (ha : a.stable = true) (has : a.Setup m st b o sz n fuel) :
    ∃ m1 m2, passes fuel (ptr st 0) (ptr b o) n sz l m = .ok () m1 ∧
      a.run fuel (ptr st 0) (ptr b o) n sz (compareFun (lexAll (l.map Prod.snd).reverse) sz) m = .ok () m2 ∧
      elems (m1.bytes b) o sz n = elems (m2.bytes b) o sz n := by
  have hw : StrictWeak (lexAll (l.map Prod.snd).reverse) := lexAll_strictWeak _ (by
    intro g hg
    simp only [List.mem_reverse, List.mem_map] at hg
    obtain ⟨p, hp, rfl⟩ := hg
    exact (h p hp).2.1)
  obtain ⟨m1, h1, h2, h3, -, -⟩ := C126_stable l m st b o sz n fuel hst h
  obtain ⟨m2, g1, -, -, -, -, g6, g7⟩ := run_sorts a m st b o sz n fuel _ hw has hst
  exact ⟨m1, m2, h1, g1, sorted_ties_unique hw _ _ h2 g6 (fun x => (h3 x).symm.trans (g7 ha x))⟩

/-- A comparator by the second byte. -/
def bySecond : Cmp := fun a b => byFirst (a.drop 1) (b.drop 1)

theorem bySecond_strictWeak : StrictWeak bySecond :=
  ⟨fun _ _ h => byFirst_strictWeak.asymm _ _ h, fun _ _ _ h1 h2 => byFirst_strictWeak.negTrans _ _ _ h1 h2⟩

/-- C126: with selection sort or heap sort as a later pass the order by the earlier key is lost. -/
theorem C126_unstable :
    (∃ m', passes 4 (ptr 1 0) (ptr 0 0) 3 2 [(.bubble, bySecond), (.selection, byFirst)] (mem1 [2, 0, 2, 1, 1, 5]) =
        .ok () m' ∧ m'.bytes 0 = [1, 5, 2, 1, 2, 0] ∧
        ¬ Sorted (lexAll [byFirst, bySecond]) (elems (m'.bytes 0) 0 2 3)) ∧
    (∃ m', passes 4 (ptr 1 0) (ptr 0 0) 2 2 [(.bubble, bySecond), (.heap, byFirst)]
        (mem1 [2, 0, 2, 1, 0, 0, 0, 0, 0, 0]) = .ok () m' ∧ m'.bytes 0 = [2, 1, 2, 0, 0, 0, 0, 0, 0, 0] ∧
        ¬ Sorted (lexAll [byFirst, bySecond]) (elems (m'.bytes 0) 0 2 2)) := by
  refine ⟨⟨_, rfl, by decide, ?_⟩, ⟨_, rfl, by decide, ?_⟩⟩ <;>
  · simp only [Sorted]
    decide

/-- Non-vacuity: records sorted by their second byte and then by their first one. -/
example : (∀ p ∈ [(Alg.bubble, bySecond), (Alg.bubble, byFirst)], p.1.stable = true ∧ StrictWeak p.2 ∧
      p.1.Setup (mem1 [2, 9, 1, 7, 2, 3, 1, 8]) 1 0 0 2 4 4) ∧
    outBytes (passes 4 (ptr 1 0) (ptr 0 0) 4 2 [(.bubble, bySecond), (.bubble, byFirst)] (mem1 [2, 9, 1, 7, 2, 3, 1, 8])) 0 =
      some [1, 7, 1, 8, 2, 3, 2, 9] := by
  refine ⟨?_, by decide +kernel⟩
  intro p hp
  simp only [List.mem_cons, List.not_mem_nil, or_false] at hp
  rcases hp with rfl | rfl
  · exact ⟨rfl, bySecond_strictWeak, by decide, by decide, by decide, by decide, by decide, by decide⟩
  · exact ⟨rfl, byFirst_strictWeak, by decide, by decide, by decide, by decide, by decide, by decide⟩

end IMU.Props
