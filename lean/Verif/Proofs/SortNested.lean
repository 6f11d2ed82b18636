import Verif.Proofs.SortEffects
import Verif.Spec.SortNested

/-!
# Insertion sort with a comparison function that overwrites the static buffer
-/

namespace IMU.Sort
open Utils Spec

/-- What holds between two steps. -/
structure NState (I : Mem → Prop) (st b o sz : Nat) (m : Mem) (l : List (List Byte)) : Prop where
  elems_eq : elems (m.bytes b) o sz l.length = l
  room : o + l.length * sz ≤ (m.bytes b).length
  st64 : (m.bytes st).length = 64
  inv : I m

section
variable {I : Mem → Prop} {P : Nat → Prop} {st b o sz : Nat} {m : Mem} {l : List (List Byte)}

theorem NState.fits (h : NState I st b o sz m l) : Fits m b o sz l := by
  have := elems_fits (sz := sz) (n := l.length) h.room
  rw [h.elems_eq] at this
  exact this

theorem NState.arr_eq (h : NState I st b o sz m l) : arr m b o l = m := by
  have := arr_elems (sz := sz) (n := l.length) h.room
  rw [h.elems_eq] at this
  exact this

theorem NState.arr (h : NState I st b o sz m l) (hI : Concerns P I) (hP : ¬ P b) (hst : st ≠ b) {l' : List (List Byte)}
    (hf : Fits m b o sz l') (hl : l'.length = l.length) : NState I st b o sz (arr m b o l') l' := by
  refine ⟨?_, by rw [arr_length hf]; exact hf.room, by rw [arr_length hf]; exact h.st64, hI m _ ?_ rfl h.inv⟩
  · rw [elems_arr hf _ (Nat.le_refl _), List.take_length]
  · intro c hc
    simp only [IMU.arr, Mem.upd_bytes]
    rw [if_neg]
    rintro rfl
    exact hP hc

/-- Copying within the array. -/
theorem NState.copy (h : NState I st b o sz m l) (hI : Concerns P I) (hP : ¬ P b) (hst : st ≠ b) (h64 : sz ≤ 64)
    {i j : Nat} {x : List Byte} (hi : i < l.length) (hij : i ≠ j) (hx : l[j]? = some x) :
    ∃ m', memcpy (ptr b (o + i * sz)) (ptr b (o + j * sz)) sz m = .ok () m' ∧ NState I st b o sz m' (l.set i x) ∧
      m'.bytes st = m.bytes st := by
  have hf : IFits m st b o sz (m.bytes st) l := ⟨h.fits, hst, by rw [h.st64]; exact h64⟩
  have h1 := elem_memcpy hf hi hij hx
  have hxl : x.length = sz := by
    obtain ⟨hj, hxe⟩ := List.getElem?_eq_some_iff.mp hx
    rw [← hxe]; exact h.fits.chunks _ (List.getElem_mem hj)
  have e : imem m st b o (m.bytes st) l = m := by rw [imem, Mem.upd_self, h.arr_eq]
  rw [e] at h1
  refine ⟨_, h1, ?_, ?_⟩
  · rw [imem, Mem.upd_self]
    exact h.arr hI hP hst (h.fits.set hxl) (by simp)
  · rw [imem_st (hf.set hxl)]

/-- Copying from the static buffer into the array. -/
theorem NState.put (h : NState I st b o sz m l) (hI : Concerns P I) (hP : ¬ P b) (hst : st ≠ b) (h64 : sz ≤ 64)
    {i : Nat} (hi : i < l.length) :
    ∃ m', memcpy (ptr b (o + i * sz)) (ptr st 0) sz m = .ok () m' ∧
      NState I st b o sz m' (l.set i (slice (m.bytes st) 0 sz)) := by
  have hf : IFits m st b o sz (m.bytes st) l := ⟨h.fits, hst, by rw [h.st64]; exact h64⟩
  have h1 := st_to_elem hf hi rfl
  have e : imem m st b o (m.bytes st) l = m := by rw [imem, Mem.upd_self, h.arr_eq]
  rw [e, imem, Mem.upd_self] at h1
  exact ⟨_, h1, h.arr hI hP hst (h.fits.set (slice_length _ _ _ (by rw [h.st64]; omega))) (by simp)⟩

/-- Copying from the array into the static buffer. -/
theorem NState.take (h : NState I st b o sz m l) (hI : Concerns P I) (hP : ¬ P st) (hst : st ≠ b) (h64 : sz ≤ 64)
    {i : Nat} (hi : i < l.length) :
    ∃ m', memcpy (ptr st 0) (ptr b (o + i * sz)) sz m = .ok () m' ∧ NState I st b o sz m' l := by
  have hf : IFits m st b o sz (m.bytes st) l := ⟨h.fits, hst, by rw [h.st64]; exact h64⟩
  have hx : l[i]? = some l[i] := List.getElem?_eq_getElem hi
  have hxl : l[i].length = sz := h.fits.chunks _ (List.getElem_mem hi)
  have h1 := elem_to_st hf hx
  have e : imem m st b o (m.bytes st) l = m := by rw [imem, Mem.upd_self, h.arr_eq]
  rw [e] at h1
  have hsp : (splice (m.bytes st) 0 l[i]).length = 64 := by
    rw [splice_length _ _ _ (by rw [h.st64]; omega), h.st64]
  have e2 : imem m st b o (splice (m.bytes st) 0 l[i]) l = m.upd st (splice (m.bytes st) 0 l[i]) := by
    unfold imem
    have hb : (m.upd st (splice (m.bytes st) 0 l[i])).bytes b = m.bytes b := by
      rw [Mem.upd_bytes, if_neg (Ne.symm hst)]
    have := arr_elems (m := m.upd st (splice (m.bytes st) 0 l[i])) (b := b) (o := o) (sz := sz) (n := l.length)
      (by rw [hb]; exact h.room)
    rw [hb, h.elems_eq] at this
    exact this
  rw [e2] at h1
  refine ⟨_, h1, ⟨?_, ?_, ?_, hI m _ (fun c hc => ?_) rfl h.inv⟩⟩
  · rw [Mem.upd_bytes, if_neg (Ne.symm hst)]; exact h.elems_eq
  · rw [Mem.upd_bytes, if_neg (Ne.symm hst)]; exact h.room
  · rw [Mem.upd_bytes, if_pos rfl]; exact hsp
  · rw [Mem.upd_bytes, if_neg]
    rintro rfl
    exact hP hc

/-- A call of the comparison function with a readable element of the object. -/
theorem NState.call {V : List Byte → Prop} {g : CmpFun} (h : NState I st b o sz m l) (hg : Leaves I st b sz V g)
    (h64 : sz ≤ 64) {a : Nat} (ha : a + sz ≤ (m.bytes b).length) :
    ∃ c m', g (ptr b a) (ptr st 0) m = .ok c m' ∧ NState I st b o sz m' l ∧ V (slice (m'.bytes st) 0 sz) := by
  obtain ⟨c, m', h1, h2, h3, h4, h5⟩ := hg (ptr b a) (ptr st 0) m _ _ h.inv h.st64 (.inl rfl) (.inr rfl) (loadN_ok ha)
    (loadN_ok (by rw [h.st64]; omega))
  exact ⟨c, m', h1, ⟨by rw [h2]; exact h.elems_eq, by rw [h2]; exact h.room, h3, h5⟩, h4⟩

end

variable {I : Mem → Prop} {P : Nat → Prop} {st b o sz : Nat} {g : CmpFun}

theorem nested_shift {V : List Byte → Prop} (hg : Leaves I st b sz V g) (hI : Concerns P I) (hPb : ¬ P b) (hst : st ≠ b)
    (h64 : sz ≤ 64) (ho : sz ≤ o) (k : Nat) : ∀ (A : List (List Byte)) (h : List Byte) (R : List (List Byte)) (c : Bool) (m : Mem),
    A.length = k → NState I st b o sz m (A ++ h :: R) → ((A ++ h :: R).length - 1) * sz < 2 ^ 31 →
    V (slice (m.bytes st) 0 sz) →
    ∃ A1 B h' m', insertionShiftE g (ptr b o) sz (ptr st 0) k c m = .ok A1.length m' ∧ A = A1 ++ B ∧
      NState I st b o sz m' (A1 ++ h' :: (B ++ R)) ∧ V (slice (m'.bytes st) 0 sz) := by
  induction k with
  | zero =>
    intro A h R c m hA hs hlim hv
    have hA0 : A = [] := List.eq_nil_of_length_eq_zero hA
    subst hA0
    exact ⟨[], [], h, m, rfl, rfl, hs, hv⟩
  | succ k ih =>
    intro A h R c m hA hs hlim hv
    have hne : A ≠ [] := by intro h0; rw [h0] at hA; simp at hA
    obtain ⟨A', a, rfl⟩ : ∃ A' a, A = A' ++ [a] := ⟨A.dropLast, A.getLast hne, (List.dropLast_concat_getLast hne).symm⟩
    have hA' : A'.length = k := by simpa using hA
    simp only [insertionShiftE]
    cases c with
    | false =>
      exact ⟨A' ++ [a], [], h, m, by rw [hA]; rfl, by simp, hs, hv⟩
    | true =>
      simp only [if_true]
      have hlen : (A' ++ [a] ++ h :: R).length = k + 1 + 1 + R.length := by simp; omega
      have l0 := mul_lim hlim (k := k) (by omega)
      have l1 := mul_lim hlim (k := k + 1) (by omega)
      have g0 : (A' ++ [a] ++ h :: R)[k]? = some a := by
        rw [List.append_assoc, List.getElem?_append_right (by omega), hA']; simp
      have hset : (A' ++ [a] ++ h :: R).set (k + 1) a = A' ++ a :: (a :: R) := by
        rw [List.append_assoc, List.set_append, if_neg (by omega), hA']
        simp
      have e1 : ((k : Int) + 1) = ((k + 1 : Nat) : Int) := by simp
      have hsz : sz < 2 ^ 31 := by omega
      obtain ⟨m1, c1, c2, c3⟩ := hs.copy hI hPb hst h64 (i := k + 1) (j := k) (by omega) (by omega) g0
      rw [hset] at c2
      rw [e1, C.bind_ok (elemAt_ok l1 _), C.bind_ok (elemAt_ok l0 _), szt_eq hsz, C.bind_ok c1]
      have hlen' : (A' ++ a :: (a :: R)).length = (A' ++ [a] ++ h :: R).length := by simp
      have hread : ∃ pos, elemAt (ptr b o) sz ((k : Int) - 1) m1 = .ok (ptr b pos) m1 ∧ pos + sz ≤ (m1.bytes b).length := by
        cases k with
        | zero =>
          refine ⟨o - sz, ?_, ?_⟩
          · have := elemAt_m1 (b := b) (o := o) hsz m1
            rw [this]
            congr 1
            simp only [ptr, Ptr.mk.injEq, true_and]; omega
          · have := elem_room c2.fits (k := 0) (by simp); omega
        | succ k =>
          have e2 : (((k + 1 : Nat) : Int) - 1) = ((k : Nat) : Int) := by omega
          rw [e2]
          exact ⟨_, elemAt_ok (mul_lim hlim (by omega)) _, elem_room c2.fits (by rw [hlen']; omega)⟩
      obtain ⟨pos, p1, p2⟩ := hread
      rw [C.bind_ok p1]
      obtain ⟨c', m2, d1, d2, d3⟩ := c2.call hg h64 p2
      rw [C.bind_ok d1]
      obtain ⟨A1, B, h', m', i1, i2, i3, i4⟩ := ih A' a (a :: R) c' m2 hA' d2 (by rw [hlen']; exact hlim) d3
      exact ⟨A1, B ++ [a], h', m', i1, by rw [i2]; simp, by simpa using i3, i4⟩

theorem nested_loop {V : List Byte → Prop} (hg : Leaves I st b sz V g) (hI : Concerns P I) (hPb : ¬ P b) (hPst : ¬ P st)
    (hst : st ≠ b) (h64 : sz ≤ 64) (ho : sz ≤ o) (R : List (List Byte)) : ∀ (L : List (List Byte)) (m : Mem), L ≠ [] →
    NState I st b o sz m (L ++ R) → ((L ++ R).length - 1) * sz < 2 ^ 31 →
    ∃ l vs m', forN R.length L.length (fun (i : Nat) (_ : Unit) => (do
        let p ← elemAt (ptr b o) sz i
        memcpy (ptr st 0) p (szt sz)
        let q ← elemAt (ptr b o) sz ((i : Int) - 1)
        let compare ← g q (ptr st 0)
        let k ← insertionShiftE g (ptr b o) sz (ptr st 0) i compare
        let dst ← elemAt (ptr b o) sz k
        memcpy dst (ptr st 0) (szt sz) : C Unit)) () m = .ok () m' ∧
      NState I st b o sz m' l ∧ vs.length = R.length ∧ (∀ v ∈ vs, V v) ∧ (L ++ vs).Perm l := by
  induction R with
  | nil =>
    intro L m hL hs hlim
    exact ⟨L, [], m, rfl, by simpa using hs, rfl, by simp, by simp⟩
  | cons e R ih =>
    intro L m hL hs hlim
    have hsz : sz < 2 ^ 31 := by omega
    have hlen : (L ++ e :: R).length = L.length + 1 + R.length := by simp; omega
    have hLl : 0 < L.length := List.length_pos_iff.mpr hL
    have e2 : ((L.length : Int) - 1) = ((L.length - 1 : Nat) : Int) := by omega
    obtain ⟨m1, a1, a2⟩ := hs.take hI hPst hst h64 (i := L.length) (by omega)
    obtain ⟨c, m2, b1, b2, b3⟩ := a2.call hg h64 (a := o + (L.length - 1) * sz) (elem_room a2.fits (by omega))
    obtain ⟨A1, B, h', m3, d1, d2, d3, d4⟩ := nested_shift hg hI hPb hst h64 ho L.length L e R c m2 rfl b2 hlim b3
    have hl3 : (A1 ++ h' :: (B ++ R)).length = (L ++ e :: R).length := by rw [d2]; simp; omega
    have hA1 : A1.length < (A1 ++ h' :: (B ++ R)).length := by simp
    obtain ⟨m4, f1, f2⟩ := d3.put hI hPb hst h64 hA1
    have hset : (A1 ++ h' :: (B ++ R)).set A1.length (slice (m3.bytes st) 0 sz) =
        (A1 ++ slice (m3.bytes st) 0 sz :: B) ++ R := by
      rw [List.set_append, if_neg (by omega)]; simp
    rw [hset] at f2
    have hl4 : (A1 ++ slice (m3.bytes st) 0 sz :: B).length = L.length + 1 := by rw [d2]; simp; omega
    obtain ⟨l, vs, m5, g1, g2, g3, g4, g5⟩ := ih (A1 ++ slice (m3.bytes st) 0 sz :: B) m4 (by simp) f2
      (by rw [List.length_append, hl4]; rw [hlen] at hlim; exact hlim)
    refine ⟨l, slice (m3.bytes st) 0 sz :: vs, m5, ?_, g2, by simp [g3], ?_, ?_⟩
    · simp only [List.length_cons, forN]
      rw [hl4] at g1
      rw [C.bind_run, C.bind_ok (elemAt_ok (mul_lim hlim (by omega)) _), szt_eq hsz, C.bind_ok a1, e2,
        C.bind_ok (elemAt_ok (mul_lim hlim (by omega)) _), C.bind_ok b1, C.bind_ok d1,
        C.bind_ok (elemAt_ok (mul_lim hlim (by omega)) _), f1]
      rw [szt_eq hsz] at g1
      exact g1
    · intro v hv
      rcases List.mem_cons.mp hv with rfl | hv
      · exact d4
      · exact g4 v hv
    · refine List.Perm.trans ?_ g5
      rw [d2]
      simp only [List.append_assoc, List.cons_append]
      exact List.Perm.append_left A1 (List.perm_middle)

end IMU.Sort
