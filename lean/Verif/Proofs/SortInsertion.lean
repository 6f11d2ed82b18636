import Verif.Proofs.SortBubble

namespace IMU.Sort
open Spec Utils

/-- The memory during insertion sort: array `l`, contents `X` of the static object `st`. -/
def imem (m0 : Mem) (st b o : Nat) (X : List Byte) (l : List (List Byte)) : Mem := arr (m0.upd st X) b o l

structure IFits (m0 : Mem) (st b o sz : Nat) (X : List Byte) (l : List (List Byte)) : Prop where
  fits : Fits m0 b o sz l
  apart : st ≠ b
  room : sz ≤ X.length

theorem IFits.fits' {m0 : Mem} {st b o sz : Nat} {X : List Byte} {l : List (List Byte)}
    (h : IFits m0 st b o sz X l) : Fits (m0.upd st X) b o sz l :=
  ⟨h.fits.chunks, by rw [Mem.upd_bytes, if_neg (Ne.symm h.apart)]; exact h.fits.room⟩

theorem imem_st {m0 : Mem} {st b o sz : Nat} {X : List Byte} {l : List (List Byte)}
    (h : IFits m0 st b o sz X l) : (imem m0 st b o X l).bytes st = X := by
  simp [imem, arr, h.apart]

theorem imem_b_length {m0 : Mem} {st b o sz : Nat} {X : List Byte} {l : List (List Byte)}
    (h : IFits m0 st b o sz X l) : ((imem m0 st b o X l).bytes b).length = (m0.bytes b).length := by
  rw [imem, arr_length h.fits', Mem.upd_bytes, if_neg (Ne.symm h.apart)]

theorem elem_memcpy {m0 : Mem} {st b o sz : Nat} {X : List Byte} {l : List (List Byte)}
    (h : IFits m0 st b o sz X l) {i j : Nat} {x : List Byte} (hi : i < l.length) (hij : i ≠ j)
    (hx : l[j]? = some x) :
    memcpy (ptr b (o + i * sz)) (ptr b (o + j * sz)) sz (imem m0 st b o X l) =
      .ok () (imem m0 st b o X (l.set i x)) := by
  obtain ⟨hj, hxe⟩ := List.getElem?_eq_some_iff.mp hx
  have hxl : x.length = sz := by rw [← hxe]; exact h.fits.chunks _ (List.getElem_mem hj)
  unfold imem
  rw [memcpy_ok (by rw [arr_length h.fits']; exact elem_room h.fits' hi)
    (by rw [arr_length h.fits']; exact elem_room h.fits' hj), arr_slice h.fits' hx, arr_set h.fits' hi hxl]
  right
  rcases Nat.lt_trichotomy i j with hlt | heq | hgt
  · left
    have : i * sz + sz ≤ j * sz := by rw [← Nat.succ_mul]; exact Nat.mul_le_mul_right _ hlt
    omega
  · exact absurd heq hij
  · right
    have : j * sz + sz ≤ i * sz := by rw [← Nat.succ_mul]; exact Nat.mul_le_mul_right _ hgt
    omega

theorem st_to_elem {m0 : Mem} {st b o sz : Nat} {X : List Byte} {l : List (List Byte)}
    (h : IFits m0 st b o sz X l) {i : Nat} (hi : i < l.length) {e : List Byte} (he : slice X 0 sz = e) :
    memcpy (ptr b (o + i * sz)) (ptr st 0) sz (imem m0 st b o X l) = .ok () (imem m0 st b o X (l.set i e)) := by
  have hel : e.length = sz := by rw [← he]; exact slice_length _ _ _ (by have := h.room; omega)
  rw [memcpy_ok (by rw [imem_b_length h]; exact elem_room h.fits hi)
    (by rw [imem_st h]; have := h.room; omega) (.inl (Ne.symm h.apart)), imem_st h, he]
  unfold imem
  rw [arr_set h.fits' hi hel]

theorem elem_to_st {m0 : Mem} {st b o sz : Nat} {X : List Byte} {l : List (List Byte)}
    (h : IFits m0 st b o sz X l) {i : Nat} {e : List Byte} (hi : l[i]? = some e) :
    memcpy (ptr st 0) (ptr b (o + i * sz)) sz (imem m0 st b o X l) =
      .ok () (imem m0 st b o (splice X 0 e) l) := by
  obtain ⟨hil, hxe⟩ := List.getElem?_eq_some_iff.mp hi
  have hr := h.room
  rw [memcpy_ok (by rw [imem_st h]; omega) (by rw [imem_b_length h]; exact elem_room h.fits hil) (.inl h.apart),
    imem_st h]
  unfold imem
  rw [arr_slice h.fits' hi]
  unfold arr
  rw [Mem.upd_comm _ (Ne.symm h.apart), Mem.upd_upd]
  simp [Ne.symm h.apart]

theorem st_load {m0 : Mem} {st b o sz : Nat} {X : List Byte} {l : List (List Byte)}
    (h : IFits m0 st b o sz X l) {e : List Byte} (he : slice X 0 sz = e) :
    loadN (ptr st 0) sz (imem m0 st b o X l) = .ok e (imem m0 st b o X l) := by
  rw [loadN_ok (by rw [imem_st h]; have := h.room; omega), imem_st h, he]

theorem compare_st {m0 : Mem} {st b o sz : Nat} {X : List Byte} {l : List (List Byte)} (gt : Cmp)
    (h : IFits m0 st b o sz X l) {i : Nat} {a e : List Byte} (he : slice X 0 sz = e) (hi : l[i]? = some a) :
    compareFun gt (sz : Int) (ptr b (o + i * sz)) (ptr st 0) (imem m0 st b o X l) =
      .ok (gt a e) (imem m0 st b o X l) := by
  unfold compareFun
  rw [Int.toNat_natCast]
  have h1 : loadN (ptr b (o + i * sz)) sz (imem m0 st b o X l) = .ok a (imem m0 st b o X l) := arr_loadN h.fits' hi
  rw [C.bind_ok h1, C.bind_ok (st_load h he)]
  rfl

theorem IFits.set {m0 : Mem} {st b o sz : Nat} {X : List Byte} {l : List (List Byte)}
    (h : IFits m0 st b o sz X l) {k : Nat} {x : List Byte} (hx : x.length = sz) :
    IFits m0 st b o sz X (l.set k x) := ⟨h.fits.set hx, h.apart, h.room⟩

theorem elemAt_m1 {b o sz : Nat} (hsz : sz < 2 ^ 31) (m : Mem) :
    elemAt (ptr b o) sz ((0 : Nat) - 1 : Int) m = .ok ⟨b, (o : Int) - sz⟩ m := by
  have e : (((0 : Nat) : Int) - 1) * (sz : Int) = -(sz : Int) := by simp
  unfold elemAt
  rw [e, C.bind_ok (i32_ok (by omega) (by omega) m), C.pure_run]
  simp only [Ptr.addZ, Int.sub_eq_add_neg]

/-- The inner loop; `h` is the element in the gap. -/
theorem shift_run (gt : Cmp) {m0 : Mem} {st b o sz : Nat} {X e : List Byte} (hsz : sz < 2 ^ 31)
    (he : slice X 0 sz = e) (n : Nat) : ∀ (A : List (List Byte)) (h : List Byte) (R : List (List Byte)) (c0 : Bool),
    A.length = n → IFits m0 st b o sz X (A ++ h :: R) → ((A ++ h :: R).length - 1) * sz < 2 ^ 31 →
    (∀ a, A.getLast? = some a → c0 = gt a e) →
    ((sz ≤ o ∨ A = [] ∨ ¬ ∀ a ∈ A, gt a e = true) →
      ∃ A1 B h', insertionShift gt (ptr b o) sz (ptr st 0) n c0 (imem m0 st b o X (A ++ h :: R)) =
          .ok A1.length (imem m0 st b o X (A1 ++ h' :: (B ++ R))) ∧ A = A1 ++ B ∧ h'.length = sz ∧
        (∀ x ∈ B, gt x e = true) ∧ (∀ a, A1.getLast? = some a → gt a e = false)) ∧
    (o < sz → A ≠ [] → (∀ a ∈ A, gt a e = true) →
      insertionShift gt (ptr b o) sz (ptr st 0) n c0 (imem m0 st b o X (A ++ h :: R)) = .ub .oobRead) := by
  induction n with
  | zero =>
    intro A h R c0 hA hf hlim hc
    have hA0 : A = [] := List.eq_nil_of_length_eq_zero hA
    subst hA0
    refine ⟨fun _ => ⟨[], [], h, rfl, rfl, hf.fits.chunks h (by simp), by simp, by simp⟩, ?_⟩
    intro _ h1; exact absurd rfl h1
  | succ n ih =>
    intro A h R c0 hA hf hlim hc
    have hne : A ≠ [] := by intro h0; rw [h0] at hA; simp at hA
    obtain ⟨A', a, rfl⟩ : ∃ A' a, A = A' ++ [a] := ⟨A.dropLast, A.getLast hne, (List.dropLast_concat_getLast hne).symm⟩
    have hA' : A'.length = n := by simpa using hA
    have hc0 : c0 = gt a e := hc a (by simp)
    have hal : a.length = sz := hf.fits.chunks a (by simp)
    have hhl : h.length = sz := hf.fits.chunks h (by simp)
    unfold insertionShift
    cases hgt : c0 with
    | false =>
      simp only [Bool.false_eq_true, if_false, C.pure_run]
      rw [hgt] at hc0
      refine ⟨fun _ => ⟨A' ++ [a], [], h, by rw [hA, List.nil_append], by simp, hhl, by simp, ?_⟩, ?_⟩
      · intro x hx
        simp only [List.getLast?_append, List.getLast?_singleton, Option.some_or, Option.some.injEq] at hx
        rw [← hx]; exact hc0.symm
      · intro _ _ hall
        have := hall a (by simp)
        rw [← hc0] at this
        exact absurd this (by simp)
    | true =>
      rw [hgt] at hc0
      simp only [if_true]
      have hlen : (A' ++ [a] ++ h :: R).length = n + 1 + 1 + R.length := by simp; omega
      have l0 := mul_lim hlim (k := n) (by omega)
      have l1 := mul_lim hlim (k := n + 1) (by omega)
      have g0 : (A' ++ [a] ++ h :: R)[n]? = some a := by
        rw [List.append_assoc, List.getElem?_append_right (by omega), hA']; simp
      have e1 : ((n : Int) + 1) = ((n + 1 : Nat) : Int) := by simp
      have hset : (A' ++ [a] ++ h :: R).set (n + 1) a = A' ++ a :: (a :: R) := by
        rw [List.append_assoc, List.set_append, if_neg (by omega), hA']
        simp
      rw [e1, C.bind_ok (elemAt_ok l1 _), C.bind_ok (elemAt_ok l0 _), szt_eq hsz,
        C.bind_ok (elem_memcpy hf (i := n + 1) (j := n) (by omega) (by omega) g0), hset]
      have hf' : IFits m0 st b o sz X (A' ++ a :: (a :: R)) := by
        have := hf.set (k := n + 1) hal
        rw [hset] at this; exact this
      have hlen' : (A' ++ a :: (a :: R)).length = (A' ++ [a] ++ h :: R).length := by simp
      cases n with
      | zero =>
        have hA0 : A' = [] := List.eq_nil_of_length_eq_zero hA'
        subst hA0
        rw [C.bind_ok (elemAt_m1 hsz _)]
        constructor
        · intro hr
          rcases hr with hr | hr | hr
          · have hread : ∃ c, compareFun gt (sz : Int) ⟨b, (o : Int) - sz⟩ (ptr st 0)
                (imem m0 st b o X ([] ++ a :: a :: R)) = .ok c (imem m0 st b o X ([] ++ a :: a :: R)) := by
              have ep : (⟨b, (o : Int) - sz⟩ : Ptr) = ptr b (o - sz) := by
                simp only [ptr, Ptr.mk.injEq, true_and]; omega
              have hroom := elem_room hf'.fits (k := 0) (by simp)
              unfold compareFun
              rw [ep, Int.toNat_natCast, C.bind_ok (loadN_ok (by rw [imem_b_length hf']; omega)),
                C.bind_ok (st_load hf' he)]
              exact ⟨_, rfl⟩
            obtain ⟨c, hcr⟩ := hread
            rw [C.bind_ok hcr]
            unfold insertionShift
            rw [C.pure_run]
            refine ⟨[], [a], a, rfl, rfl, hal, ?_, by simp⟩
            intro x hx; rw [List.mem_singleton.mp hx]; exact hc0.symm
          · simp at hr
          · exfalso; apply hr
            intro x hx
            have : x = a := by simpa using hx
            rw [this]; exact hc0.symm
        · intro ho _ _
          unfold compareFun
          have hneg : loadN ⟨b, (o : Int) - sz⟩ (sz : Int).toNat (imem m0 st b o X ([] ++ a :: a :: R)) = .ub .oobRead :=
            loadN_neg (by omega) (by simp only; omega)
          rw [C.bind_ub (C.bind_ub hneg)]
      | succ n =>
        have hne' : A' ≠ [] := by intro h0; rw [h0] at hA'; simp at hA'
        have hlast : A'.getLast? = some (A'.getLast hne') := List.getLast?_eq_some_getLast hne'
        have e2 : (((n + 1 : Nat) : Int) - 1) = ((n : Nat) : Int) := by omega
        have g1 : (A' ++ a :: a :: R)[n]? = some (A'.getLast hne') := by
          rw [List.getElem?_append_left (by omega), List.getLast_eq_getElem, ← List.getElem?_eq_getElem]
          congr 1; omega
        rw [e2, C.bind_ok (elemAt_ok (mul_lim hlim (by omega)) _), C.bind_ok (compare_st gt hf' he g1)]
        obtain ⟨k1, k2⟩ := ih A' a (a :: R) (gt (A'.getLast hne') e) hA' hf' (by rw [hlen']; exact hlim)
          (by intro x hx; rw [hlast] at hx; simp at hx; rw [hx])
        constructor
        · intro hr
          have hr' : sz ≤ o ∨ A' = [] ∨ ¬ ∀ x ∈ A', gt x e = true := by
            rcases hr with hr | hr | hr
            · exact .inl hr
            · simp at hr
            · right; right
              intro hall
              apply hr
              intro x hx
              rcases List.mem_append.mp hx with hx | hx
              · exact hall x hx
              · rw [List.mem_singleton.mp hx]; exact hc0.symm
          obtain ⟨A1, B, h', j1, j2, j3, j4, j5⟩ := k1 hr'
          refine ⟨A1, B ++ [a], h', by rw [j1]; simp, by rw [j2]; simp, j3, ?_, j5⟩
          intro x hx
          rcases List.mem_append.mp hx with hx | hx
          · exact j4 x hx
          · rw [List.mem_singleton.mp hx]; exact hc0.symm
        · intro ho _ hall
          exact k2 ho hne' (fun x hx => hall x (by simp [hx]))

theorem SameTies_insert {gt : Cmp} (hw : StrictWeak gt) {B : List (List Byte)} {e : List Byte}
    (hB : ∀ x ∈ B, gt x e = true) : SameTies gt (B ++ [e]) (e :: B) := by
  induction B with
  | nil => exact SameTies.refl _
  | cons x B ih =>
    exact ((ih (fun y hy => hB y (by simp [hy]))).cons x).trans (SameTies.swap hw (hB x (by simp)) B)

theorem sorted_insert {gt : Cmp} (hw : StrictWeak gt) {A B : List (List Byte)} {e : List Byte}
    (hs : Sorted gt (A ++ B)) (hB : ∀ x ∈ B, gt x e = true) (hA : ∀ a, A.getLast? = some a → gt a e = false) :
    Sorted gt (A ++ e :: B) := by
  unfold Sorted at *
  rw [List.pairwise_append] at hs ⊢
  obtain ⟨h1, h2, h3⟩ := hs
  refine ⟨h1, List.pairwise_cons.mpr ⟨fun x hx => hw.asymm _ _ (hB x hx), h2⟩, ?_⟩
  intro a ha x hx
  have hae : gt a e = false := by
    have hne : A ≠ [] := List.ne_nil_of_mem ha
    have hl := hA _ (List.getLast?_eq_some_getLast hne)
    rw [← List.dropLast_concat_getLast hne] at h1 ha
    rcases List.mem_append.mp ha with ha' | ha'
    · exact hw.negTrans _ _ _ ((List.pairwise_append.mp h1).2.2 a ha' _ (by simp)) hl
    · rw [List.mem_singleton.mp ha']; exact hl
  rcases List.mem_cons.mp hx with rfl | hx
  · exact hae
  · exact h3 a ha x hx

/-- The body of the outer loop. -/
def insertionBody (gt : Cmp) (st b o sz : Nat) : Nat → Unit → C Unit := fun i _ => do
  let p ← elemAt (ptr b o) sz i
  memcpy (ptr st 0) p (szt sz)
  let q ← elemAt (ptr b o) sz ((i : Int) - 1)
  let compare ← compareFun gt sz q (ptr st 0)
  let k ← insertionShift gt (ptr b o) sz (ptr st 0) i compare
  let dst ← elemAt (ptr b o) sz k
  memcpy dst (ptr st 0) (szt sz)

theorem insertion_step (gt : Cmp) {m0 : Mem} {st b o sz : Nat} {X : List Byte} (hsz : sz < 2 ^ 31)
    {P : List (List Byte)} {e : List Byte} {R : List (List Byte)} (hP : P ≠ [])
    (hf : IFits m0 st b o sz X (P ++ e :: R)) (hlim : ((P ++ e :: R).length - 1) * sz < 2 ^ 31) :
    ((sz ≤ o ∨ ¬ ∀ a ∈ P, gt a e = true) →
      ∃ A B, insertionBody gt st b o sz P.length () (imem m0 st b o X (P ++ e :: R)) =
          .ok () (imem m0 st b o (splice X 0 e) (A ++ e :: (B ++ R))) ∧ P = A ++ B ∧
        (∀ x ∈ B, gt x e = true) ∧ (∀ a, A.getLast? = some a → gt a e = false)) ∧
    (o < sz → (∀ a ∈ P, gt a e = true) →
      insertionBody gt st b o sz P.length () (imem m0 st b o X (P ++ e :: R)) = .ub .oobRead) := by
  have hlen : (P ++ e :: R).length = P.length + 1 + R.length := by simp; omega
  have hge : (P ++ e :: R)[P.length]? = some e := by simp
  have hel : e.length = sz := hf.fits.chunks e (by simp)
  have hr := hf.room
  have hf1 : IFits m0 st b o sz (splice X 0 e) (P ++ e :: R) :=
    ⟨hf.fits, hf.apart, by rw [splice_length _ _ _ (by omega)]; exact hr⟩
  have hsl : slice (splice X 0 e) 0 sz = e := by rw [← hel]; exact slice_splice_same _ _ _ (by omega)
  have hlast : P.getLast? = some (P.getLast hP) := List.getLast?_eq_some_getLast hP
  have hPl : 0 < P.length := List.length_pos_iff.mpr hP
  have e2 : ((P.length : Int) - 1) = ((P.length - 1 : Nat) : Int) := by omega
  have g1 : (P ++ e :: R)[P.length - 1]? = some (P.getLast hP) := by
    rw [List.getElem?_append_left (by omega), List.getLast_eq_getElem, ← List.getElem?_eq_getElem]
  unfold insertionBody
  rw [C.bind_ok (elemAt_ok (mul_lim hlim (by omega)) _), szt_eq hsz, C.bind_ok (elem_to_st hf hge), e2,
    C.bind_ok (elemAt_ok (mul_lim hlim (by omega)) _), C.bind_ok (compare_st gt hf1 hsl g1)]
  obtain ⟨k1, k2⟩ := shift_run gt hsz hsl P.length P e R (gt (P.getLast hP) e) rfl hf1 hlim
    (by intro x hx; rw [hlast] at hx; simp at hx; rw [hx])
  constructor
  · intro hro
    obtain ⟨A1, B, h', j1, j2, j3, j4, j5⟩ := k1 (by rcases hro with h | h; exact .inl h; exact .inr (.inr h))
    have hl2 : (A1 ++ h' :: (B ++ R)).length = (P ++ e :: R).length := by rw [j2]; simp; omega
    have hf2 : IFits m0 st b o sz (splice X 0 e) (A1 ++ h' :: (B ++ R)) := by
      refine ⟨⟨?_, by rw [hl2]; exact hf.fits.room⟩, hf.apart, hf1.room⟩
      intro x hx
      have hc := hf.fits.chunks
      rw [j2] at hc
      simp only [List.mem_append, List.mem_cons] at hx
      rcases hx with hx | rfl | hx | hx
      · exact hc x (by simp [hx])
      · exact j3
      · exact hc x (by simp [hx])
      · exact hc x (by simp [hx])
    refine ⟨A1, B, ?_, j2, j4, j5⟩
    have hb : A1.length < (A1 ++ h' :: (B ++ R)).length := by simp
    rw [C.bind_ok j1, C.bind_ok (elemAt_ok (mul_lim hlim (by omega)) _), st_to_elem hf2 hb hsl]
    congr 2
    rw [List.set_append, if_neg (by omega)]
    simp
  · intro ho hall
    rw [C.bind_ub (k2 ho hP hall)]

/-- Some element of `R` is smaller than all elements of `P` and all elements of `R` before it. -/
def NewMin (gt : Cmp) (P R : List (List Byte)) : Prop :=
  ∃ A e B, R = A ++ e :: B ∧ ∀ a ∈ P ++ A, gt a e = true

theorem NewMin.cons {gt : Cmp} {P P' R : List (List Byte)} {e : List Byte} (hp : (P ++ [e]).Perm P')
    (h0 : ¬ ∀ a ∈ P, gt a e = true) : NewMin gt P (e :: R) ↔ NewMin gt P' R := by
  constructor
  · rintro ⟨A, x, B, h1, h2⟩
    cases A with
    | nil =>
      simp only [List.nil_append, List.cons.injEq] at h1
      rw [← h1.1] at h2
      exact absurd (fun a ha => h2 a (by simpa using ha)) h0
    | cons y A =>
      simp only [List.cons_append, List.cons.injEq] at h1
      obtain ⟨rfl, h1⟩ := h1
      refine ⟨A, x, B, h1, ?_⟩
      intro a ha
      apply h2
      rcases List.mem_append.mp ha with ha | ha
      · have := hp.mem_iff.mpr ha
        simp only [List.mem_append, List.mem_cons, List.not_mem_nil, or_false] at this ⊢
        tauto
      · simp [ha]
  · rintro ⟨A, x, B, h1, h2⟩
    refine ⟨e :: A, x, B, by simp [h1], ?_⟩
    intro a ha
    apply h2
    simp only [List.mem_append, List.mem_cons] at ha ⊢
    rcases ha with ha | rfl | ha
    · left; exact hp.mem_iff.mp (by simp [ha])
    · left; exact hp.mem_iff.mp (by simp)
    · exact .inr ha

theorem insertion_loop (gt : Cmp) {m0 : Mem} {st b o sz : Nat} (hsz : sz < 2 ^ 31) (R : List (List Byte)) :
    ∀ (P : List (List Byte)) (X : List Byte), P ≠ [] → IFits m0 st b o sz X (P ++ R) →
    ((P ++ R).length - 1) * sz < 2 ^ 31 →
    ((sz ≤ o ∨ ¬ NewMin gt P R) →
      ∃ l X', forN R.length P.length (insertionBody gt st b o sz) () (imem m0 st b o X (P ++ R)) =
          .ok () (imem m0 st b o X' l) ∧ X'.length = X.length ∧
        (X'.drop sz = X.drop sz ∧ ∀ e, R.getLast? = some e → slice X' 0 sz = e) ∧ (P ++ R).Perm l ∧
        (StrictWeak gt → SameTies gt (P ++ R) l ∧ (Sorted gt P → Sorted gt l))) ∧
    (o < sz → NewMin gt P R →
      forN R.length P.length (insertionBody gt st b o sz) () (imem m0 st b o X (P ++ R)) = .ub .oobRead) := by
  induction R with
  | nil =>
    intro P X hP hf hlim
    refine ⟨fun _ => ⟨P, X, by simp, rfl, ⟨rfl, by simp⟩, by simp, fun _ => ⟨by simpa using SameTies.refl P, fun h => h⟩⟩, ?_⟩
    rintro _ ⟨A, e, B, h, _⟩
    simp at h
  | cons e R ih =>
    intro P X hP hf hlim
    obtain ⟨s1, s2⟩ := insertion_step gt hsz hP hf hlim
    have hel : e.length = sz := hf.fits.chunks e (by simp)
    have hr := hf.room
    have hX1 : (splice X 0 e).length = X.length := splice_length _ _ _ (by omega)
    have hX2 : (splice X 0 e).drop sz = X.drop sz := by simp [splice, ← hel]
    simp only [List.length_cons]
    rw [forN_succ]
    have main : (sz ≤ o ∨ ¬ ∀ a ∈ P, gt a e = true) → ∃ A B,
        insertionBody gt st b o sz P.length () (imem m0 st b o X (P ++ e :: R)) =
          .ok () (imem m0 st b o (splice X 0 e) ((A ++ e :: B) ++ R)) ∧ (P ++ [e]).Perm (A ++ e :: B) ∧
        IFits m0 st b o sz (splice X 0 e) ((A ++ e :: B) ++ R) ∧
        (((A ++ e :: B) ++ R).length - 1) * sz < 2 ^ 31 ∧ (A ++ e :: B).length = P.length + 1 ∧
        (P ++ e :: R).Perm ((A ++ e :: B) ++ R) ∧
        (StrictWeak gt → SameTies gt (P ++ e :: R) ((A ++ e :: B) ++ R) ∧ (Sorted gt P → Sorted gt (A ++ e :: B))) := by
      intro h
      obtain ⟨A, B, j1, j2, j3, j4⟩ := s1 h
      have hp : (P ++ [e]).Perm (A ++ e :: B) := by
        rw [j2, List.append_assoc]
        exact List.Perm.append_left A (List.perm_append_singleton e B)
      have hp2 : (P ++ e :: R).Perm ((A ++ e :: B) ++ R) := by
        have := hp.append_right R
        simpa using this
      refine ⟨A, B, by rw [j1]; simp, hp, ⟨hf.fits.perm hp2, hf.apart, by omega⟩,
        by rw [← hp2.length_eq]; exact hlim, by rw [j2]; simp; omega, hp2, ?_⟩
      intro hw
      constructor
      · rw [j2]
        have h1 : SameTies gt (A ++ ((B ++ [e]) ++ R)) (A ++ ((e :: B) ++ R)) :=
          (SameTies.refl A).append ((SameTies_insert hw j3).append (SameTies.refl R))
        simpa using h1
      · intro hs
        rw [j2] at hs
        exact sorted_insert hw hs j3 j4
    constructor
    · intro hro
      have h0 : sz ≤ o ∨ ¬ ∀ a ∈ P, gt a e = true := by
        rcases hro with h | h
        · exact .inl h
        · right; intro hall; exact h ⟨[], e, R, rfl, by simpa using hall⟩
      obtain ⟨A, B, j1, j2, j3, j4, j5, j6, j7⟩ := main h0
      obtain ⟨k1, -⟩ := ih (A ++ e :: B) (splice X 0 e) (by simp) j3 j4
      have hro' : sz ≤ o ∨ ¬ NewMin gt (A ++ e :: B) R := by
        by_cases hso : sz ≤ o
        · exact .inl hso
        · have h1 : ¬ NewMin gt P (e :: R) := hro.resolve_left hso
          have h2 : ¬ ∀ a ∈ P, gt a e = true := h0.resolve_left hso
          right; rw [← NewMin.cons j2 h2]; exact h1
      obtain ⟨l, X', i1, i2, i2', i3, i4⟩ := k1 hro'
      rw [j1]
      simp only
      rw [j5] at i1
      refine ⟨l, X', i1, by omega, ⟨by rw [i2'.1, hX2], fun x hx => ?_⟩, j6.trans i3, ?_⟩
      · cases R with
        | nil =>
          simp only [List.getLast?_singleton, Option.some.injEq] at hx
          subst hx
          simp only [List.length_nil, forN, C.pure_run, Res.ok.injEq, true_and] at i1
          have hst := congrArg (fun m => m.bytes st) i1
          have hX' : X' = splice X 0 e := by
            have e1 := imem_st j3
            have hf3 : IFits m0 st b o sz X' l :=
              ⟨j3.fits.perm i3, hf.apart, by rw [i2, hX1]; exact hr⟩
            rw [← imem_st hf3, ← i1, e1]
          rw [hX', ← hel]
          exact slice_splice_same _ _ _ (by omega)
        | cons y R => exact i2'.2 x (by simpa using hx)
      intro hw
      obtain ⟨i5, i6⟩ := i4 hw
      obtain ⟨j8, j9⟩ := j7 hw
      exact ⟨j8.trans i5, fun hs => i6 (j9 hs)⟩
    · intro ho hnm
      by_cases hall : ∀ a ∈ P, gt a e = true
      · rw [s2 ho hall]
      · obtain ⟨A, B, j1, j2, j3, j4, j5, j6, j7⟩ := main (.inr hall)
        obtain ⟨-, k2⟩ := ih (A ++ e :: B) (splice X 0 e) (by simp) j3 j4
        rw [j1]
        simp only
        rw [j5] at k2
        exact k2 ho ((NewMin.cons j2 hall).mp hnm)

end IMU.Sort
