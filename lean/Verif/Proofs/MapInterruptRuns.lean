import Verif.Proofs.MapInterrupt

namespace IMU.Map
open Spec Utils

section
variable {n ks vs kb ko vb vo d c c1 : Nat} {map map1 : MapT} {m0 m m1 m2 : Mem} {fk fv fk1 fv1 : Nat → Bytes} {h : Handler}
  {s : Bool} {b o b' o' : Nat}

/-- The search, interrupted by a handler that leaves the keys there alone. -/
theorem search_int (V : View n ks vs kb ko vb vo d m0 m fk fv) (Sh : Shape n ks vs kb ko vb vo c map)
    (ha : Arg kb vb d m0 b o ks) (k : Nat) (hh : h map m = .ok (s, map1) m2) (Sh1 : Shape n ks vs kb ko vb vo c1 map1)
    (V1 : View n ks vs kb ko vb vo d m0 m2 fk1 fv1) (hsame : ∀ l, l < c → fk1 l = fk l) :
    (∀ j, j < c → fk j = slice (m0.bytes b) o ks → (∀ l, l < j → fk l ≠ slice (m0.bytes b) o ks) →
      getIndexInt (some k) h map (ptr b o) m = .ok ((j : Int), s, map1) m2) ∧
    ((∀ l, l < c → fk l ≠ slice (m0.bytes b) o ks) →
      getIndexInt (some k) h map (ptr b o) m = .ok (-1, s, map1) m2) := by
  have hle := Sh.size_le
  have hz : ((0 : Nat) : Int) = 0 := rfl
  rcases loop_view V Sh ha (min k c) 0 (by omega) with ⟨i, h1, h2, h3, h4, h5⟩ | ⟨h1, h2⟩
  · rw [hz] at h5
    have hi : (i : Int) ≠ -1 := by omega
    have hrun : getIndexInt (some k) h map (ptr b o) m = .ok ((i : Int), s, map1) m2 := by
      simp only [getIndexInt]
      rw [Sh.size, Int.toNat_natCast, C.bind_ok h5, C.bind_ok hh]
      simp only [if_pos hi]
      rfl
    constructor
    · intro j j1 j2 j3
      have : i = j := by
        rcases Nat.lt_trichotomy i j with hl | he | hg
        · exact absurd h3 (j3 i hl)
        · exact he
        · exact absurd j2 (h4 j (by omega) hg)
      subst this; exact hrun
    · intro hno; exact absurd h3 (hno i (by omega))
  · rw [hz] at h2
    have hneg : ¬ ((-1 : Int) ≠ -1) := by decide
    have hrest := loop_view V1 Sh1 ha (c - k) (min k c) (by omega)
    have hrun : ∀ r, getIndexLoop map1 (ptr b o) (c - k) ((min k c : Nat) : Int) m2 = .ok r m2 →
        getIndexInt (some k) h map (ptr b o) m = .ok (r, s, map1) m2 := by
      intro r hr
      simp only [getIndexInt]
      rw [Sh.size, Int.toNat_natCast, C.bind_ok h2, C.bind_ok hh]
      simp only [if_neg hneg]
      rw [C.bind_ok hr]
      rfl
    constructor
    · intro j j1 j2 j3
      rcases hrest with ⟨i, g1, g2, g3, g4, g5⟩ | ⟨g1, g2⟩
      · have hic : i < c := by omega
        rw [hsame i hic] at g3
        have : i = j := by
          rcases Nat.lt_trichotomy i j with hl | he | hg
          · exact absurd g3 (j3 i hl)
          · exact he
          · by_cases hjk : j < min k c
            · exact absurd j2 (h1 j (by omega) (by omega))
            · have := g4 j (by omega) hg
              rw [hsame j j1] at this
              exact absurd j2 this
        subst this; exact hrun _ g5
      · exfalso
        by_cases hjk : j < min k c
        · exact h1 j (by omega) (by omega) j2
        · have := g1 j (by omega) (by omega)
          rw [hsame j j1] at this
          exact this j2
    · intro hno
      rcases hrest with ⟨i, g1, g2, g3, g4, g5⟩ | ⟨g1, g2⟩
      · have hic : i < c := by omega
        rw [hsame i hic] at g3
        exact absurd g3 (hno i hic)
      · exact hrun _ g2

theorem search_quiet (V : View n ks vs kb ko vb vo d m0 m fk fv) (Sh : Shape n ks vs kb ko vb vo c map)
    (ha : Arg kb vb d m0 b o ks) :
    (∀ j, j < c → fk j = slice (m0.bytes b) o ks → (∀ l, l < j → fk l ≠ slice (m0.bytes b) o ks) →
      getIndexInt none h map (ptr b o) m = .ok ((j : Int), false, map) m) ∧
    ((∀ l, l < c → fk l ≠ slice (m0.bytes b) o ks) →
      getIndexInt none h map (ptr b o) m = .ok (-1, false, map) m) := by
  rcases index_view V Sh ha with ⟨i, h1, h2, h3, h4⟩ | ⟨h1, h2⟩
  · have hrun : getIndexInt none h map (ptr b o) m = .ok ((i : Int), false, map) m := by
      simp only [getIndexInt]
      rw [C.bind_ok h4]
      rfl
    constructor
    · intro j j1 j2 j3
      have : i = j := by
        rcases Nat.lt_trichotomy i j with hl | he | hg
        · exact absurd h2 (j3 i hl)
        · exact he
        · exact absurd j2 (h3 j hg)
      subst this; exact hrun
    · intro hno; exact absurd h2 (hno i h1)
  · constructor
    · intro j j1 j2 j3; exact absurd j2 (h1 j j1)
    · intro _
      simp only [getIndexInt]
      rw [C.bind_ok h2]
      rfl

/-- The rest of an insertion of a new key. -/
theorem new_rest (V : View n ks vs kb ko vb vo d m0 m fk fv) (Sh : Shape n ks vs kb ko vb vo c map) (hc : c < n)
    (ha : Arg kb vb d m0 b o ks) (hb : Arg kb vb d m0 b' o' vs) :
    ∃ m', (do
        let ko ← i32 (map.current_size * map.key_size)
        let (s, map) ← copyInt none h s map (map.keys.addZ ko) (ptr b o) (toSizeT map.key_size)
        let vo ← i32 (map.current_size * map.value_size)
        let (s, map) ← copyInt none h s map (map.values.addZ vo) (ptr b' o') (toSizeT map.value_size)
        let old := map.current_size
        let (s, map) ← pure (s, map)
        let cs ← i32 (old + 1)
        return (s, true, { map with current_size := cs }) : C (Bool × Bool × MapT)) m =
        .ok (s, true, grown map c) m' ∧
      (∀ x, x ≠ kb → x ≠ vb → m'.bytes x = m.bytes x) ∧
      View n ks vs kb ko vb vo d m0 m' (put fk c (slice (m0.bytes b) o ks)) (put fv c (slice (m0.bytes b') o' vs)) := by
  obtain ⟨m1, g1, f1, V1⟩ := fullK V Sh hc ha
  obtain ⟨m2, g2, f2, V2⟩ := fullV V1 Sh hc hb
  refine ⟨m2, ?_, fun x x1 x2 => by rw [f2 x x2, f1 x x1], V2⟩
  have e1 : copyInt none h s map (ptr kb (ko + c * ks)) (ptr b o) ks m = .ok (s, map) m1 := by
    simp only [copyInt]; rw [C.bind_ok g1]; rfl
  have e2 : copyInt none h s map (ptr vb (vo + c * vs)) (ptr b' o') vs m1 = .ok (s, map) m2 := by
    simp only [copyInt]; rw [C.bind_ok g2]; rfl
  rw [Sh.size, Sh.hks, C.bind_ok (i32_mul hc Sh.limk m), Sh.hk, ptr_addZ_nat, toSizeT_nat Sh.ks_lt, C.bind_ok e1]
  simp only
  rw [Sh.size, Sh.hvs, C.bind_ok (i32_mul hc Sh.limv m1), Sh.hv, ptr_addZ_nat, toSizeT_nat Sh.vs_lt, C.bind_ok e2]
  simp only
  rw [C.bind_ok (C.pure_run _ _)]
  simp only
  rw [Sh.size, C.bind_ok (i32_succ hc Sh.n_lt m2)]
  rfl

/-- What the handler at this point finds, and what follows. -/
def Handled (n ks vs kb ko vb vo d : Nat) (m0 m1 m2 : Mem) (h : Handler) (map : MapT) (s : Bool) (map1 : MapT)
    (fk1 fv1 : Nat → Bytes) : Prop :=
  h map m1 = .ok (s, map1) m2 ∧ View n ks vs kb ko vb vo d m0 m2 fk1 fv1

theorem copyK_int (V : View n ks vs kb ko vb vo d m0 m fk fv) (Sh : Shape n ks vs kb ko vb vo c map) {j : Nat} (hj : j < n)
    (ha : Arg kb vb d m0 b o ks) (S : Nat → Bool) (h : Handler) (s0 : Bool) :
    ∃ m1, View n ks vs kb ko vb vo d m0 m1 (put fk j (mixed S (slice (m0.bytes b) o ks) (fk j))) fv ∧
      ∀ s map1 m2 fk1 fv1, Handled n ks vs kb ko vb vo d m0 m1 m2 h map s map1 fk1 fv1 →
        ∃ m3, copyInt (some S) h s0 map (ptr kb (ko + j * ks)) (ptr b o) ks m = .ok (s, map1) m3 ∧
          (∀ x, x ≠ kb → m3.bytes x = m2.bytes x) ∧
          View n ks vs kb ko vb vo d m0 m3 (put fk1 j (mixed (fun i => !S i) (slice (m0.bytes b) o ks) (fk1 j))) fv1 := by
  obtain ⟨m1, g1, -, V1⟩ := partK V Sh hj ha S
  refine ⟨m1, V1, ?_⟩
  rintro s map1 m2 fk1 fv1 ⟨hh, V2⟩
  obtain ⟨m3, g3, f3, V3⟩ := partK V2 Sh hj ha (fun i => !S i)
  refine ⟨m3, ?_, f3, V3⟩
  simp only [copyInt]
  rw [C.bind_ok g1, C.bind_ok hh, C.bind_ok g3]
  rfl

theorem copyV_int (V : View n ks vs kb ko vb vo d m0 m fk fv) (Sh : Shape n ks vs kb ko vb vo c map) {j : Nat} (hj : j < n)
    (ha : Arg kb vb d m0 b o vs) (S : Nat → Bool) (h : Handler) (s0 : Bool) :
    ∃ m1, View n ks vs kb ko vb vo d m0 m1 fk (put fv j (mixed S (slice (m0.bytes b) o vs) (fv j))) ∧
      ∀ s map1 m2 fk1 fv1, Handled n ks vs kb ko vb vo d m0 m1 m2 h map s map1 fk1 fv1 →
        ∃ m3, copyInt (some S) h s0 map (ptr vb (vo + j * vs)) (ptr b o) vs m = .ok (s, map1) m3 ∧
          (∀ x, x ≠ vb → m3.bytes x = m2.bytes x) ∧
          View n ks vs kb ko vb vo d m0 m3 fk1 (put fv1 j (mixed (fun i => !S i) (slice (m0.bytes b) o vs) (fv1 j))) := by
  obtain ⟨m1, g1, -, V1⟩ := partV V Sh hj ha S
  refine ⟨m1, V1, ?_⟩
  rintro s map1 m2 fk1 fv1 ⟨hh, V2⟩
  obtain ⟨m3, g3, f3, V3⟩ := partV V2 Sh hj ha (fun i => !S i)
  refine ⟨m3, ?_, f3, V3⟩
  simp only [copyInt]
  rw [C.bind_ok g1, C.bind_ok hh, C.bind_ok g3]
  rfl

theorem ins_search (V : View n ks vs kb ko vb vo d m0 m fk fv) (Sh : Shape n ks vs kb ko vb vo c map)
    (ha : Arg kb vb d m0 b o ks) (hb : Arg kb vb d m0 b' o' vs) (k : Nat)
    (hh : Handled n ks vs kb ko vb vo d m0 m m2 h map s map1 fk1 fv1) (Sh1 : Shape n ks vs kb ko vb vo c1 map1)
    (hsame : ∀ l, l < c → fk1 l = fk l) (hnew : ∀ l, l < c → fk l ≠ slice (m0.bytes b) o ks) :
    (c1 < n → ∃ m', insertInt (.search k) h map (ptr b o) (ptr b' o') m = .ok (s, true, grown map1 c1) m' ∧
      (∀ x, x ≠ kb → x ≠ vb → m'.bytes x = m2.bytes x) ∧
      View n ks vs kb ko vb vo d m0 m' (put fk1 c1 (slice (m0.bytes b) o ks)) (put fv1 c1 (slice (m0.bytes b') o' vs))) ∧
    (c1 = n → insertInt (.search k) h map (ptr b o) (ptr b' o') m = .ok (s, false, map1) m2) := by
  obtain ⟨hh, V1⟩ := hh
  have hidx := (search_int V Sh ha k hh Sh1 V1 hsame).2 hnew
  constructor
  · intro hc
    obtain ⟨m', g1, g2, g3⟩ := new_rest (h := h) (s := s) V1 Sh1 hc ha hb
    refine ⟨m', ?_, g2, g3⟩
    have hne : map1.current_size ≠ map1.max_map_size := by rw [Sh1.size, Sh1.hmx]; omega
    simp only [insertInt, Point.inSearch, Point.inKey, Point.inValue]
    rw [C.bind_ok hidx]
    simp only [if_true]
    rw [if_pos hne, C.bind_ok (C.pure_run _ _)]
    exact g1
  · intro hc
    have hne : ¬ (map1.current_size ≠ map1.max_map_size) := by rw [Sh1.size, Sh1.hmx]; omega
    simp only [insertInt, Point.inSearch, Point.inKey, Point.inValue]
    rw [C.bind_ok hidx]
    simp only [if_true]
    rw [if_neg hne]
    rfl

theorem ins_room (V : View n ks vs kb ko vb vo d m0 m fk fv) (Sh : Shape n ks vs kb ko vb vo c map) (hc : c < n)
    (ha : Arg kb vb d m0 b o ks) (hb : Arg kb vb d m0 b' o' vs)
    (hh : Handled n ks vs kb ko vb vo d m0 m m2 h map s map1 fk1 fv1) (Sh1 : Shape n ks vs kb ko vb vo c1 map1)
    (hnew : ∀ l, l < c → fk l ≠ slice (m0.bytes b) o ks) (hc1 : c1 < n) :
    ∃ m', insertInt .room h map (ptr b o) (ptr b' o') m = .ok (s, true, grown map1 c1) m' ∧
      (∀ x, x ≠ kb → x ≠ vb → m'.bytes x = m2.bytes x) ∧
      View n ks vs kb ko vb vo d m0 m' (put fk1 c1 (slice (m0.bytes b) o ks)) (put fv1 c1 (slice (m0.bytes b') o' vs)) := by
  obtain ⟨hh, V1⟩ := hh
  have hidx := (search_quiet (h := h) V Sh ha).2 hnew
  obtain ⟨m', g1, g2, g3⟩ := new_rest (h := h) (s := s) V1 Sh1 hc1 ha hb
  refine ⟨m', ?_, g2, g3⟩
  have hne : map.current_size ≠ map.max_map_size := by rw [Sh.size, Sh.hmx]; omega
  simp only [insertInt, Point.inSearch, Point.inKey, Point.inValue]
  rw [C.bind_ok hidx]
  simp only [if_true]
  rw [if_pos hne, C.bind_ok hh]
  exact g1

theorem ins_key (V : View n ks vs kb ko vb vo d m0 m fk fv) (Sh : Shape n ks vs kb ko vb vo c map) (hc : c < n)
    (ha : Arg kb vb d m0 b o ks) (hb : Arg kb vb d m0 b' o' vs)
    (hnew : ∀ l, l < c → fk l ≠ slice (m0.bytes b) o ks) (S : Nat → Bool) (h : Handler) :
    ∃ m1, View n ks vs kb ko vb vo d m0 m1 (put fk c (mixed S (slice (m0.bytes b) o ks) (fk c))) fv ∧
      ∀ s map1 m2 fk1 fv1 c1, Handled n ks vs kb ko vb vo d m0 m1 m2 h map s map1 fk1 fv1 →
        Shape n ks vs kb ko vb vo c1 map1 → c1 < n →
        ∃ m', insertInt (.key S) h map (ptr b o) (ptr b' o') m = .ok (s, true, grown map1 c1) m' ∧
          (∀ x, x ≠ kb → x ≠ vb → m'.bytes x = m2.bytes x) ∧
          View n ks vs kb ko vb vo d m0 m' (put fk1 c (mixed (fun i => !S i) (slice (m0.bytes b) o ks) (fk1 c)))
            (put fv1 c1 (slice (m0.bytes b') o' vs)) := by
  have hidx := (search_quiet (h := h) V Sh ha).2 hnew
  obtain ⟨m1, V1, hcont⟩ := copyK_int V Sh hc ha S h false
  refine ⟨m1, V1, ?_⟩
  intro s map1 m2 fk1 fv1 c1 hh Sh1 hc1
  obtain ⟨m3, g3, f3, V3⟩ := hcont s map1 m2 fk1 fv1 hh
  obtain ⟨m4, g4, f4, V4⟩ := fullV V3 Sh1 hc1 hb
  refine ⟨m4, ?_, fun x x1 x2 => by rw [f4 x x2, f3 x x1], V4⟩
  have hne : map.current_size ≠ map.max_map_size := by rw [Sh.size, Sh.hmx]; omega
  have e2 : copyInt none h s map1 (ptr vb (vo + c1 * vs)) (ptr b' o') vs m3 = .ok (s, map1) m4 := by
    simp only [copyInt]; rw [C.bind_ok g4]; rfl
  simp only [insertInt, Point.inSearch, Point.inKey, Point.inValue]
  rw [C.bind_ok hidx]
  simp only [if_true]
  rw [if_pos hne, C.bind_ok (C.pure_run _ _)]
  simp only
  rw [Sh.size, Sh.hks, C.bind_ok (i32_mul hc Sh.limk m), Sh.hk, ptr_addZ_nat, toSizeT_nat Sh.ks_lt, C.bind_ok g3]
  simp only
  rw [Sh1.size, Sh1.hvs, C.bind_ok (i32_mul hc1 Sh1.limv m3), Sh1.hv, ptr_addZ_nat, toSizeT_nat Sh1.vs_lt, C.bind_ok e2]
  simp only
  rw [C.bind_ok (C.pure_run _ _)]
  simp only
  rw [Sh1.size, C.bind_ok (i32_succ hc1 Sh1.n_lt m4)]
  rfl

theorem ins_value (V : View n ks vs kb ko vb vo d m0 m fk fv) (Sh : Shape n ks vs kb ko vb vo c map) (hc : c < n)
    (ha : Arg kb vb d m0 b o ks) (hb : Arg kb vb d m0 b' o' vs)
    (hnew : ∀ l, l < c → fk l ≠ slice (m0.bytes b) o ks) (S : Nat → Bool) (h : Handler) :
    ∃ m1, View n ks vs kb ko vb vo d m0 m1 (put fk c (slice (m0.bytes b) o ks))
        (put fv c (mixed S (slice (m0.bytes b') o' vs) (fv c))) ∧
      ∀ s map1 m2 fk1 fv1 c1, Handled n ks vs kb ko vb vo d m0 m1 m2 h map s map1 fk1 fv1 →
        Shape n ks vs kb ko vb vo c1 map1 →
        ∃ m', insertInt (.value S) h map (ptr b o) (ptr b' o') m = (if c1 < n then .ok (s, true, grown map1 c1) m' else
            (do let cs ← i32 ((n : Int) + 1); return (s, true, { map1 with current_size := cs }) : C (Bool × Bool × MapT)) m') ∧
          (∀ x, x ≠ kb → x ≠ vb → m'.bytes x = m2.bytes x) ∧
          View n ks vs kb ko vb vo d m0 m' fk1
            (put fv1 c (mixed (fun i => !S i) (slice (m0.bytes b') o' vs) (fv1 c))) := by
  have hidx := (search_quiet (h := h) V Sh ha).2 hnew
  obtain ⟨m0', g0, -, V0⟩ := fullK V Sh hc ha
  obtain ⟨m1, V1, hcont⟩ := copyV_int V0 Sh hc hb S h false
  refine ⟨m1, V1, ?_⟩
  intro s map1 m2 fk1 fv1 c1 hh Sh1
  obtain ⟨m3, g3, f3, V3⟩ := hcont s map1 m2 fk1 fv1 hh
  refine ⟨m3, ?_, fun x x1 x2 => by rw [f3 x x2], V3⟩
  have hne : map.current_size ≠ map.max_map_size := by rw [Sh.size, Sh.hmx]; omega
  have e1 : copyInt none h false map (ptr kb (ko + c * ks)) (ptr b o) ks m = .ok (false, map) m0' := by
    simp only [copyInt]; rw [C.bind_ok g0]; rfl
  simp only [insertInt, Point.inSearch, Point.inKey, Point.inValue]
  rw [C.bind_ok hidx]
  simp only [if_true]
  rw [if_pos hne, C.bind_ok (C.pure_run _ _)]
  simp only
  rw [Sh.size, Sh.hks, C.bind_ok (i32_mul hc Sh.limk m), Sh.hk, ptr_addZ_nat, toSizeT_nat Sh.ks_lt, C.bind_ok e1]
  simp only
  rw [Sh.size, Sh.hvs, C.bind_ok (i32_mul hc Sh.limv m0'), Sh.hv, ptr_addZ_nat, toSizeT_nat Sh.vs_lt, C.bind_ok g3]
  simp only
  rw [C.bind_ok (C.pure_run _ _)]
  simp only
  rw [Sh1.size]
  by_cases hc1 : c1 < n
  · rw [if_pos hc1, C.bind_ok (i32_succ hc1 Sh1.n_lt m3)]
    rfl
  · have : c1 = n := by have := Sh1.size_le; omega
    rw [if_neg hc1, this]

theorem ins_load (V : View n ks vs kb ko vb vo d m0 m fk fv) (Sh : Shape n ks vs kb ko vb vo c map) (hc : c < n)
    (ha : Arg kb vb d m0 b o ks) (hb : Arg kb vb d m0 b' o' vs)
    (hnew : ∀ l, l < c → fk l ≠ slice (m0.bytes b) o ks) (h : Handler) :
    ∃ m1, View n ks vs kb ko vb vo d m0 m1 (put fk c (slice (m0.bytes b) o ks)) (put fv c (slice (m0.bytes b') o' vs)) ∧
      ∀ s map1 m2, h map m1 = .ok (s, map1) m2 →
        insertInt .load h map (ptr b o) (ptr b' o') m = .ok (s, true, grown map1 c) m2 := by
  have hidx := (search_quiet (h := h) V Sh ha).2 hnew
  obtain ⟨m1, g1, -, V1⟩ := fullK V Sh hc ha
  obtain ⟨m2, g2, -, V2⟩ := fullV V1 Sh hc hb
  refine ⟨m2, V2, ?_⟩
  intro s map1 m3 hh
  have hne : map.current_size ≠ map.max_map_size := by rw [Sh.size, Sh.hmx]; omega
  have e1 : copyInt none h false map (ptr kb (ko + c * ks)) (ptr b o) ks m = .ok (false, map) m1 := by
    simp only [copyInt]; rw [C.bind_ok g1]; rfl
  have e2 : copyInt none h false map (ptr vb (vo + c * vs)) (ptr b' o') vs m1 = .ok (false, map) m2 := by
    simp only [copyInt]; rw [C.bind_ok g2]; rfl
  simp only [insertInt, Point.inSearch, Point.inKey, Point.inValue]
  rw [C.bind_ok hidx]
  simp only [if_true]
  rw [if_pos hne, C.bind_ok (C.pure_run _ _)]
  simp only
  rw [Sh.size, Sh.hks, C.bind_ok (i32_mul hc Sh.limk m), Sh.hk, ptr_addZ_nat, toSizeT_nat Sh.ks_lt, C.bind_ok e1]
  simp only
  rw [Sh.size, Sh.hvs, C.bind_ok (i32_mul hc Sh.limv m1), Sh.hv, ptr_addZ_nat, toSizeT_nat Sh.vs_lt, C.bind_ok e2]
  simp only
  rw [C.bind_ok hh]
  simp only
  rw [Sh.size, C.bind_ok (i32_succ hc Sh.n_lt m3)]
  rfl

theorem upd_search (V : View n ks vs kb ko vb vo d m0 m fk fv) (Sh : Shape n ks vs kb ko vb vo c map)
    (ha : Arg kb vb d m0 b o ks) (hb : Arg kb vb d m0 b' o' vs) (k : Nat)
    (hh : Handled n ks vs kb ko vb vo d m0 m m2 h map s map1 fk1 fv1) (Sh1 : Shape n ks vs kb ko vb vo c1 map1)
    (hsame : ∀ l, l < c → fk1 l = fk l) {j : Nat} (hj : j < c) (hkey : fk j = slice (m0.bytes b) o ks)
    (hfirst : ∀ l, l < j → fk l ≠ slice (m0.bytes b) o ks) :
    ∃ m', insertInt (.search k) h map (ptr b o) (ptr b' o') m = .ok (s, true, map1) m' ∧
      (∀ x, x ≠ kb → x ≠ vb → m'.bytes x = m2.bytes x) ∧
      View n ks vs kb ko vb vo d m0 m' fk1 (put fv1 j (slice (m0.bytes b') o' vs)) := by
  obtain ⟨hh, V1⟩ := hh
  have hidx := (search_int V Sh ha k hh Sh1 V1 hsame).1 j hj hkey hfirst
  have hjn : j < n := by have := Sh.size_le; omega
  obtain ⟨m', g1, g2, g3⟩ := fullV V1 Sh1 hjn hb
  refine ⟨m', ?_, fun x x1 x2 => g2 x x2, g3⟩
  have hj1 : ¬ ((j : Int) = -1) := by omega
  have e2 : copyInt none h s map1 (ptr vb (vo + j * vs)) (ptr b' o') vs m2 = .ok (s, map1) m' := by
    simp only [copyInt]; rw [C.bind_ok g1]; rfl
  simp only [insertInt, Point.inSearch, Point.inKey, Point.inValue]
  rw [C.bind_ok hidx]
  simp only [if_neg hj1]
  rw [Sh1.hvs, C.bind_ok (i32_mul hjn Sh1.limv m2), Sh1.hv, ptr_addZ_nat, toSizeT_nat Sh1.vs_lt, C.bind_ok e2]
  rfl

theorem upd_value (V : View n ks vs kb ko vb vo d m0 m fk fv) (Sh : Shape n ks vs kb ko vb vo c map)
    (ha : Arg kb vb d m0 b o ks) (hb : Arg kb vb d m0 b' o' vs) {j : Nat} (hj : j < c)
    (hkey : fk j = slice (m0.bytes b) o ks) (hfirst : ∀ l, l < j → fk l ≠ slice (m0.bytes b) o ks)
    (S : Nat → Bool) (h : Handler) :
    ∃ m1, View n ks vs kb ko vb vo d m0 m1 fk (put fv j (mixed S (slice (m0.bytes b') o' vs) (fv j))) ∧
      ∀ s map1 m2 fk1 fv1, Handled n ks vs kb ko vb vo d m0 m1 m2 h map s map1 fk1 fv1 →
        ∃ m', insertInt (.value S) h map (ptr b o) (ptr b' o') m = .ok (s, true, map1) m' ∧
          (∀ x, x ≠ kb → x ≠ vb → m'.bytes x = m2.bytes x) ∧
          View n ks vs kb ko vb vo d m0 m' fk1
            (put fv1 j (mixed (fun i => !S i) (slice (m0.bytes b') o' vs) (fv1 j))) := by
  have hidx := (search_quiet (h := h) V Sh ha).1 j hj hkey hfirst
  have hjn : j < n := by have := Sh.size_le; omega
  obtain ⟨m1, V1, hcont⟩ := copyV_int V Sh hjn hb S h false
  refine ⟨m1, V1, ?_⟩
  intro s map1 m2 fk1 fv1 hh
  obtain ⟨m3, g3, f3, V3⟩ := hcont s map1 m2 fk1 fv1 hh
  refine ⟨m3, ?_, fun x x1 x2 => f3 x x2, V3⟩
  have hj1 : ¬ ((j : Int) = -1) := by omega
  simp only [insertInt, Point.inSearch, Point.inKey, Point.inValue]
  rw [C.bind_ok hidx]
  simp only [if_neg hj1]
  rw [Sh.hvs, C.bind_ok (i32_mul hjn Sh.limv m), Sh.hv, ptr_addZ_nat, toSizeT_nat Sh.vs_lt, C.bind_ok g3]
  rfl

/-- A lookup interrupted in its search. -/
theorem get_search (V : View n ks vs kb ko vb vo d m0 m fk fv) (Sh : Shape n ks vs kb ko vb vo c map)
    (ha : Arg kb vb d m0 b o ks) (hdk : d ≠ kb) (hdv : d ≠ vb) (ho : o' + vs ≤ (m0.bytes d).length) (k : Nat)
    (hh : Handled n ks vs kb ko vb vo d m0 m m2 h map s map1 fk1 fv1) (Sh1 : Shape n ks vs kb ko vb vo c1 map1)
    (hsame : ∀ l, l < c → fk1 l = fk l) :
    (∀ j, j < c → fk j = slice (m0.bytes b) o ks → (∀ l, l < j → fk l ≠ slice (m0.bytes b) o ks) →
      ∃ m', getValueInt (.search k) h map (ptr b o) (ptr d o') m = .ok (s, true, map1) m' ∧
        View n ks vs kb ko vb vo d m0 m' fk1 fv1 ∧ slice (m'.bytes d) o' vs = fv1 j) ∧
    ((∀ l, l < c → fk l ≠ slice (m0.bytes b) o ks) →
      getValueInt (.search k) h map (ptr b o) (ptr d o') m = .ok (s, false, map1) m2) := by
  obtain ⟨hh, V1⟩ := hh
  obtain ⟨i1, i2⟩ := search_int V Sh ha k hh Sh1 V1 hsame
  constructor
  · intro j hj hkey hfirst
    have hjn : j < n := by have := Sh.size_le; omega
    obtain ⟨m', g1, g2, g3⟩ := outFull V1 hjn hdk hdv (o := o') (by rw [V1.len]; exact ho)
    refine ⟨m', ?_, g2, g3⟩
    have hj1 : (j : Int) ≠ -1 := by omega
    have e2 : copyInt none h s map1 (ptr d o') (ptr vb (vo + j * vs)) vs m2 = .ok (s, map1) m' := by
      simp only [copyInt]; rw [C.bind_ok g1]; rfl
    simp only [getValueInt, Point.inSearch, Point.inValue]
    rw [C.bind_ok (i1 j hj hkey hfirst)]
    simp only [if_pos hj1]
    rw [Sh1.hvs, C.bind_ok (i32_mul hjn Sh1.limv m2), Sh1.hv, ptr_addZ_nat, toSizeT_nat Sh1.vs_lt, C.bind_ok e2]
    rfl
  · intro hno
    have hj1 : ¬ ((-1 : Int) ≠ -1) := by decide
    simp only [getValueInt, Point.inSearch, Point.inValue]
    rw [C.bind_ok (i2 hno)]
    simp only [if_neg hj1]
    rfl

/-- A lookup interrupted in its copy. -/
theorem get_value (V : View n ks vs kb ko vb vo d m0 m fk fv) (Sh : Shape n ks vs kb ko vb vo c map)
    (ha : Arg kb vb d m0 b o ks) (hdk : d ≠ kb) (hdv : d ≠ vb) (ho : o' + vs ≤ (m0.bytes d).length)
    {j : Nat} (hj : j < c) (hkey : fk j = slice (m0.bytes b) o ks) (hfirst : ∀ l, l < j → fk l ≠ slice (m0.bytes b) o ks)
    (S : Nat → Bool) (h : Handler) :
    ∃ m1, View n ks vs kb ko vb vo d m0 m1 fk fv ∧
      slice (m1.bytes d) o' vs = mixed S (fv j) (slice (m.bytes d) o' vs) ∧
      ∀ s map1 m2 fk1 fv1, Handled n ks vs kb ko vb vo d m0 m1 m2 h map s map1 fk1 fv1 →
        ∃ m', getValueInt (.value S) h map (ptr b o) (ptr d o') m = .ok (s, true, map1) m' ∧
          View n ks vs kb ko vb vo d m0 m' fk1 fv1 ∧
          slice (m'.bytes d) o' vs = mixed (fun i => !S i) (fv1 j) (slice (m2.bytes d) o' vs) := by
  have hidx := (search_quiet (h := h) V Sh ha).1 j hj hkey hfirst
  have hjn : j < n := by have := Sh.size_le; omega
  obtain ⟨m1, g1, V1, d1⟩ := outPart V hjn hdk hdv (o := o') (by rw [V.len]; exact ho) S
  refine ⟨m1, V1, d1, ?_⟩
  rintro s map1 m2 fk1 fv1 ⟨hh, V2⟩
  obtain ⟨m3, g3, V3, d3⟩ := outPart V2 hjn hdk hdv (o := o') (by rw [V2.len]; exact ho) (fun i => !S i)
  refine ⟨m3, ?_, V3, d3⟩
  have hj1 : (j : Int) ≠ -1 := by omega
  have e2 : copyInt (some S) h false map (ptr d o') (ptr vb (vo + j * vs)) vs m = .ok (s, map1) m3 := by
    simp only [copyInt]; rw [C.bind_ok g1, C.bind_ok hh, C.bind_ok g3]; rfl
  simp only [getValueInt, Point.inSearch, Point.inValue]
  rw [C.bind_ok hidx]
  simp only [if_pos hj1]
  rw [Sh.hvs, C.bind_ok (i32_mul hjn Sh.limv m), Sh.hv, ptr_addZ_nat, toSizeT_nat Sh.vs_lt, C.bind_ok e2]
  rfl

theorem memcpy_beyond {x y b o s : Nat} {m : Mem} (hne : x ≠ b) (hs : 0 < s) (hsrc : o + s ≤ (m.bytes b).length)
    (hdst : (m.bytes x).length < y + s) : memcpy (ptr x y) (ptr b o) s m = .ub .oobWrite := by
  unfold memcpy
  rw [overlaps_blk (p := ptr x y) (q := ptr b o) s hne]
  simp only [Bool.false_eq_true, if_false]
  rw [C.bind_ok (loadN_ok hsrc)]
  have hl : (slice (m.bytes b) o s).length = s := slice_length _ _ _ hsrc
  refine storeN_oob ?_ (by rw [hl]; exact hdst)
  intro h; rw [h] at hl; simp at hl; omega

theorem i32_last {a b : Nat} (h : a * b < 2 ^ 31) (m : Mem) : i32 ((a : Int) * (b : Int)) m = .ok ((a * b : Nat) : Int) m := by
  rw [← Int.natCast_mul]; exact i32_ok (by omega) m

theorem ins_room_over (V : View n ks vs kb ko vb vo d m0 m fk fv) (Sh : Shape n ks vs kb ko vb vo c map) (hc : c < n)
    (ha : Arg kb vb d m0 b o ks)
    (hh : Handled n ks vs kb ko vb vo d m0 m m2 h map s map1 fk1 fv1) (Sh1 : Shape n ks vs kb ko vb vo n map1)
    (hnew : ∀ l, l < c → fk l ≠ slice (m0.bytes b) o ks) (hend : (m0.bytes kb).length = ko + n * ks) (hfit : n * ks < 2 ^ 31)
    (value : Ptr) : insertInt .room h map (ptr b o) value m = .ub .oobWrite := by
  obtain ⟨hh, V1⟩ := hh
  have hidx := (search_quiet (h := h) V Sh ha).2 hnew
  have hne : map.current_size ≠ map.max_map_size := by rw [Sh.size, Sh.hmx]; omega
  have hpos := Sh.ks_pos
  have hover : memcpy (ptr kb (ko + n * ks)) (ptr b o) ks m2 = .ub .oobWrite :=
    memcpy_beyond (Ne.symm ha.nk) hpos (by rw [V1.len]; exact ha.le) (by rw [V1.len, hend]; omega)
  simp only [insertInt, Point.inSearch, Point.inKey, Point.inValue]
  rw [C.bind_ok hidx]
  simp only [if_true]
  rw [if_pos hne, C.bind_ok hh]
  simp only
  rw [Sh1.size, Sh1.hks, C.bind_ok (i32_last hfit m2), Sh1.hk, ptr_addZ_nat, toSizeT_nat Sh1.ks_lt]
  exact C.bind_ub (C.bind_ub hover)

theorem ins_key_over (V : View n ks vs kb ko vb vo d m0 m fk fv) (Sh : Shape n ks vs kb ko vb vo c map) (hc : c < n)
    (ha : Arg kb vb d m0 b o ks) (hb : Arg kb vb d m0 b' o' vs)
    (hnew : ∀ l, l < c → fk l ≠ slice (m0.bytes b) o ks) (S : Nat → Bool) (h : Handler)
    (hend : (m0.bytes vb).length = vo + n * vs) (hfit : n * vs < 2 ^ 31) :
    ∃ m1, View n ks vs kb ko vb vo d m0 m1 (put fk c (mixed S (slice (m0.bytes b) o ks) (fk c))) fv ∧
      ∀ s map1 m2 fk1 fv1, Handled n ks vs kb ko vb vo d m0 m1 m2 h map s map1 fk1 fv1 →
        Shape n ks vs kb ko vb vo n map1 → insertInt (.key S) h map (ptr b o) (ptr b' o') m = .ub .oobWrite := by
  have hidx := (search_quiet (h := h) V Sh ha).2 hnew
  obtain ⟨m1, V1, hcont⟩ := copyK_int V Sh hc ha S h false
  refine ⟨m1, V1, ?_⟩
  intro s map1 m2 fk1 fv1 hh Sh1
  obtain ⟨m3, g3, f3, V3⟩ := hcont s map1 m2 fk1 fv1 hh
  have hne : map.current_size ≠ map.max_map_size := by rw [Sh.size, Sh.hmx]; omega
  have hpos := Sh.vs_pos
  have hover : memcpy (ptr vb (vo + n * vs)) (ptr b' o') vs m3 = .ub .oobWrite :=
    memcpy_beyond (Ne.symm hb.nv) hpos (by rw [V3.len]; exact hb.le) (by rw [V3.len, hend]; omega)
  simp only [insertInt, Point.inSearch, Point.inKey, Point.inValue]
  rw [C.bind_ok hidx]
  simp only [if_true]
  rw [if_pos hne, C.bind_ok (C.pure_run _ _)]
  simp only
  rw [Sh.size, Sh.hks, C.bind_ok (i32_mul hc Sh.limk m), Sh.hk, ptr_addZ_nat, toSizeT_nat Sh.ks_lt, C.bind_ok g3]
  simp only
  rw [Sh1.size, Sh1.hvs, C.bind_ok (i32_last hfit m3), Sh1.hv, ptr_addZ_nat, toSizeT_nat Sh1.vs_lt]
  exact C.bind_ub (C.bind_ub hover)

/-- A search of one place too many. -/
theorem loop_over (V : View n ks vs kb ko vb vo d m0 m fk fv) (hk : map.keys = ptr kb ko) (hks : map.key_size = (ks : Int))
    (hpos : 0 < ks) (hlt : ks < 2 ^ 31) (ha : Arg kb vb d m0 b o ks) (hend : (m0.bytes kb).length = ko + n * ks)
    (hfit : n * ks < 2 ^ 31) (hno : ∀ l, l < n → fk l ≠ slice (m0.bytes b) o ks) :
    ∀ (r i : Nat), i + r = n → getIndexLoop map (ptr b o) (r + 1) (i : Int) m = .ub .oobRead := by
  intro r
  induction r with
  | zero =>
    intro i hi
    have : i = n := by omega
    subst this
    simp only [getIndexLoop]
    rw [hks, C.bind_ok (i32_last hfit m), hk, ptr_addZ_nat, toSizeT_nat hlt]
    exact C.bind_ub (C.bind_ub (loadN_oob hpos (by rw [V.len, hend]; omega)))
  | succ r ih =>
    intro i hi
    have hin : i < n := by omega
    have hle : i * ks < 2 ^ 31 := Nat.lt_of_le_of_lt (Nat.mul_le_mul_right _ (Nat.le_of_lt hin)) hfit
    have hmem : memeq (ptr kb (ko + i * ks)) (ptr b o) ks m = .ok false m := by
      have h1 : ko + i * ks + ks ≤ (m.bytes kb).length := by
        have := V.klen
        have : i * ks + ks ≤ n * ks := by rw [← Nat.succ_mul]; exact Nat.mul_le_mul_right _ hin
        omega
      unfold memeq
      rw [C.bind_ok (loadN_ok h1), C.bind_ok (loadN_ok (by rw [V.len]; exact ha.le)), V.k i hin, V.ext b ha.nk ha.nv ha.nd]
      have := hno i hin
      simp [C.pure_run, this]
    rw [getIndexLoop, hks, C.bind_ok (i32_last hle m), hk, ptr_addZ_nat, toSizeT_nat hlt, C.bind_ok hmem]
    exact ih (i + 1) (by omega)

end

end IMU.Map
