import Verif.Proofs.JsonFind
import Verif.Spec.JsonHuge

/-! # `Json_findByKey` in buffers of 4 GiB and more -/

namespace IMU.Json
open Spec Spec.Json
open Base64 (Reads)

theorem ofNat32_toNat (n : Nat) : (BitVec.ofNat 32 n).toNat = n % 2 ^ 32 := BitVec.toNat_ofNat _ _

theorem prefix_take {k t : List Byte} : k <+: t ↔ t.take k.length = k := by
  rw [List.prefix_iff_eq_take]; exact ⟨fun h => h.symm, fun h => h.symm⟩

theorem search_huge {m : Mem} {b o bk ok : Nat} {T k : List Byte} (hT : Reads m b o T) (hk : Reads m bk ok k)
    (h0 : 0#8 ∉ k) (hkl : k.length < 2 ^ 64) {mx : U32} (hmx : mx.toNat + k.length ≤ T.length) {p : Nat} (hp : p ≤ mx.toNat)
    (hno : ∀ i, i < p → ¬ k <+: T.drop i) (fuel : Nat) :
    ∀ i n, p = i + n → search (ptr b o) (ptr bk ok) (BitVec.ofNat 64 k.length) mx (fuel + n) (BitVec.ofNat 32 i) m =
      search (ptr b o) (ptr bk ok) (BitVec.ofNat 64 k.length) mx fuel (BitVec.ofNat 32 p) m := by
  have := mx.isLt
  intro i n
  induction n generalizing i with
  | zero => intro h; rw [h]; rfl
  | succ n ih =>
    intro h
    rw [← Nat.add_assoc, search, if_pos (by rw [BitVec.lt_def, ofNat32 (by omega)]; omega)]
    have hr : Reads m b (o + i) ((T.drop i).take k.length) := reads_take (reads_drop hT i) _
    rw [ptr_addN, ofNat32 (by omega), ofNat64 hkl, C.bind_ok (strncmpEq_ok k h0 hk hr (by simp; omega)),
      if_neg (by simpa using fun e => hno i (by omega) (prefix_take.mpr e)), ofNat32_succ]
    exact ih (i + 1) (by omega)

theorem search_missed {m : Mem} {b o bk ok : Nat} {T k : List Byte} (hT : Reads m b o T) (hk : Reads m bk ok k)
    (h0 : 0#8 ∉ k) (hkl : k.length < 2 ^ 64) {mx : U32} (hmx : mx.toNat + k.length ≤ T.length)
    (hno : ∀ i, i < mx.toNat → ¬ k <+: T.drop i) {fuel : Nat} (hf : mx.toNat < fuel) :
    ∃ j, search (ptr b o) (ptr bk ok) (BitVec.ofNat 64 k.length) mx fuel 0#32 m = .ok (j, false) m := by
  obtain ⟨f, rfl⟩ : ∃ f, fuel = f + 1 + mx.toNat := ⟨fuel - 1 - mx.toNat, by omega⟩
  have h := search_huge hT hk h0 hkl hmx (Nat.le_refl _) hno (f + 1) 0 mx.toNat (by omega)
  refine ⟨BitVec.ofNat 32 mx.toNat, ?_⟩
  have e0 : (0#32 : U32) = BitVec.ofNat 32 0 := rfl
  rw [e0, h, search, if_neg (by rw [BitVec.lt_def, ofNat32 mx.isLt]; omega)]
  rfl

theorem search_found {m : Mem} {b o bk ok : Nat} {T k : List Byte} (hT : Reads m b o T) (hk : Reads m bk ok k)
    (h0 : 0#8 ∉ k) (hkl : k.length < 2 ^ 63) {mx : U32} (hmx : mx.toNat + k.length ≤ T.length) {p : Nat} (hp : p < mx.toNat)
    (hf : FirstAt k T p) {c : Byte} (hc : T[p + k.length]? = some c) {fuel : Nat} (hfu : p < fuel) :
    search (ptr b o) (ptr bk ok) (BitVec.ofNat 64 k.length) mx fuel 0#32 m = .ok (BitVec.ofNat 32 p, c == 34#8) m := by
  have := mx.isLt
  obtain ⟨f, rfl⟩ : ∃ f, fuel = f + 1 + p := ⟨fuel - 1 - p, by omega⟩
  have h := search_huge hT hk h0 (by omega) hmx (Nat.le_of_lt hp) hf.2 (f + 1) 0 p (by omega)
  have e0 : (0#32 : U32) = BitVec.ofNat 32 0 := rfl
  rw [e0, h, search, if_pos (by rw [BitVec.lt_def, ofNat32 (by omega)]; exact hp)]
  have hr : Reads m b (o + p) ((T.drop p).take k.length) := reads_take (reads_drop hT p) _
  rw [ptr_addN, ofNat32 (by omega), ofNat64 (by omega), C.bind_ok (strncmpEq_ok k h0 hk hr (by simp; omega)),
    if_pos (by simpa using prefix_take.mp hf.1), setWidth64 (by omega),
    show BitVec.ofNat 64 p + BitVec.ofNat 64 k.length = BitVec.ofNat 64 (p + k.length) by simp [BitVec.ofNat_add],
    ofNat64 (by omega), ptr_addN, C.bind_ok (hT.load hc)]
  rfl

theorem skip_ring {m : Mem} {b o : Nat} {T : List Byte} (hT : Reads m b o T) {size : SizeT} (hs : 2 ^ 32 ≤ size.toNat)
    (fuel : Nat) : ∀ i n, (∀ x, x < n → ∃ c, T[(i + x) % 2 ^ 32]? = some c ∧ c ≠ 34#8) →
    skip (ptr b o) size (fuel + n) (BitVec.ofNat 32 i) m = skip (ptr b o) size fuel (BitVec.ofNat 32 (i + n)) m := by
  intro i n
  induction n generalizing i with
  | zero => intro _; rfl
  | succ n ih =>
    intro h
    obtain ⟨c, hc, hq⟩ := h 0 (by omega)
    rw [Nat.add_zero] at hc
    have hlt : i % 2 ^ 32 < 2 ^ 32 := Nat.mod_lt _ (by decide)
    rw [← Nat.add_assoc, skip, if_pos (by rw [BitVec.lt_def, BitVec.toNat_setWidth, ofNat32_toNat]; omega), ptr_addN,
      ofNat32_toNat, C.bind_ok (hT.load hc), if_neg (by simpa using hq), ofNat32_succ, ih (i + 1) ?_,
      show i + 1 + n = i + (n + 1) by omega]
    intro x hx
    obtain ⟨c, hc, hq⟩ := h (x + 1) (by omega)
    exact ⟨c, by rw [← hc]; congr 2; omega, hq⟩

theorem skip_stop {m : Mem} {b o : Nat} {T : List Byte} (hT : Reads m b o T) {size : SizeT} (hs : 2 ^ 32 ≤ size.toNat)
    {i n fuel : Nat} (h : ∀ x, x < n → ∃ c, T[(i + x) % 2 ^ 32]? = some c ∧ c ≠ 34#8)
    (hn : T[(i + n) % 2 ^ 32]? = some 34#8) (hf : n < fuel) :
    skip (ptr b o) size fuel (BitVec.ofNat 32 i) m = .ok (BitVec.ofNat 32 (i + n)) m := by
  obtain ⟨f, rfl⟩ : ∃ f, fuel = f + 1 + n := ⟨fuel - 1 - n, by omega⟩
  have hlt : (i + n) % 2 ^ 32 < 2 ^ 32 := Nat.mod_lt _ (by decide)
  rw [skip_ring hT hs (f + 1) i n h, skip, if_pos (by rw [BitVec.lt_def, BitVec.toNat_setWidth, ofNat32_toNat]; omega),
    ptr_addN, ofNat32_toNat, C.bind_ok (hT.load hn), if_pos (by decide)]
  rfl

theorem skip_endless {m : Mem} {b o : Nat} {T : List Byte} (hT : Reads m b o T) {size : SizeT} (hs : 2 ^ 32 ≤ size.toNat)
    (hl : 2 ^ 32 ≤ T.length) (hno : 34#8 ∉ T.take (2 ^ 32)) (fuel : Nat) (i : Nat) :
    skip (ptr b o) size fuel (BitVec.ofNat 32 i) m = .ub .fuel := by
  have h := skip_ring hT hs 0 i fuel (m := m) (b := b) (o := o) ?_
  · rw [Nat.zero_add] at h; rw [h]; rfl
  · intro x _
    have hlt : (i + x) % 2 ^ 32 < 2 ^ 32 := Nat.mod_lt _ (by decide)
    refine ⟨T[(i + x) % 2 ^ 32]'(by omega), List.getElem?_eq_getElem _, fun e => hno ?_⟩
    rw [List.mem_take_iff_getElem]
    exact ⟨(i + x) % 2 ^ 32, by omega, e⟩

theorem copy_ring {b o bv ov : Nat} {T : List Byte} (hl : T.length = 2 ^ 32) {size mv : SizeT} (hs : 2 ^ 32 ≤ size.toNat)
    (hd : bv ≠ b ∨ ov + mv.toNat ≤ o ∨ o + 2 ^ 32 ≤ ov) (n : Nat) : ∀ fuel i (w : SizeT) (m : Mem), n < fuel →
    (∀ x, x < n → ∃ c, T[(i + x) % 2 ^ 32]? = some c ∧ c ≠ 34#8) → T[(i + n) % 2 ^ 32]? = some 34#8 →
    w.toNat ≤ mv.toNat → Reads m b o T → ov + mv.toNat ≤ (m.bytes bv).length →
    ∃ m', copy (ptr b o) size (ptr bv ov) mv fuel (BitVec.ofNat 32 i) w m = .ok (decide (n < mv.toNat - w.toNat)) m' ∧
      OnlyChanged m m' bv (ov + w.toNat) (mv.toNat - w.toNat) ∧
      (∀ x, x < n → x < mv.toNat - w.toNat → (m'.bytes bv)[ov + w.toNat + x]? = T[(i + x) % 2 ^ 32]?) ∧
      (n < mv.toNat - w.toNat → (m'.bytes bv)[ov + w.toNat + n]? = some 0#8) := by
  induction n with
  | zero =>
    intro fuel i w m hf _ hq hw hT hroom
    obtain ⟨fuel, rfl⟩ : ∃ f, fuel = f + 1 := ⟨fuel - 1, by omega⟩
    have hlt : i % 2 ^ 32 < 2 ^ 32 := Nat.mod_lt _ (by decide)
    rw [Nat.add_zero] at hq
    rw [copy]
    by_cases hwm : w.toNat < mv.toNat
    · obtain ⟨m1, a1, a2, a3⟩ := store_frame (m := m) (b := bv) (o := ov + w.toNat) (v := 34#8) (by omega)
      have hT1 : Reads m1 b o T := hT.store a1 (by omega)
      obtain ⟨m2, b1, b2, b3⟩ := store_frame (m := m1) (b := bv) (o := ov + w.toNat) (v := 0#8)
          (by rw [oc_length a2]; omega)
      rw [if_pos (by rw [BitVec.lt_def, BitVec.lt_def, BitVec.toNat_setWidth, ofNat32_toNat]; omega), ptr_addN,
        ofNat32_toNat, ptr_addN, C.bind_ok (hT.load hq), C.bind_ok a1, C.bind_ok (hT1.load hq), if_pos (by decide), C.bind_ok b1]
      refine ⟨m2, ?_, oc_trans (oc_mono a2 (by omega) (by omega)) (oc_mono b2 (by omega) (by omega)), ?_, ?_⟩
      · rw [decide_eq_true (by omega)]; rfl
      · intro x hx; omega
      · intro _; exact b3
    · rw [if_neg (by rw [BitVec.lt_def, BitVec.lt_def]; omega)]
      refine ⟨m, ?_, oc_refl _ _ _ _, fun x hx => by omega, fun h => by omega⟩
      rw [decide_eq_false (by omega)]; rfl
  | succ n ih =>
    intro fuel i w m hf hno hq hw hT hroom
    obtain ⟨fuel, rfl⟩ : ∃ f, fuel = f + 1 := ⟨fuel - 1, by omega⟩
    have hlt : i % 2 ^ 32 < 2 ^ 32 := Nat.mod_lt _ (by decide)
    rw [copy]
    by_cases hwm : w.toNat < mv.toNat
    · obtain ⟨c, hc, hcq⟩ := hno 0 (by omega)
      rw [Nat.add_zero] at hc
      obtain ⟨m1, a1, a2, a3⟩ := store_frame (m := m) (b := bv) (o := ov + w.toNat) (v := c) (by omega)
      have hT1 : Reads m1 b o T := hT.store a1 (by omega)
      have hw1 : (w + 1#64).toNat = w.toNat + 1 := by
        have := mv.isLt
        rw [BitVec.toNat_add]; simp only [BitVec.toNat_ofNat]; omega
      rw [if_pos (by rw [BitVec.lt_def, BitVec.lt_def, BitVec.toNat_setWidth, ofNat32_toNat]; omega), ptr_addN,
        ofNat32_toNat, ptr_addN, C.bind_ok (hT.load hc), C.bind_ok a1, C.bind_ok (hT1.load hc), if_neg (by simpa using hcq),
        ofNat32_succ]
      obtain ⟨m2, b1, b2, b3, b4⟩ := ih fuel (i + 1) (w + 1#64) m1 (by omega)
        (fun x hx => by
          obtain ⟨c, hc, hq⟩ := hno (x + 1) (by omega)
          exact ⟨c, by rw [← hc]; congr 2; omega, hq⟩)
        (by rw [← hq]; congr 2; omega) (by omega) hT1 (by rw [oc_length a2]; omega)
      refine ⟨m2, ?_, oc_trans (oc_mono a2 (by omega) (by omega)) (oc_mono b2 (by omega) (by omega)), ?_, ?_⟩
      · rw [b1]
        congr 1
        rw [hw1]
        exact decide_eq_decide.mpr (by omega)
      · intro x hx hxm
        cases x with
        | zero => rw [b2.2.2.2 _ (by omega), Nat.add_zero, Nat.add_zero, a3, hc]
        | succ x =>
          have := b3 x (by omega) (by omega)
          rw [hw1] at this
          rw [show ov + w.toNat + (x + 1) = ov + (w.toNat + 1) + x by omega, this]
          congr 2; omega
      · intro h
        have := b4 (by omega)
        rw [hw1] at this
        rw [← this]; congr 1; omega
    · rw [if_neg (by rw [BitVec.lt_def, BitVec.lt_def]; omega)]
      refine ⟨m, ?_, oc_refl _ _ _ _, fun x _ hx => by omega, fun h => by omega⟩
      rw [decide_eq_false (by omega)]; rfl

theorem around_get {B : List Byte} (hl : B.length = 2 ^ 32) {j : Nat} (hj : j ≤ 2 ^ 32) {x : Nat} (hx : x < 2 ^ 32) :
    (around B j)[x]? = B[(j + x) % 2 ^ 32]? := by
  unfold around
  by_cases h : x < 2 ^ 32 - j
  · rw [List.getElem?_append_left (by rw [List.length_drop]; omega), List.getElem?_drop, Nat.mod_eq_of_lt (by omega)]
  · rw [List.getElem?_append_right (by rw [List.length_drop]; omega), List.length_drop, hl, List.getElem?_take,
      if_pos (by omega), show (j + x) % 2 ^ 32 = x - (2 ^ 32 - j) by omega]

theorem maxSearch {size : SizeT} {k : List Byte} (hk : k.length < size.toNat) :
    (if BitVec.ofNat 64 k.length < size then (size - BitVec.ofNat 64 k.length).setWidth 32 else 0#32).toNat =
      (size.toNat - k.length) % 2 ^ 32 := by
  have := size.isLt
  rw [if_pos (by rw [BitVec.lt_def, ofNat64 (by omega)]; exact hk), BitVec.toNat_setWidth,
    BitVec.toNat_sub_of_le (by rw [BitVec.le_def, ofNat64 (by omega)]; omega), ofNat64 (by omega)]

theorem find_missed {m : Mem} {b o bk ok : Nat} {value : Ptr} {T k : List Byte} {size mv : SizeT} (hT : Reads m b o T)
    (hk : CStr (m.bytes bk) ok k) (hs : size.toNat = T.length) (hkl : k.length < T.length)
    (hno : ∀ i, i < (T.length - k.length) % 2 ^ 32 → ¬ k <+: T.drop i) :
    findByKey (ptr b o) size (ptr bk ok) value mv m = .ok false m := by
  have := size.isLt
  unfold findByKey
  rw [C.bind_ok (strlen_ok hk)]
  have hm := maxSearch (size := size) (k := k) (by omega)
  generalize (if BitVec.ofNat 64 k.length < size then (size - BitVec.ofNat 64 k.length).setWidth 32 else 0#32) = mx at *
  have hle := Nat.mod_le (size.toNat - k.length) (2 ^ 32)
  obtain ⟨j, hj⟩ := search_missed hT (reads_cstr hk) hk.1 (by omega) (mx := mx) (by omega)
    (by rw [hm, hs]; exact hno) (fuel := size.toNat + 1) (by omega)
  simp only []
  rw [C.bind_ok hj]
  rfl

theorem find_ring {m : Mem} {b o bk ok bv ov : Nat} {T k u r v s : List Byte} {size mv : SizeT} {p : Nat} (hT : Reads m b o T)
    (hk : CStr (m.bytes bk) ok k) (hs : size.toNat = T.length) (hl : 2 ^ 32 ≤ T.length)
    (hp : p < (T.length - k.length) % 2 ^ 32) (hf : FirstAt k T p) (hq : T[p + k.length]? = some 34#8)
    (hend : p + k.length < 2 ^ 32)
    (hroom : ov + mv.toNat ≤ (m.bytes bv).length) (hd : bv ≠ b ∨ ov + mv.toNat ≤ o ∨ o + 2 ^ 32 ≤ ov)
    (hu : around (T.take (2 ^ 32)) (p + k.length + 1) = u ++ 34#8 :: r) (hu34 : 34#8 ∉ u)
    (hv : r ++ u ++ [34#8] = v ++ 34#8 :: s) (hv34 : 34#8 ∉ v) :
    ∃ m', findByKey (ptr b o) size (ptr bk ok) (ptr bv ov) mv m = .ok (decide (v.length < mv.toNat)) m' ∧
      OnlyChanged m m' bv ov mv.toNat ∧
      (∀ x, x < v.length → x < mv.toNat → (m'.bytes bv)[ov + x]? = v[x]?) ∧
      (v.length < mv.toNat → (m'.bytes bv)[ov + v.length]? = some 0#8) := by
  have hsz := size.isLt
  have hm := maxSearch (size := size) (k := k) (by omega)
  unfold findByKey
  rw [C.bind_ok (strlen_ok hk)]
  generalize (if BitVec.ofNat 64 k.length < size then (size - BitVec.ofNat 64 k.length).setWidth 32 else 0#32) = mx at *
  have hle := Nat.mod_le (size.toNat - k.length) (2 ^ 32)
  simp only []
  rw [C.bind_ok (search_found hT (reads_cstr hk) hk.1 (by omega) (mx := mx) (by omega) (by rw [hm, hs]; exact hp) hf hq
    (fuel := size.toNat + 1) (by omega))]
  have e1 : BitVec.ofNat 32 p + (BitVec.ofNat 64 k.length + 1#64).setWidth 32 = BitVec.ofNat 32 (p + k.length + 1) := by
    apply BitVec.eq_of_toNat_eq
    rw [BitVec.toNat_add, BitVec.toNat_setWidth, BitVec.toNat_add, ofNat32 (by omega), ofNat64 (by omega), ofNat32_toNat]
    simp only [BitVec.toNat_ofNat]
    omega
  simp only [beq_self_eq_true, if_true, e1]
  have hBl : (T.take (2 ^ 32)).length = 2 ^ 32 := by rw [List.length_take]; omega
  have hB : Reads m b o (T.take (2 ^ 32)) := reads_take hT _
  generalize T.take (2 ^ 32) = B at *
  have hAl : (around B (p + k.length + 1)).length = 2 ^ 32 := by
    unfold around; rw [List.length_append, List.length_drop, List.length_take]; omega
  have hul : u.length + 1 + r.length = 2 ^ 32 := by
    rw [hu, List.length_append, List.length_cons] at hAl; omega
  have hskip : skip (ptr b o) size (size.toNat + 1) (BitVec.ofNat 32 (p + k.length + 1)) m =
      .ok (BitVec.ofNat 32 (p + k.length + 1 + u.length)) m := by
    apply skip_stop hB (by omega)
    · intro x hx
      refine ⟨u[x], ?_, fun e => hu34 (e ▸ List.getElem_mem _)⟩
      rw [← around_get hBl (by omega) (by omega), hu, List.getElem?_append_left hx, List.getElem?_eq_getElem hx]
    · rw [← around_get hBl (by omega) (by omega), hu, List.getElem?_append_right (Nat.le_refl _), Nat.sub_self]
      rfl
    · omega
  rw [C.bind_ok hskip, ofNat32_succ]
  have hvs : v.length + 1 + s.length = 2 ^ 32 := by
    have := congrArg List.length hv
    simp only [List.length_append, List.length_cons, List.length_nil] at this
    omega
  have hget : ∀ x, x < 2 ^ 32 → B[(p + k.length + 1 + u.length + 1 + x) % 2 ^ 32]? = (v ++ 34#8 :: s)[x]? := by
    intro x hx
    rw [← hv, List.append_assoc]
    by_cases h : x < r.length
    · rw [List.getElem?_append_left h, show p + k.length + 1 + u.length + 1 + x = p + k.length + 1 + (u.length + 1 + x) by omega,
        ← around_get hBl (by omega) (by omega), hu, List.getElem?_append_right (by omega),
        show u.length + 1 + x - u.length = x + 1 by omega, List.getElem?_cons_succ]
    · rw [List.getElem?_append_right (by omega),
        show (p + k.length + 1 + u.length + 1 + x) % 2 ^ 32 = (p + k.length + 1 + (x - r.length)) % 2 ^ 32 by omega,
        ← around_get hBl (by omega) (by omega), hu]
      by_cases h2 : x - r.length < u.length
      · rw [List.getElem?_append_left h2, List.getElem?_append_left h2]
      · rw [List.getElem?_append_right (by omega), List.getElem?_append_right (by omega),
          show x - r.length - u.length = 0 by omega]
        rfl
  obtain ⟨m', b1, b2, b3, b4⟩ := copy_ring (b := b) (o := o) hBl (size := size) (by omega) hd v.length (size.toNat + 1)
    (p + k.length + 1 + u.length + 1) 0#64 m (by omega)
    (fun x hx => ⟨v[x], by rw [hget x (by omega), List.getElem?_append_left hx, List.getElem?_eq_getElem hx],
      fun e => hv34 (e ▸ List.getElem_mem _)⟩)
    (by rw [hget _ (by omega), List.getElem?_append_right (Nat.le_refl _), Nat.sub_self]; rfl)
    (by simp) hB hroom
  simp only [show (0#64).toNat = 0 from rfl, Nat.add_zero, Nat.sub_zero] at b1 b2 b3 b4
  refine ⟨m', b1, b2, fun x hx hxm => ?_, b4⟩
  rw [b3 x hx hxm, hget x (by omega), List.getElem?_append_left hx]

theorem find_endless {m : Mem} {b o bk ok : Nat} {value : Ptr} {T k : List Byte} {size mv : SizeT} {p : Nat} (hT : Reads m b o T)
    (hk : CStr (m.bytes bk) ok k) (hs : size.toNat = T.length) (hl : 2 ^ 32 ≤ T.length) (hkl : k.length < 2 ^ 63)
    (hp : p < (T.length - k.length) % 2 ^ 32) (hf : FirstAt k T p) (hq : T[p + k.length]? = some 34#8)
    (hno : 34#8 ∉ T.take (2 ^ 32)) :
    findByKey (ptr b o) size (ptr bk ok) value mv m = .ub .fuel := by
  have hsz := size.isLt
  have hlt : p + k.length < T.length := by
    by_contra h
    rw [List.getElem?_eq_none (by omega)] at hq
    cases hq
  have hm := maxSearch (size := size) (k := k) (by omega)
  unfold findByKey
  rw [C.bind_ok (strlen_ok hk)]
  generalize (if BitVec.ofNat 64 k.length < size then (size - BitVec.ofNat 64 k.length).setWidth 32 else 0#32) = mx at *
  have hle := Nat.mod_le (size.toNat - k.length) (2 ^ 32)
  simp only []
  rw [C.bind_ok (search_found hT (reads_cstr hk) hk.1 hkl (mx := mx) (by omega) (by rw [hm, hs]; exact hp) hf hq
    (fuel := size.toNat + 1) (by omega))]
  simp only [beq_self_eq_true, if_true]
  rw [C.bind_run]
  have h := skip_endless hT (size := size) (by omega) hl hno (size.toNat + 1)
    (BitVec.ofNat 32 p + (BitVec.ofNat 64 k.length + 1#64).setWidth 32).toNat
  rw [BitVec.ofNat_toNat, BitVec.setWidth_eq] at h
  rw [h]

theorem find_limit {m : Mem} {b o bk ok bv ov : Nat} {T k r : List Byte} {size mv : SizeT} (hT : Reads m b o T)
    (hk : CStr (m.bytes bk) ok k) (hs : size.toNat = T.length) (hn : T.length = 2 ^ 32 - 1) (hkl : k.length < 2 ^ 64)
    (hroom : ov + mv.toNat ≤ (m.bytes bv).length) (hd : bv ≠ b ∨ ov + mv.toNat ≤ o ∨ o + T.length ≤ ov)
    (ha : afterKey k T = some r) (hr34 : 34#8 ∉ r) :
    ∃ m', findByKey (ptr b o) size (ptr bk ok) (ptr bv ov) mv m = .ok (decide ((T.takeWhile notQuote).length < mv.toNat)) m' ∧
      OnlyChanged m m' bv ov mv.toNat ∧
      ((T.takeWhile notQuote).length < mv.toNat → ∀ x, x ≤ (T.takeWhile notQuote).length →
        (m'.bytes bv)[ov + x]? = (T.takeWhile notQuote ++ [0#8])[x]?) := by
  have hkT : k.length < T.length := by
    by_contra h
    rw [afterKey_short k T (by omega)] at ha
    cases ha
  have hm := maxSearch (size := size) (k := k) (by omega)
  unfold findByKey
  rw [C.bind_ok (strlen_ok hk)]
  generalize (if BitVec.ofNat 64 k.length < size then (size - BitVec.ofNat 64 k.length).setWidth 32 else 0#32) = mx at *
  obtain ⟨j, a1, a2⟩ := search_ok hT (reads_cstr hk) hk.1 (by omega) (mx := mx) (by omega) (size.toNat + 1) 0 (by omega) (by omega)
  rw [List.drop_zero] at a1 a2
  simp only []
  rw [C.bind_ok a1, ha]
  obtain ⟨hr, hj⟩ := a2 r ha
  have e1 : BitVec.ofNat 32 j + (BitVec.ofNat 64 k.length + 1#64).setWidth 32 = BitVec.ofNat 32 (j + k.length + 1) := by
    apply BitVec.eq_of_toNat_eq
    rw [BitVec.toNat_add, BitVec.toNat_setWidth, BitVec.toNat_add, ofNat32 (by omega), ofNat64 hkl, ofNat32 (by omega)]
    simp only [BitVec.toNat_ofNat]
    omega
  simp only [Option.isSome_some, if_true, e1]
  have hrl : r.length = T.length - (j + k.length + 1) := by rw [hr, List.length_drop]
  have htw : (r.takeWhile notQuote).length = r.length := by
    have h1 := dropWhile_mem r hr34
    have h2 := congrArg List.length (List.takeWhile_append_dropWhile (p := notQuote) (l := r))
    rw [h1, List.append_nil] at h2
    exact h2
  rw [C.bind_ok (skip_ok hT (by omega) hs (size.toNat + 1) (j + k.length + 1) (by omega) (by omega)), ofNat32_succ, ← hr, htw,
    show BitVec.ofNat 32 (j + k.length + 1 + r.length + 1) = BitVec.ofNat 32 0 by
      apply BitVec.eq_of_toNat_eq; rw [ofNat32_toNat, ofNat32_toNat]; omega]
  obtain ⟨m', b1, b2, b3⟩ := copy_ok (b := b) (o := o) (by omega) hs hd (size.toNat + 1) 0 0#64 m (by omega) (by omega)
    (by omega) (by omega) (by simp) hT hroom
  simp only [show (0#64).toNat = 0 from rfl, Nat.add_zero, Nat.sub_zero, List.drop_zero] at b1 b2 b3
  have hmem : 34#8 ∈ T := by
    obtain ⟨pre, e, _⟩ := (afterKey_iff k T r).mp ha
    rw [e]; simp
  simp only [hmem, true_and] at b1 b3
  exact ⟨m', b1, b2, b3⟩

end IMU.Json
