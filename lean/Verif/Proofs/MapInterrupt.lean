import Verif.Proofs.MapHistory
import Verif.Spec.MapInterrupt

namespace IMU.Map
open Spec Utils
open IMU.Queue (slot_le slot_disj)

/-- The parts of the structure that never change, and `c` entries. -/
structure Shape (n ks vs kb ko vb vo c : Nat) (map : MapT) : Prop where
  hk : map.keys = ptr kb ko
  hv : map.values = ptr vb vo
  hks : map.key_size = (ks : Int)
  hvs : map.value_size = (vs : Int)
  hmx : map.max_map_size = (n : Int)
  size : map.current_size = (c : Int)
  size_le : c ≤ n
  ks_pos : 0 < ks
  vs_pos : 0 < vs
  ks_lt : ks < 2 ^ 31
  vs_lt : vs < 2 ^ 31
  n_lt : n < 2 ^ 31
  limk : (n - 1) * ks < 2 ^ 31
  limv : (n - 1) * vs < 2 ^ 31
  apart : kb ≠ vb ∨ ko + n * ks ≤ vo ∨ vo + n * vs ≤ ko

/-- The places hold the keys `fk` and values `fv`; outside the arrays and object `d` memory is as in `m0`. -/
structure View (n ks vs kb ko vb vo d : Nat) (m0 m : Mem) (fk fv : Nat → Bytes) : Prop where
  klen : ko + n * ks ≤ (m.bytes kb).length
  vlen : vo + n * vs ≤ (m.bytes vb).length
  len : ∀ b, (m.bytes b).length = (m0.bytes b).length
  ext : ∀ b, b ≠ kb → b ≠ vb → b ≠ d → m.bytes b = m0.bytes b
  k : ∀ j, j < n → slice (m.bytes kb) (ko + j * ks) ks = fk j
  v : ∀ j, j < n → slice (m.bytes vb) (vo + j * vs) vs = fv j

/-- A valid argument outside the arrays and `d`. -/
structure Arg (kb vb d : Nat) (m0 : Mem) (b o s : Nat) : Prop where
  nk : b ≠ kb
  nv : b ≠ vb
  nd : b ≠ d
  le : o + s ≤ (m0.bytes b).length

def put (f : Nat → Bytes) (j : Nat) (x : Bytes) : Nat → Bytes := fun i => if i = j then x else f i

theorem put_same (f : Nat → Bytes) (j : Nat) (x : Bytes) : put f j x j = x := by simp [put]
theorem put_ne (f : Nat → Bytes) {j i : Nat} (x : Bytes) (h : i ≠ j) : put f j x i = f i := by simp [put, h]
theorem put_put (f : Nat → Bytes) (j : Nat) (x y : Bytes) : put (put f j x) j y = put f j y := by
  funext i; by_cases h : i = j <;> simp [put, h]

/-- The structure with `c + 1` entries. -/
def grown (map : MapT) (c : Nat) : MapT := { map with current_size := (c : Int) + 1 }

section
variable {n ks vs kb ko vb vo d c : Nat} {map : MapT} {m0 m : Mem} {fk fv : Nat → Bytes}

theorem memcpyPart_ok {b o b' o' n : Nat} {m : Mem} (S : Nat → Bool)
    (hd : o + n ≤ (m.bytes b).length) (hs : o' + n ≤ (m.bytes b').length)
    (hno : b ≠ b' ∨ o + n ≤ o' ∨ o' + n ≤ o) :
    memcpyPart S (ptr b o) (ptr b' o') n m =
      .ok () (m.upd b (splice (m.bytes b) o (mixed S (slice (m.bytes b') o' n) (slice (m.bytes b) o n)))) := by
  have hov : overlaps (ptr b o) (ptr b' o') n = false := by
    by_cases hb : b = b'
    · subst hb; rw [overlaps_ptr]; simp; omega
    · exact overlaps_blk _ hb
  unfold memcpyPart
  rw [hov]
  simp only [Bool.false_eq_true, if_false, C.bind_run, loadN_ok hs, loadN_ok hd]
  have e : ((List.range n).map fun i => if S i then (slice (m.bytes b') o' n).getD i 0 else (slice (m.bytes b) o n).getD i 0)
      = mixed S (slice (m.bytes b') o' n) (slice (m.bytes b) o n) := by
    unfold mixed; rw [slice_length _ _ _ hd]
  rw [e]
  refine storeN_ok ?_
  simp only [mixed, List.length_map, List.length_range]
  rw [slice_length _ _ _ hd]; exact hd

theorem mixed_length (S : Nat → Bool) (a b : Bytes) : (mixed S a b).length = b.length := by simp [mixed]

theorem mixed_get (S : Nat → Bool) (a b : Bytes) (i : Nat) (hab : a.length = b.length) :
    (mixed S a b)[i]? = if S i then a[i]? else b[i]? := by
  by_cases hi : i < b.length
  · simp only [mixed, List.getElem?_map, List.getElem?_range hi, Option.map_some]
    split <;> simp [hi, hab]
  · rw [List.getElem?_eq_none (by rw [mixed_length]; omega), List.getElem?_eq_none (by omega),
      List.getElem?_eq_none (by omega)]
    simp

/-- Copying the rest completes the copy. -/
theorem mixed_rest (S : Nat → Bool) (a b : Bytes) (hab : a.length = b.length) :
    mixed (fun i => !S i) a (mixed S a b) = a := by
  apply List.ext_getElem?; intro i
  rw [mixed_get _ _ _ _ (by rw [mixed_length]; exact hab), mixed_get _ _ _ _ hab]
  cases S i <;> simp

theorem View.lenk (h : View n ks vs kb ko vb vo d m0 m fk fv) {j : Nat} (hj : j < n) : (fk j).length = ks := by
  rw [← h.k j hj]; exact slice_length _ _ _ (by have := slot_le ks hj; have := h.klen; omega)
theorem View.lenv (h : View n ks vs kb ko vb vo d m0 m fk fv) {j : Nat} (hj : j < n) : (fv j).length = vs := by
  rw [← h.v j hj]; exact slice_length _ _ _ (by have := slot_le vs hj; have := h.vlen; omega)

theorem View.start (m : Mem) (klen : ko + n * ks ≤ (m.bytes kb).length) (vlen : vo + n * vs ≤ (m.bytes vb).length) :
    View n ks vs kb ko vb vo d m m (fun j => (mapSlot ks vs kb ko vb vo m j).1) (fun j => (mapSlot ks vs kb ko vb vo m j).2) :=
  ⟨klen, vlen, fun _ => rfl, fun _ _ _ _ => rfl, fun _ _ => rfl, fun _ _ => rfl⟩

/-- Writing a key. -/
theorem View.setK (h : View n ks vs kb ko vb vo d m0 m fk fv) (hs : Shape n ks vs kb ko vb vo c map) {j : Nat} (hj : j < n)
    (x : Bytes) (hx : x.length = ks) :
    View n ks vs kb ko vb vo d m0 (m.upd kb (splice (m.bytes kb) (ko + j * ks) x)) (put fk j x) fv := by
  have h1 := slot_le ks hj
  have h2 := h.klen
  have hw : ko + j * ks + x.length ≤ (m.bytes kb).length := by omega
  have hap := hs.apart
  refine ⟨?_, ?_, ?_, ?_, ?_, ?_⟩
  · rw [length_upd_splice hw]; exact h.klen
  · rw [length_upd_splice hw]; exact h.vlen
  · intro b; rw [length_upd_splice hw]; exact h.len b
  · intro b b1 b2 b3; rw [Mem.upd_bytes, if_neg b1]; exact h.ext b b1 b2 b3
  · intro i hi
    by_cases hij : i = j
    · subst hij; rw [put_same]; exact slice_upd_same hw hx
    · have := slot_disj ks hij
      rw [put_ne _ _ hij, slice_upd_apart hw (by omega)]; exact h.k i hi
  · intro i hi
    have := slot_le vs hi
    rw [slice_upd_apart hw (by omega)]; exact h.v i hi

/-- Writing a value. -/
theorem View.setV (h : View n ks vs kb ko vb vo d m0 m fk fv) (hs : Shape n ks vs kb ko vb vo c map) {j : Nat} (hj : j < n)
    (x : Bytes) (hx : x.length = vs) :
    View n ks vs kb ko vb vo d m0 (m.upd vb (splice (m.bytes vb) (vo + j * vs) x)) fk (put fv j x) := by
  have h1 := slot_le vs hj
  have h2 := h.vlen
  have hw : vo + j * vs + x.length ≤ (m.bytes vb).length := by omega
  have hap := hs.apart
  refine ⟨?_, ?_, ?_, ?_, ?_, ?_⟩
  · rw [length_upd_splice hw]; exact h.klen
  · rw [length_upd_splice hw]; exact h.vlen
  · intro b; rw [length_upd_splice hw]; exact h.len b
  · intro b b1 b2 b3; rw [Mem.upd_bytes, if_neg b2]; exact h.ext b b1 b2 b3
  · intro i hi
    have := slot_le ks hi
    rw [slice_upd_apart hw (by omega)]; exact h.k i hi
  · intro i hi
    by_cases hij : i = j
    · subst hij; rw [put_same]; exact slice_upd_same hw hx
    · have := slot_disj vs hij
      rw [put_ne _ _ hij, slice_upd_apart hw (by omega)]; exact h.v i hi

/-- Writing to `d`. -/
theorem View.setD (h : View n ks vs kb ko vb vo d m0 m fk fv) (hk : d ≠ kb) (hv : d ≠ vb) (o : Nat) (x : Bytes)
    (hx : o + x.length ≤ (m.bytes d).length) :
    View n ks vs kb ko vb vo d m0 (m.upd d (splice (m.bytes d) o x)) fk fv := by
  refine ⟨?_, ?_, ?_, ?_, ?_, ?_⟩
  · rw [length_upd_splice hx]; exact h.klen
  · rw [length_upd_splice hx]; exact h.vlen
  · intro b; rw [length_upd_splice hx]; exact h.len b
  · intro b b1 b2 b3; rw [Mem.upd_bytes, if_neg b3]; exact h.ext b b1 b2 b3
  · intro i hi; rw [Mem.upd_bytes, if_neg (Ne.symm hk)]; exact h.k i hi
  · intro i hi; rw [Mem.upd_bytes, if_neg (Ne.symm hv)]; exact h.v i hi

theorem View.arg (h : View n ks vs kb ko vb vo d m0 m fk fv) {b o s : Nat} (ha : Arg kb vb d m0 b o s) :
    m.bytes b = m0.bytes b := h.ext b ha.nk ha.nv ha.nd

theorem Arg.len {b o s : Nat} (ha : Arg kb vb d m0 b o s) : (slice (m0.bytes b) o s).length = s :=
  slice_length _ _ _ ha.le

theorem partK (h : View n ks vs kb ko vb vo d m0 m fk fv) (hs : Shape n ks vs kb ko vb vo c map) {j : Nat} (hj : j < n)
    {b o : Nat} (ha : Arg kb vb d m0 b o ks) (S : Nat → Bool) :
    ∃ m', memcpyPart S (ptr kb (ko + j * ks)) (ptr b o) ks m = .ok () m' ∧ (∀ x, x ≠ kb → m'.bytes x = m.bytes x) ∧
      View n ks vs kb ko vb vo d m0 m' (put fk j (mixed S (slice (m0.bytes b) o ks) (fk j))) fv := by
  have h1 := slot_le ks hj
  have h2 := h.klen
  refine ⟨_, memcpyPart_ok S (by omega) (by rw [h.arg ha]; exact ha.le) (.inl (Ne.symm ha.nk)), fun x hx => by rw [Mem.upd_bytes, if_neg hx], ?_⟩
  rw [h.arg ha, h.k j hj]
  exact h.setK hs hj _ (by rw [mixed_length]; exact h.lenk hj)

theorem fullK (h : View n ks vs kb ko vb vo d m0 m fk fv) (hs : Shape n ks vs kb ko vb vo c map) {j : Nat} (hj : j < n)
    {b o : Nat} (ha : Arg kb vb d m0 b o ks) :
    ∃ m', memcpy (ptr kb (ko + j * ks)) (ptr b o) ks m = .ok () m' ∧ (∀ x, x ≠ kb → m'.bytes x = m.bytes x) ∧
      View n ks vs kb ko vb vo d m0 m' (put fk j (slice (m0.bytes b) o ks)) fv := by
  have h1 := slot_le ks hj
  have h2 := h.klen
  refine ⟨_, memcpy_ok (by omega) (by rw [h.arg ha]; exact ha.le) (.inl (Ne.symm ha.nk)), fun x hx => by rw [Mem.upd_bytes, if_neg hx], ?_⟩
  rw [h.arg ha]
  exact h.setK hs hj _ ha.len

theorem partV (h : View n ks vs kb ko vb vo d m0 m fk fv) (hs : Shape n ks vs kb ko vb vo c map) {j : Nat} (hj : j < n)
    {b o : Nat} (ha : Arg kb vb d m0 b o vs) (S : Nat → Bool) :
    ∃ m', memcpyPart S (ptr vb (vo + j * vs)) (ptr b o) vs m = .ok () m' ∧ (∀ x, x ≠ vb → m'.bytes x = m.bytes x) ∧
      View n ks vs kb ko vb vo d m0 m' fk (put fv j (mixed S (slice (m0.bytes b) o vs) (fv j))) := by
  have h1 := slot_le vs hj
  have h2 := h.vlen
  refine ⟨_, memcpyPart_ok S (by omega) (by rw [h.arg ha]; exact ha.le) (.inl (Ne.symm ha.nv)), fun x hx => by rw [Mem.upd_bytes, if_neg hx], ?_⟩
  rw [h.arg ha, h.v j hj]
  exact h.setV hs hj _ (by rw [mixed_length]; exact h.lenv hj)

theorem fullV (h : View n ks vs kb ko vb vo d m0 m fk fv) (hs : Shape n ks vs kb ko vb vo c map) {j : Nat} (hj : j < n)
    {b o : Nat} (ha : Arg kb vb d m0 b o vs) :
    ∃ m', memcpy (ptr vb (vo + j * vs)) (ptr b o) vs m = .ok () m' ∧ (∀ x, x ≠ vb → m'.bytes x = m.bytes x) ∧
      View n ks vs kb ko vb vo d m0 m' fk (put fv j (slice (m0.bytes b) o vs)) := by
  have h1 := slot_le vs hj
  have h2 := h.vlen
  refine ⟨_, memcpy_ok (by omega) (by rw [h.arg ha]; exact ha.le) (.inl (Ne.symm ha.nv)), fun x hx => by rw [Mem.upd_bytes, if_neg hx], ?_⟩
  rw [h.arg ha]
  exact h.setV hs hj _ ha.len

theorem outPart (h : View n ks vs kb ko vb vo d m0 m fk fv) {j : Nat} (hj : j < n) (hdk : d ≠ kb) (hdv : d ≠ vb) {o : Nat}
    (ho : o + vs ≤ (m.bytes d).length) (S : Nat → Bool) :
    ∃ m', memcpyPart S (ptr d o) (ptr vb (vo + j * vs)) vs m = .ok () m' ∧ View n ks vs kb ko vb vo d m0 m' fk fv ∧
      slice (m'.bytes d) o vs = mixed S (fv j) (slice (m.bytes d) o vs) := by
  have h1 := slot_le vs hj
  have h2 := h.vlen
  have hl : (mixed S (fv j) (slice (m.bytes d) o vs)).length = vs := by rw [mixed_length]; exact slice_length _ _ _ ho
  refine ⟨_, memcpyPart_ok S ho (by omega) (.inl hdv), ?_, ?_⟩
  · rw [h.v j hj]; exact h.setD hdk hdv _ _ (by omega)
  · rw [h.v j hj]; exact slice_upd_same (by omega) hl

theorem outFull (h : View n ks vs kb ko vb vo d m0 m fk fv) {j : Nat} (hj : j < n) (hdk : d ≠ kb) (hdv : d ≠ vb) {o : Nat}
    (ho : o + vs ≤ (m.bytes d).length) :
    ∃ m', memcpy (ptr d o) (ptr vb (vo + j * vs)) vs m = .ok () m' ∧ View n ks vs kb ko vb vo d m0 m' fk fv ∧
      slice (m'.bytes d) o vs = fv j := by
  have h1 := slot_le vs hj
  have h2 := h.vlen
  have hl := h.lenv hj
  refine ⟨_, memcpy_ok ho (by omega) (.inl hdv), ?_, ?_⟩
  · rw [h.v j hj]; exact h.setD hdk hdv _ _ (by omega)
  · rw [h.v j hj]; exact slice_upd_same (by omega) hl

/-- The search over the places `i .. i + r - 1`. -/
theorem loop_view (h : View n ks vs kb ko vb vo d m0 m fk fv) (hs : Shape n ks vs kb ko vb vo c map)
    {b o : Nat} (ha : Arg kb vb d m0 b o ks) : ∀ (r i : Nat), i + r ≤ n →
    (∃ j, i ≤ j ∧ j < i + r ∧ fk j = slice (m0.bytes b) o ks ∧ (∀ l, i ≤ l → l < j → fk l ≠ slice (m0.bytes b) o ks) ∧
      getIndexLoop map (ptr b o) r (i : Int) m = .ok (j : Int) m) ∨
    ((∀ l, i ≤ l → l < i + r → fk l ≠ slice (m0.bytes b) o ks) ∧
      getIndexLoop map (ptr b o) r (i : Int) m = .ok (-1) m) := by
  intro r
  induction r with
  | zero => intro i _; exact .inr ⟨fun l h1 h2 => by omega, rfl⟩
  | succ r ih =>
    intro i hi
    have hin : i < n := by omega
    have hsl := slot_le ks hin
    have hkl := h.klen
    have hcmp := memeq_ok (b := kb) (o := ko + i * ks) (b' := b) (o' := o) (n := ks) (m := m) (by omega)
      (by rw [h.arg ha]; exact ha.le)
    rw [h.k i hin, h.arg ha] at hcmp
    have hrun : getIndexLoop map (ptr b o) (r + 1) (i : Int) m =
        if fk i == slice (m0.bytes b) o ks then .ok (i : Int) m
        else getIndexLoop map (ptr b o) r ((i + 1 : Nat) : Int) m := by
      simp only [getIndexLoop, C.bind_run, hs.hks, i32_mul hin hs.limk, hs.hk, ptr_addZ_nat,
        toSizeT_nat hs.ks_lt, hcmp]
      rw [C.ite_run]; rfl
    rw [hrun]
    by_cases heq : fk i = slice (m0.bytes b) o ks
    · refine .inl ⟨i, Nat.le_refl _, by omega, heq, fun l h1 h2 => by omega, ?_⟩
      rw [if_pos (by simpa using heq)]
    · rw [if_neg (by simpa using heq)]
      rcases ih (i + 1) (by omega) with ⟨j, h1, h2, h3, h4, h5⟩ | ⟨h1, h2⟩
      · refine .inl ⟨j, by omega, by omega, h3, ?_, h5⟩
        intro l hl1 hl2
        by_cases hli : l = i
        · subst hli; exact heq
        · exact h4 l (by omega) hl2
      · refine .inr ⟨?_, h2⟩
        intro l hl1 hl2
        by_cases hli : l = i
        · subst hli; exact heq
        · exact h1 l (by omega) (by omega)

theorem index_view (h : View n ks vs kb ko vb vo d m0 m fk fv) (hs : Shape n ks vs kb ko vb vo c map)
    {b o : Nat} (ha : Arg kb vb d m0 b o ks) :
    (∃ j, j < c ∧ fk j = slice (m0.bytes b) o ks ∧ (∀ l, l < j → fk l ≠ slice (m0.bytes b) o ks) ∧
      getIndex map (ptr b o) map.current_size m = .ok (j : Int) m) ∨
    ((∀ l, l < c → fk l ≠ slice (m0.bytes b) o ks) ∧
      getIndex map (ptr b o) map.current_size m = .ok (-1) m) := by
  unfold getIndex
  rw [hs.size, Int.toNat_natCast]
  have := hs.size_le
  rcases loop_view h hs ha c 0 (by omega) with ⟨j, h1, h2, h3, h4, h5⟩ | ⟨h1, h2⟩
  · exact .inl ⟨j, by omega, h3, fun l hl => h4 l (by omega) hl, h5⟩
  · exact .inr ⟨fun l hl => h1 l (by omega) (by omega), h2⟩

theorem Shape.grow (hs : Shape n ks vs kb ko vb vo c map) (hc : c < n) :
    Shape n ks vs kb ko vb vo (c + 1) (grown map c) :=
  { hs with size := by simp [grown], size_le := by omega }

/-- A handler that inserts. -/
theorem writer_view (h : View n ks vs kb ko vb vo d m0 m fk fv) (hs : Shape n ks vs kb ko vb vo c map)
    {b o b' o' : Nat} (ha : Arg kb vb d m0 b o ks) (hb : Arg kb vb d m0 b' o' vs) :
    (∃ j m', j < c ∧ fk j = slice (m0.bytes b) o ks ∧ (∀ l, l < j → fk l ≠ slice (m0.bytes b) o ks) ∧
      writer (ptr b o) (ptr b' o') map m = .ok (true, map) m' ∧ (∀ x, x ≠ kb → x ≠ vb → m'.bytes x = m.bytes x) ∧
      View n ks vs kb ko vb vo d m0 m' fk (put fv j (slice (m0.bytes b') o' vs))) ∨
    ((∀ l, l < c → fk l ≠ slice (m0.bytes b) o ks) ∧ c < n ∧
      ∃ m', writer (ptr b o) (ptr b' o') map m = .ok (true, grown map c) m' ∧
        (∀ x, x ≠ kb → x ≠ vb → m'.bytes x = m.bytes x) ∧
        View n ks vs kb ko vb vo d m0 m' (put fk c (slice (m0.bytes b) o ks)) (put fv c (slice (m0.bytes b') o' vs))) ∨
    ((∀ l, l < c → fk l ≠ slice (m0.bytes b) o ks) ∧ c = n ∧
      writer (ptr b o) (ptr b' o') map m = .ok (false, map) m) := by
  have hle := hs.size_le
  rcases index_view h hs ha with ⟨j, h1, h2, h3, h4⟩ | ⟨h1, h2⟩
  · obtain ⟨m', g1, f1, g2⟩ := fullV h hs (j := j) (by omega) hb
    refine .inl ⟨j, m', h1, h2, h3, ?_, fun x _ x2 => f1 x x2, g2⟩
    have hj : (j : Int) ≠ -1 := by omega
    simp only [writer, insert, C.bind_run, h4, if_neg hj, hs.hvs, i32_mul (show j < n by omega) hs.limv, hs.hv, ptr_addZ_nat,
      toSizeT_nat hs.vs_lt, g1, C.pure_run, Option.getD_some]
  · rw [hs.size] at h2
    by_cases hc : c < n
    · obtain ⟨m1, g1, f1, g2⟩ := fullK h hs hc ha
      obtain ⟨m2, g3, f2, g4⟩ := fullV g2 hs hc hb
      refine .inr (.inl ⟨h1, hc, m2, ?_, fun x x1 x2 => by rw [f2 x x2, f1 x x1], g4⟩)
      have hne : (c : Int) ≠ (n : Int) := by omega
      have hins : insert (some map) (ptr b o) (ptr b' o') m =
          .ok (true, some { map with current_size := (c : Int) + 1 }) m2 := by
        simp only [insert]
        rw [hs.size, C.bind_ok h2, if_pos rfl, hs.hmx, if_pos hne, hs.hks, hs.hvs, C.bind_ok (i32_mul hc hs.limk m),
          hs.hk, hs.hv, ptr_addZ_nat, toSizeT_nat hs.ks_lt, C.bind_ok g1, C.bind_ok (i32_mul hc hs.limv m1),
          ptr_addZ_nat, toSizeT_nat hs.vs_lt, C.bind_ok g3, C.bind_ok (i32_succ hc hs.n_lt m2)]
        rfl
      rw [writer, C.bind_ok hins]
      rfl
    · have hcn : c = n := by omega
      refine .inr (.inr ⟨h1, hcn, ?_⟩)
      have hne : ¬ ((c : Int) ≠ (n : Int)) := by omega
      simp only [writer, insert, C.bind_run, h2, if_true, hs.size, hs.hmx, if_neg hne, C.pure_run, Option.getD_some]

/-- A handler that looks up. -/
theorem reader_view (h : View n ks vs kb ko vb vo d m0 m fk fv) (hs : Shape n ks vs kb ko vb vo c map)
    {b o o' : Nat} (ha : Arg kb vb d m0 b o ks) (hdk : d ≠ kb) (hdv : d ≠ vb) (ho : o' + vs ≤ (m0.bytes d).length) :
    (∃ j m', j < c ∧ fk j = slice (m0.bytes b) o ks ∧ (∀ l, l < j → fk l ≠ slice (m0.bytes b) o ks) ∧
      reader (ptr b o) (ptr d o') map m = .ok (true, map) m' ∧ View n ks vs kb ko vb vo d m0 m' fk fv ∧
      slice (m'.bytes d) o' vs = fv j) ∨
    ((∀ l, l < c → fk l ≠ slice (m0.bytes b) o ks) ∧ reader (ptr b o) (ptr d o') map m = .ok (false, map) m) := by
  have hle := hs.size_le
  rcases index_view h hs ha with ⟨j, h1, h2, h3, h4⟩ | ⟨h1, h2⟩
  · obtain ⟨m', g1, g2, g3⟩ := outFull h (j := j) (by omega) hdk hdv (o := o') (by rw [h.len]; exact ho)
    refine .inl ⟨j, m', h1, h2, h3, ?_, g2, g3⟩
    have hj : (j : Int) ≠ -1 := by omega
    simp only [reader, getValue, C.bind_run, h4, ne_eq, hj, not_false_eq_true, if_true, hs.hvs, i32_mul (show j < n by omega) hs.limv, hs.hv, ptr_addZ_nat,
      toSizeT_nat hs.vs_lt, g1, C.pure_run]
  · refine .inr ⟨h1, ?_⟩
    simp [reader, getValue, C.bind_run, h2]

theorem entries_view (h : View n ks vs kb ko vb vo d m0 m fk fv) (hs : Shape n ks vs kb ko vb vo c map) :
    mapEntries ks vs kb ko vb vo map m = (List.range c).map fun j => (fk j, fv j) := by
  unfold mapEntries
  rw [hs.size, Int.toNat_natCast]
  apply List.map_congr_left
  intro j hj
  rw [List.mem_range] at hj
  have := hs.size_le
  simp only [mapSlot, h.k j (by omega), h.v j (by omega)]

end

end IMU.Map
