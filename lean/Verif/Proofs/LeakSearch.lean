import Verif.Proofs.LeakContainers

/-!
# What the searches of the map and of the priority queue and the Caesar cipher show
-/

namespace IMU
open T Spec.Leak

theorem shows_storeW (b i : Nat) : ∃ tr, ∀ v, Shows (storeWT b i v) tr :=
  ⟨_, fun _ => Shows.bind (Shows.emit _) fun _ => Shows.quiet _⟩

theorem shows_loadW (b i : Nat) : ∃ tr, Shows (loadWT b i) tr :=
  ⟨_, Shows.bind (Shows.emit _) fun _ => Shows.quiet _⟩

/-- Lemma support: the computation shows the same whatever the memory. -/
def Fixed {α : Type} (x : T α) : Prop := ∃ tr, Shows x tr

theorem Fixed.pure {α : Type} (a : α) : Fixed (Pure.pure a : T α) := ⟨_, Shows.pure a⟩

theorem Fixed.branch {β : Type} {b : Bool} {f : Bool → T β} (h : Fixed (f b)) : Fixed (T.branch b >>= f) :=
  let ⟨_, h⟩ := h; ⟨_, Shows.branch_bind h⟩

theorem Fixed.memcpy {β : Type} {d s : Ptr} {n : Nat} {f : Unit → T β} (h : Fixed (f ())) : Fixed (memcpyT d s n >>= f) :=
  let ⟨_, h⟩ := h; ⟨_, Shows.bind (Shows.bind (Shows.emit _) fun _ => Shows.quiet _) fun _ => h⟩

theorem Fixed.i32 {β : Type} {x : Int} {f : Int → T β} (h : Fixed (f x)) : Fixed (T.quiet (IMU.i32 x) >>= f) := by
  obtain ⟨tr, hf⟩ := h
  refine ⟨tr, fun m a t m' h => ?_⟩
  obtain ⟨v1, t1, m1, r1, h1, x1, rfl⟩ := bind_cases h
  obtain ⟨g, rfl⟩ := quiet_cases h1
  unfold IMU.i32 at g
  split at g
  · cases g; exact hf _ _ _ _ x1
  · cases g

theorem Fixed.ite {α : Type} {c : Prop} [Decidable c] {x y : T α} (h : Fixed x) (h2 : Fixed y) : Fixed (if c then x else y) := by
  split
  · exact h
  · exact h2

/-! ### Decoding -/

/-- Lemma support: the number of reads before anything else. -/
def lead : List Leak → Nat
  | .read _ :: t => lead t + 1
  | _ => 0

theorem lead_append {t : List Leak} (h : ∀ x ∈ t, ∃ p, x = .read p) (b : Bool) (u : List Leak) :
    lead (t ++ .branch b :: u) = t.length := by
  induction t with
  | nil => rfl
  | cons x t ih =>
    obtain ⟨p, rfl⟩ := h x (List.mem_cons_self ..)
    show lead (t ++ _) + 1 = t.length + 1
    rw [ih fun y hy => h y (List.mem_cons_of_mem _ hy)]

theorem lead_inj {t t2 : List Leak} (h : ∀ x ∈ t, ∃ p, x = .read p) (h2 : ∀ x ∈ t2, ∃ p, x = .read p) {b b2 : Bool}
    {u u2 : List Leak} (e : t ++ .branch b :: u = t2 ++ .branch b2 :: u2) : t.length = t2.length ∧ b = b2 ∧ u = u2 := by
  have hl : t.length = t2.length := by rw [← lead_append h b u, e, lead_append h2]
  obtain ⟨-, e2⟩ := List.append_inj e hl
  rw [List.cons.injEq, Leak.branch.injEq] at e2
  exact ⟨hl, e2⟩

/-! ### Map -/

theorem agree_le : ∀ s t : List Byte, agree s t ≤ s.length
  | [], t => by simp [agree]
  | a :: s, [] => by simp [agree]
  | a :: s, b :: t => by
    unfold agree
    split
    · have := agree_le s t
      simp only [List.length_cons]; omega
    · omega

theorem agree_eq : ∀ {s t : List Byte}, s.length = t.length → (agree s t = s.length ↔ s = t)
  | [], [], _ => by simp [agree]
  | [], _ :: _, h => by simp at h
  | _ :: _, [], h => by simp at h
  | a :: s, b :: t, h => by
    unfold agree
    have ih := agree_eq (s := s) (t := t) (by simpa using h)
    by_cases hab : a = b
    · rw [if_pos hab, List.length_cons, Nat.add_right_cancel_iff, ih, hab, List.cons.injEq]
      exact ⟨fun h => ⟨rfl, h⟩, fun h => h.2⟩
    · rw [if_neg hab, List.length_cons, List.cons.injEq]
      exact ⟨fun h => absurd h (by omega), fun h => absurd h.1 hab⟩

namespace Map

/-- Lemma support: the reads of `n` byte pairs. -/
def pairs (p q : Ptr) (n : Nat) : List Leak :=
  (List.range n).flatMap fun i => [.read (p.addN i), .read (q.addN i)]

theorem pairs_reads (p q : Ptr) (n : Nat) : ∀ x ∈ pairs p q n, ∃ p, x = .read p := by
  intro x hx
  unfold pairs at hx
  rw [List.mem_flatMap] at hx
  obtain ⟨i, -, hx⟩ := hx
  simp only [List.mem_cons, List.not_mem_nil, or_false] at hx
  rcases hx with h | h <;> exact ⟨_, h⟩

theorem pairs_length (p q : Ptr) (n : Nat) : (pairs p q n).length = 2 * n := by
  unfold pairs
  induction n with
  | zero => rfl
  | succ n ih =>
    rw [List.range_succ, List.flatMap_append, List.length_append, ih]
    show 2 * n + 2 = 2 * (n + 1)
    omega

variable (kb ko ks : Nat) (q : Ptr)

/-- Lemma support: what the search shows for the stored keys `l` from index `i` on. -/
def loopTr (key : List Byte) : Nat → List (List Byte) → List Leak
  | _, [] => [.branch false]
  | i, k :: l => .branch true :: (pairs (ptr kb (ko + i * ks)) q (min ks (agree k key + 1)) ++
      .branch (k == key) :: if k = key then [] else loopTr key (i + 1) l)

/-- Lemma support: the index found. -/
def found (key : List Byte) : Nat → List (List Byte) → Int
  | _, [] => -1
  | i, k :: l => if k = key then i else found key (i + 1) l

variable {kb ko ks q}

theorem loopTr_inj {key key2 : List Byte} (hk : key.length = ks) (hk2 : key2.length = ks) : ∀ {i : Nat} {l l2 : List (List Byte)}
    {x x2 : List Leak}, (∀ k ∈ l, k.length = ks) → (∀ k ∈ l2, k.length = ks) → l.length = l2.length →
    loopTr kb ko ks q key i l ++ x = loopTr kb ko ks q key2 i l2 ++ x2 → compared key l = compared key2 l2
  | _, [], [], _, _, _, _, _, _ => rfl
  | _, [], _ :: _, _, _, _, _, h, _ => by simp at h
  | _, _ :: _, [], _, _, _, _, h, _ => by simp at h
  | i, k :: l, k2 :: l2, x, x2, hl, hl2, hll, e => by
    have hkl := hl k (List.mem_cons_self ..)
    have hkl2 := hl2 k2 (List.mem_cons_self ..)
    simp only [loopTr, List.cons_append, List.append_assoc, List.cons.injEq, true_and] at e
    obtain ⟨e1, e2, e3⟩ := lead_inj (pairs_reads _ _ _) (pairs_reads _ _ _) e
    rw [pairs_length, pairs_length] at e1
    have a1 := agree_le k key
    have a2 := agree_le k2 key2
    have b1 := agree_eq (s := k) (t := key) (by omega)
    have b2 := agree_eq (s := k2) (t := key2) (by omega)
    have e4 : k = key ↔ k2 = key2 := by
      have := congrArg (· = true) e2
      simpa using this
    unfold compared
    by_cases hkk : k = key
    · have hkk2 := e4.mp hkk
      rw [if_pos hkk, if_pos hkk2, b1.mpr hkk, b2.mpr hkk2, hkl, hkl2]
    · have hkk2 : ¬ k2 = key2 := fun h => hkk (e4.mpr h)
      rw [if_neg hkk, if_neg hkk2] at e3
      rw [if_neg hkk, if_neg hkk2, loopTr_inj hk hk2 (fun k h => hl k (List.mem_cons_of_mem _ h))
        (fun k h => hl2 k (List.mem_cons_of_mem _ h)) (by simpa using hll) e3]
      have : agree k key ≠ k.length := fun h => hkk (b1.mp h)
      have : agree k2 key2 ≠ k2.length := fun h => hkk2 (b2.mp h)
      have : agree k key = agree k2 key2 := by omega
      rw [this]

theorem loopTr_eq {key key2 : List Byte} (hk : key.length = ks) (hk2 : key2.length = ks) : ∀ {i : Nat} {l l2 : List (List Byte)},
    (∀ k ∈ l, k.length = ks) → (∀ k ∈ l2, k.length = ks) → l.length = l2.length → compared key l = compared key2 l2 →
    loopTr kb ko ks q key i l = loopTr kb ko ks q key2 i l2 ∧ found key i l = found key2 i l2
  | _, [], [], _, _, _, _ => ⟨rfl, rfl⟩
  | _, [], _ :: _, _, _, h, _ => by simp at h
  | _, _ :: _, [], _, _, h, _ => by simp at h
  | i, k :: l, k2 :: l2, hl, hl2, hll, e => by
    have hkl := hl k (List.mem_cons_self ..)
    have hkl2 := hl2 k2 (List.mem_cons_self ..)
    have b1 := agree_eq (s := k) (t := key) (by omega)
    have b2 := agree_eq (s := k2) (t := key2) (by omega)
    unfold compared at e
    rw [List.cons.injEq] at e
    obtain ⟨e1, e2⟩ := e
    have e4 : k = key ↔ k2 = key2 := by rw [← b1, ← b2, e1, hkl, hkl2]
    simp only [loopTr, found]
    have e5 : (k == key) = (k2 == key2) := by
      rw [Bool.eq_iff_iff]; simpa using e4
    by_cases hkk : k = key
    · have hkk2 := e4.mp hkk
      rw [if_pos hkk, if_pos hkk2, if_pos hkk, if_pos hkk2, e1, e5]
      exact ⟨rfl, rfl⟩
    · have hkk2 : ¬ k2 = key2 := fun h => hkk (e4.mpr h)
      rw [if_neg hkk, if_neg hkk2] at e2
      obtain ⟨e6, e7⟩ := loopTr_eq hk hk2 (i := i + 1) (fun k h => hl k (List.mem_cons_of_mem _ h))
        (fun k h => hl2 k (List.mem_cons_of_mem _ h)) (by simpa using hll) e2
      rw [if_neg hkk, if_neg hkk2, if_neg hkk, if_neg hkk2, e1, e5, e6, e7]
      exact ⟨rfl, rfl⟩

theorem loadN_cases {p : Ptr} {n : Nat} {m m' : Mem} {s : List Byte} (hn : 0 < n) (h : loadN p n m = .ok s m') :
    m' = m ∧ s = slice (m.bytes p.blk) p.off.toNat n ∧ s.length = n := by
  unfold loadN at h
  rw [if_neg (by omega)] at h
  split at h
  · cases h
    exact ⟨rfl, rfl, slice_len (by omega)⟩
  · cases h

theorem memeqT_cases {p q : Ptr} {n : Nat} {m m' : Mem} {r : Bool} {t : List Leak} (hn : 0 < n) (h : memeqT p q n m = .ok (r, t) m') :
    m' = m ∧ (slice (m.bytes p.blk) p.off.toNat n).length = n ∧ (slice (m.bytes q.blk) q.off.toNat n).length = n ∧
    r = (slice (m.bytes p.blk) p.off.toNat n == slice (m.bytes q.blk) q.off.toNat n) ∧
    t = pairs p q (min n (agree (slice (m.bytes p.blk) p.off.toNat n) (slice (m.bytes q.blk) q.off.toNat n) + 1)) := by
  unfold memeqT at h
  obtain ⟨s, t1, m1, r1, h1, x1, rfl⟩ := bind_cases h
  obtain ⟨g1, rfl⟩ := quiet_cases h1
  obtain ⟨rfl, rfl, l1⟩ := loadN_cases hn g1
  obtain ⟨s2, t2, m2, r2, h2, x2, rfl⟩ := bind_cases x1
  obtain ⟨g2, rfl⟩ := quiet_cases h2
  obtain ⟨rfl, rfl, l2⟩ := loadN_cases hn g2
  obtain ⟨_, t3, m3, r3, h3, x3, rfl⟩ := bind_cases x2
  cases h3
  obtain ⟨rfl, rfl, rfl⟩ := pure_cases x3
  exact ⟨rfl, l1, l2, rfl, by simp [pairs, commonLen_eq]⟩

/-- Lemma support: the stored keys `i` to `i + n - 1`. -/
def stored (m : Mem) (kb ko ks i n : Nat) : List (List Byte) :=
  (List.range' i n).map fun j => slice (m.bytes kb) (ko + j * ks) ks

theorem i32_cases {x r : Int} {m m' : Mem} {t : List Leak} (h : quiet (i32 x) m = .ok (r, t) m') : r = x ∧ m' = m ∧ t = [] := by
  obtain ⟨h, rfl⟩ := quiet_cases h
  unfold i32 at h
  split at h
  · cases h; exact ⟨rfl, rfl, rfl⟩
  · cases h

theorem toSizeT_leak {n : Nat} (h : n < 2 ^ 64) : toSizeT n = n := by
  unfold toSizeT; omega

theorem loop_cases {map : MapT} {b o : Nat} (hkeys : map.keys = ptr kb ko) (hks : map.key_size = ks) (h0 : 0 < ks)
    (hlt : ks < 2 ^ 64) (n : Nat) : ∀ {i : Nat} {m m' : Mem} {r : Int} {t : List Leak},
    getIndexLoopT map (ptr b o) n i m = .ok (r, t) m' →
      m' = m ∧ r = found (slice (m.bytes b) o ks) i (stored m kb ko ks i n) ∧
      t = loopTr kb ko ks (ptr b o) (slice (m.bytes b) o ks) i (stored m kb ko ks i n) := by
  induction n with
  | zero =>
    intro i m m' r t h
    obtain ⟨u, g, rfl⟩ := Vernam.branch_exact h
    obtain ⟨rfl, rfl, rfl⟩ := pure_cases g
    exact ⟨rfl, rfl, rfl⟩
  | succ n ih =>
    intro i m m' r t h
    obtain ⟨u, g, rfl⟩ := Vernam.branch_exact h
    obtain ⟨v1, t1, m1, r1, h1, x1, rfl⟩ := bind_cases g
    obtain ⟨rfl, rfl, rfl⟩ := i32_cases h1
    obtain ⟨v2, t2, m2, r2, h2, x2, rfl⟩ := bind_cases x1
    rw [hkeys, hks, toSizeT_leak hlt] at h2
    obtain ⟨rfl, -, -, rfl, rfl⟩ := memeqT_cases h0 h2
    have ea : (ptr kb ko).addZ ((i : Int) * ks) = ptr kb (ko + i * ks) := by
      unfold Ptr.addZ; simp
    simp only [ea, Int.toNat_natCast] at x2 ⊢
    obtain ⟨u, x3, rfl⟩ := Vernam.branch_exact x2
    have es : stored m2 kb ko ks i (n + 1) = slice (m2.bytes kb) (ko + i * ks) ks :: stored m2 kb ko ks (i + 1) n := by
      unfold stored; rw [List.range'_succ, List.map_cons]
    rw [es]
    simp only [loopTr, found, List.nil_append]
    by_cases hk : slice (m2.bytes kb) (ko + i * ks) ks = slice (m2.bytes b) o ks
    · rw [if_pos (by simpa using hk)] at x3
      obtain ⟨rfl, rfl, rfl⟩ := pure_cases x3
      rw [if_pos hk, if_pos hk]
      exact ⟨rfl, rfl, rfl⟩
    · rw [if_neg (by simpa using hk)] at x3
      obtain ⟨e1, e2, e3⟩ := ih (i := i + 1) (by simpa using x3)
      rw [if_neg hk, if_neg hk, ← e2, ← e3]
      exact ⟨e1, rfl, rfl⟩

theorem stored_length {m : Mem} {i n : Nat} : (stored m kb ko ks i n).length = n := by
  unfold stored; simp

theorem stored_keys {m : Mem} {n : Nat} (h : ko + n * ks ≤ (m.bytes kb).length) : ∀ k ∈ stored m kb ko ks 0 n, k.length = ks := by
  intro k hk
  unfold stored at hk
  rw [List.mem_map] at hk
  obtain ⟨j, hj, rfl⟩ := hk
  rw [List.mem_range'_1] at hj
  refine slice_len ?_
  have : (j + 1) * ks ≤ n * ks := Nat.mul_le_mul_right _ (by omega)
  rw [Nat.add_mul] at this
  omega

theorem insert_rest (map : MapT) (key value : Ptr) : ∃ f : Int → List Leak, ∀ {m m' : Mem} {r : Bool × Option MapT} {t : List Leak},
    insertT (some map) key value m = .ok (r, t) m' →
    ∃ i u m1, getIndexLoopT map key map.current_size.toNat 0 m = .ok (i, u) m1 ∧ t = u ++ f i := by
  have : ∀ i : Int, Fixed (do
      let c ← T.branch (decide (i = -1))
      if c then do
        let c ← T.branch (decide (map.current_size ≠ map.max_map_size))
        if c then do
          let ko ← T.quiet (i32 (map.current_size * map.key_size))
          memcpyT (map.keys.addZ ko) key (toSizeT map.key_size)
          let vo ← T.quiet (i32 (map.current_size * map.value_size))
          memcpyT (map.values.addZ vo) value (toSizeT map.value_size)
          let cs ← T.quiet (i32 (map.current_size + 1))
          return (true, some { map with current_size := cs })
        else return (false, some map)
      else do
        let vo ← T.quiet (i32 (i * map.value_size))
        memcpyT (map.values.addZ vo) value (toSizeT map.value_size)
        return (true, some map)) := by
    intro i
    exact .branch (.ite (.branch (.ite (.i32 (.memcpy (.i32 (.memcpy (.i32 (.pure _)))))) (.pure _))) (.i32 (.memcpy (.pure _))))
  choose f hf using this
  refine ⟨f, fun {m m' r t} h => ?_⟩
  obtain ⟨i, u, m1, u2, h1, h2, rfl⟩ := bind_cases h
  exact ⟨i, u, m1, h1, by rw [hf i _ _ _ _ h2]⟩

theorem getValue_rest (map : MapT) (key value : Ptr) : ∃ f : Int → List Leak, ∀ {m m' : Mem} {r : Bool} {t : List Leak},
    getValueT (some map) key value m = .ok (r, t) m' →
    ∃ i u m1, getIndexLoopT map key map.current_size.toNat 0 m = .ok (i, u) m1 ∧ t = u ++ f i := by
  have : ∀ i : Int, Fixed (do
      let c ← T.branch (decide (i ≠ -1))
      if c then do
        let vo ← T.quiet (i32 (i * map.value_size))
        memcpyT value (map.values.addZ vo) (toSizeT map.value_size)
        return true
      else return false) := by
    intro i
    exact .branch (.ite (.i32 (.memcpy (.pure _))) (.pure _))
  choose f hf using this
  refine ⟨f, fun {m m' r t} h => ?_⟩
  obtain ⟨i, u, m1, u2, h1, h2, rfl⟩ := bind_cases h
  exact ⟨i, u, m1, h1, by rw [hf i _ _ _ _ h2]⟩

/-- Two searches with anything after them that depends on the index only show the same exactly if ... -/
theorem search_iff {map : MapT} {b o n : Nat} {f : Int → List Leak} (hkeys : map.keys = ptr kb ko) (hks : map.key_size = ks)
    (h0 : 0 < ks) (hlt : ks < 2 ^ 64) {m m2 : Mem}
    (hm : ko + n * ks ≤ (m.bytes kb).length) (hm2 : ko + n * ks ≤ (m2.bytes kb).length)
    (hk : o + ks ≤ (m.bytes b).length) (hk2 : o + ks ≤ (m2.bytes b).length)
    {m' m2' : Mem} {r r2 : Int} {t t2 : List Leak} (h : getIndexLoopT map (ptr b o) n 0 m = .ok (r, t) m')
    (h2 : getIndexLoopT map (ptr b o) n 0 m2 = .ok (r2, t2) m2') :
    t ++ f r = t2 ++ f r2 ↔ compared (slice (m.bytes b) o ks) (stored m kb ko ks 0 n) =
      compared (slice (m2.bytes b) o ks) (stored m2 kb ko ks 0 n) := by
  obtain ⟨-, rfl, rfl⟩ := loop_cases hkeys hks h0 hlt n (i := 0) h
  obtain ⟨-, rfl, rfl⟩ := loop_cases hkeys hks h0 hlt n (i := 0) h2
  constructor
  · intro e
    exact loopTr_inj (slice_len hk) (slice_len hk2) (stored_keys hm) (stored_keys hm2) (by rw [stored_length, stored_length]) e
  · intro e
    obtain ⟨e1, e2⟩ := loopTr_eq (kb := kb) (ko := ko) (q := ptr b o) (i := 0) (slice_len hk) (slice_len hk2) (stored_keys hm) (stored_keys hm2)
      (by rw [stored_length, stored_length]) e
    rw [e1, e2]

end Map

/-! ### Caesar -/

namespace Caesar
open Vernam

/-- Lemma support: what a round shows. -/
def caesarTr (p : Ptr) (k : Nat) : List Leak :=
  .read p :: (alphaTr k ++ (.branch (isLetter k) :: if isLetter k then upTr k ++ [.branch (decide (k = 1)), .write p] else []))

theorem round_cases {b o i : Nat} {f : Byte → Byte} {m m' : Mem} {v : Unit} {t : List Leak}
    (h : roundT (ptr b o) f i m = .ok (v, t) m') :
    SameBut b (o + i) m m' ∧ ∃ c, (m.bytes b)[o + i]? = some c ∧ t = caesarTr (ptr b (o + i)) (kind c) := by
  unfold roundT at h
  simp only [ptr_addN] at h
  obtain ⟨c, t1, m1, r1, h1, x1, rfl⟩ := bind_cases h
  obtain ⟨hc, rfl, rfl⟩ := loadT_exact h1
  obtain ⟨al, t2, m2, r2, h2, x2, rfl⟩ := bind_cases x1
  rw [isAlpha_run] at h2
  cases h2
  obtain ⟨r3, x3, rfl⟩ := branch_exact x2
  by_cases hl : isLetter (kind c) = true
  · rw [if_pos hl] at x3
    obtain ⟨u, t7, m7, r7, h7, x7, rfl⟩ := bind_cases x3
    rw [isUpper_run] at h7
    cases h7
    obtain ⟨r8, x8, rfl⟩ := branch_exact x7
    obtain ⟨rfl, rfl⟩ := storeT_exact x8
    refine ⟨SameBut.set, c, load_some hc, ?_⟩
    unfold caesarTr
    rw [if_pos hl]
    rfl
  · rw [if_neg hl] at x3
    obtain ⟨-, rfl, rfl⟩ := pure_cases x3
    refine ⟨fun _ _ _ => rfl, c, load_some hc, ?_⟩
    unfold caesarTr
    rw [if_neg hl]
    rfl

/-- Lemma support: what the loop shows of characters of kinds `l`. -/
def loopTr (b : Nat) : Nat → List Nat → List Leak
  | _, [] => [.branch false]
  | o, k :: l => .branch true :: (caesarTr (ptr b o) k ++ loopTr b (o + 1) l)

theorem loop_cases {b o : Nat} {f : Byte → Byte} (s : List Byte) : ∀ {i : Nat} {m m' : Mem} {v : Unit} {t : List Leak},
    (∀ j : Nat, j < s.length → (m.bytes b)[o + i + j]? = s[j]?) →
    forNT s.length i (fun i _ => roundT (ptr b o) f i) () m = .ok (v, t) m' → t = loopTr b (o + i) (s.map kind) := by
  induction s with
  | nil =>
    intro i m m' v t hs h
    obtain ⟨u, g, rfl⟩ := branch_exact h
    obtain ⟨rfl, rfl, rfl⟩ := pure_cases g
    rfl
  | cons c s ih =>
    intro i m m' v t hs h
    obtain ⟨u, g, rfl⟩ := branch_exact h
    obtain ⟨_, t1, m1, r1, h1, x1, rfl⟩ := bind_cases g
    obtain ⟨hb, c', hc', rfl⟩ := round_cases h1
    have hc := hs 0 (by simp)
    rw [Nat.add_zero, hc'] at hc
    simp only [List.getElem?_cons_zero, Option.some.injEq] at hc
    subst hc
    have := ih (i := i + 1) (fun j hj => by
      have e := hs (j + 1) (by simpa using hj)
      rw [List.getElem?_cons_succ] at e
      rw [← e, hb _ _ (.inr (by omega))]
      congr 1; omega) x1
    rw [this]
    rfl

theorem caesarTr_inj {p : Ptr} {k k2 : Nat} (hk : k ≤ 4) (hk2 : k2 ≤ 4) {x x2 : List Leak}
    (h : caesarTr p k ++ x = caesarTr p k2 ++ x2) : k = k2 ∧ x = x2 := by
  have h1 : k = 0 ∨ k = 1 ∨ k = 2 ∨ k = 3 ∨ k = 4 := by omega
  have h2 : k2 = 0 ∨ k2 = 1 ∨ k2 = 2 ∨ k2 = 3 ∨ k2 = 4 := by omega
  rcases h1 with rfl | rfl | rfl | rfl | rfl <;> rcases h2 with rfl | rfl | rfl | rfl | rfl <;>
    simp [caesarTr, alphaTr, upTr, lowTr] at h ⊢ <;> exact h

theorem kind_le (c : Byte) : kind c ≤ 4 := by
  unfold kind; split <;> (try split) <;> (try split) <;> (try split) <;> omega

theorem loopTr_inj {b : Nat} : ∀ {o : Nat} {l l2 : List Nat}, (∀ k ∈ l, k ≤ 4) → (∀ k ∈ l2, k ≤ 4) →
    loopTr b o l = loopTr b o l2 → l = l2
  | _, [], [], _, _, _ => rfl
  | _, [], _ :: _, _, _, h => by simp [loopTr] at h
  | _, _ :: _, [], _, _, h => by simp [loopTr] at h
  | o, k :: l, k2 :: l2, hl, hl2, h => by
    simp only [loopTr, List.cons.injEq, true_and] at h
    obtain ⟨e1, e2⟩ := caesarTr_inj (hl k (List.mem_cons_self ..)) (hl2 k2 (List.mem_cons_self ..)) h
    rw [e1, loopTr_inj (fun k h => hl k (List.mem_cons_of_mem _ h)) (fun k h => hl2 k (List.mem_cons_of_mem _ h)) e2]

theorem loopTr_branch (b o : Nat) (l : List Nat) : ∃ c u, loopTr b o l = .branch c :: u := by
  cases l with
  | nil => exact ⟨_, _, rfl⟩
  | cons k l => exact ⟨_, _, rfl⟩

/-- Lemma support: what either function shows of a string. -/
def textTr (b o : Nat) (s : List Byte) : List Leak :=
  ((List.range (s.length + 1)).map fun i => .read ((ptr b o).addN i)) ++ loopTr b o (s.map kind)

theorem textTr_iff {b o : Nat} {s s2 : List Byte} : textTr b o s = textTr b o s2 ↔ s.map kind = s2.map kind := by
  constructor
  · intro h
    unfold textTr at h
    obtain ⟨c, u, e⟩ := loopTr_branch b o (s.map kind)
    obtain ⟨c2, u2, e2⟩ := loopTr_branch b o (s2.map kind)
    have hr : ∀ n, ∀ x ∈ (List.range n).map (fun i => Leak.read ((ptr b o).addN i)), ∃ p, x = .read p := by
      intro n x hx
      rw [List.mem_map] at hx
      obtain ⟨i, -, rfl⟩ := hx
      exact ⟨_, rfl⟩
    rw [e, e2] at h
    obtain ⟨-, rfl, rfl⟩ := lead_inj (hr _) (hr _) h
    refine loopTr_inj (b := b) (o := o) ?_ ?_ (e.trans e2.symm)
    · intro k hk; rw [List.mem_map] at hk; obtain ⟨c, -, rfl⟩ := hk; exact kind_le c
    · intro k hk; rw [List.mem_map] at hk; obtain ⟨c, -, rfl⟩ := hk; exact kind_le c
  · intro h
    have : s.length = s2.length := by simpa using congrArg List.length h
    unfold textTr; rw [h, this]

theorem encrypt_shows {b o : Nat} {sh : Byte} {m m' : Mem} {s : List Byte} (hs : Spec.CStr (m.bytes b) o s) {v : Unit} {t : List Leak}
    (h : encryptT (ptr b o) sh m = .ok (v, t) m') : t = textTr b o s := by
  obtain ⟨n, t1, m1, r1, h1, x1, rfl⟩ := bind_cases h
  obtain ⟨h2, rfl⟩ := strlenT_cases h1
  rw [strlen_ok hs] at h2
  cases h2
  rw [loop_cases s (fun j hj => by rw [Nat.add_zero]; exact hs.get (by omega)) x1]
  rfl

theorem decrypt_shows {b o : Nat} {sh : Byte} {m m' : Mem} {s : List Byte} (hs : Spec.CStr (m.bytes b) o s) {v : Unit} {t : List Leak}
    (h : decryptT (ptr b o) sh m = .ok (v, t) m') : t = textTr b o s := by
  obtain ⟨n, t1, m1, r1, h1, x1, rfl⟩ := bind_cases h
  obtain ⟨h2, rfl⟩ := strlenT_cases h1
  rw [strlen_ok hs] at h2
  cases h2
  rw [loop_cases s (fun j hj => by rw [Nat.add_zero]; exact hs.get (by omega)) x1]
  rfl

theorem erase_round (msg : Ptr) (f : Byte → Byte) (i : Nat) : erase (roundT msg f i) = (do
    let c ← load (msg.addN i)
    if Utils.isAlpha c then store (msg.addN i) (f c) else pure ()) := by
  unfold roundT
  simp only [erase_bind, erase_load, erase_isAlpha, erase_isUpper, erase_branch, pure_bind_C, erase_ite, erase_store, erase_pure]

theorem erase_encrypt (msg : Ptr) (sh : Byte) : erase (encryptT msg sh) = encrypt msg sh := by
  unfold encryptT encrypt
  simp only [erase_bind, erase_strlen, erase_forNT, erase_round]

theorem erase_decrypt (msg : Ptr) (sh : Byte) : erase (decryptT msg sh) = decrypt msg sh := by
  unfold decryptT decrypt
  simp only [erase_bind, erase_strlen, erase_forNT, erase_round]

end Caesar
end IMU
