import Verif.Proofs.JsonCost
import Verif.Spec.LeakJson

/-!
# What a JSON lookup shows: the exact list
-/

namespace IMU
open Spec.JsonCost Spec.Leak
open Base64 (Reads)

namespace T
variable {α β : Type}

/-- The run of `x` in `m` ends with `a` in `m'` and shows `t`. -/
def Runs (x : T α) (m : Mem) (a : α) (t : List Leak) (m' : Mem) : Prop := x m = .ok (a, t) m'

theorem Runs.bind {x : T α} {f : α → T β} {m m1 m' : Mem} {a : α} {b : β} {t u : List Leak} (h : Runs x m a t m1)
    (hf : Runs (f a) m1 b u m') : Runs (x >>= f) m b (t ++ u) m' := by
  unfold Runs at *
  show T.bind x f m = _
  simp only [T.bind, h, hf]

theorem Runs.pure (a : α) (m : Mem) : Runs (Pure.pure a) m a [] m := rfl
theorem Runs.branch (b : Bool) (m : Mem) : Runs (T.branch b) m b [.branch b] m := rfl
theorem Runs.branchv {b v : Bool} (h : b = v) (m : Mem) : Runs (T.branch b) m v [.branch v] m := by subst h; rfl
theorem Runs.quiet {x : C α} {m m' : Mem} {a : α} (h : x m = .ok a m') : Runs (T.quiet x) m a [] m' := by
  unfold Runs T.quiet; rw [h]
theorem Runs.emit (t : List Leak) (m : Mem) : Runs (T.emit t) m () t m := rfl
theorem Runs.load {p : Ptr} {m : Mem} {v : Byte} (h : IMU.load p m = .ok v m) : Runs (loadT p) m v [.read p] m :=
  Runs.bind (t := [.read p]) (u := []) (Runs.emit [.read p] m) (Runs.quiet h)
theorem Runs.store {p : Ptr} {v : Byte} {m m' : Mem} (h : IMU.store p v m = .ok () m') :
    Runs (storeT p v) m () [.write p] m' :=
  Runs.bind (t := [.write p]) (u := []) (Runs.emit [.write p] m) (Runs.quiet h)
theorem Runs.of_eq {x : T α} {m m' : Mem} {a : α} {t u : List Leak} (h : Runs x m a t m') (e : t = u) : Runs x m a u m' := e ▸ h
theorem Runs.strlen {p : Ptr} {m : Mem} {n : Nat} (h : IMU.strlen p m = .ok n m) :
    Runs (strlenT p) m n ((List.range (n + 1)).map fun i => .read (p.addN i)) m :=
  (Runs.bind (t := []) (Runs.quiet h) (Runs.bind (Runs.emit _ m) (Runs.pure n m))).of_eq (by simp)
theorem Runs.erase {x : T α} {m m' : Mem} {a : α} {t : List Leak} (h : Runs x m a t m') : T.erase x m = .ok a m' := by
  unfold T.erase; rw [h]
end T

open T
namespace Json

/-- `strncmp`. -/
def cmpShown (b o bk ok : Nat) : List Byte → List Byte → List Leak
  | y :: d, x :: k => .read (ptr b o) :: .read (ptr bk ok) ::
      if y = x then .branch true :: .branch false :: cmpShown b (o + 1) bk (ok + 1) d k else [.branch false]
  | _, _ => []

/-- The first loop. -/
def findShown (b : Nat) (bk ok : Nat) (k : List Byte) : Nat → List Byte → List Leak
  | _, [] => [.branch false]
  | o, c :: t =>
    if k.length < (c :: t).length then
      .branch true :: (cmpShown b o bk ok (c :: t) k ++
        if k <+: c :: t then [.branch true, .read (ptr b (o + k.length)), .branch (decide ((c :: t)[k.length]? = some 34#8))]
        else .branch false :: findShown b bk ok k (o + 1) t)
    else [.branch false]

/-- The second loop. -/
def skipShown (b : Nat) : Nat → List Byte → List Leak
  | _, [] => [.branch false]
  | o, c :: t => .branch true :: .read (ptr b o) :: if c = 34#8 then [.branch true] else .branch false :: skipShown b (o + 1) t

/-- The third loop. -/
def copyShown (b bv : Nat) : Nat → Nat → List Byte → Nat → List Leak
  | _, _, [], _ => [.branch false]
  | _, _, _ :: _, 0 => [.branch true, .branch false]
  | o, ov, c :: t, room + 1 => .branch true :: .branch true :: .read (ptr b o) :: .write (ptr bv ov) :: .read (ptr b o) ::
      if c = 34#8 then [.branch true, .write (ptr bv ov)] else .branch false :: copyShown b bv (o + 1) (ov + 1) t room

/-- The whole function. -/
def lookupShown (b o bk ok bv ov : Nat) (k t : List Byte) (room : Nat) : List Leak :=
  ((List.range (k.length + 1)).map fun i => .read (ptr bk (ok + i))) ++ .branch (decide (k.length < t.length)) ::
    (findShown b bk ok k o t ++ .branch (Spec.Json.afterKey k t).isSome ::
      match Spec.Json.afterKey k t with
      | none => []
      | some r => skipShown b (o + (t.length - r.length)) r ++
        copyShown b bv (o + (t.length - ((r.dropWhile Spec.Json.notQuote).drop 1).length)) ov
          ((r.dropWhile Spec.Json.notQuote).drop 1) room)

theorem strncmp_runs {m : Mem} (k : List Byte) : ∀ {d : List Byte} {b o bk ok : Nat}, 0#8 ∉ k → Reads m bk ok k →
    Reads m b o d → d.length = k.length →
    Runs (strncmpEqT (ptr b o) (ptr bk ok) k.length) m (decide (d = k)) (cmpShown b o bk ok d k) m := by
  induction k with
  | nil =>
    intro d b o bk ok _ _ _ hl
    have : d = [] := List.eq_nil_of_length_eq_zero hl
    subst this; exact Runs.pure _ _
  | cons x k ih =>
    intro d b o bk ok h0 hk hd hl
    cases d with
    | nil => simp at hl
    | cons y d =>
      have hx : x ≠ 0#8 := fun e => h0 (by simp [e])
      simp only [List.length_cons, strncmpEqT, ptr_addN, cmpShown]
      by_cases hxy : y = x
      · subst hxy
        have hi := ih (fun h => h0 (by simp [h])) (reads_tail hk) (reads_tail hd) (by simpa using hl)
        have e1 : decide (y :: d = y :: k) = decide (d = k) := by simp
        rw [e1, if_pos rfl]
        refine Runs.bind (t := [_]) (Runs.load hd.load0) (Runs.bind (t := [_]) (Runs.load hk.load0)
          (Runs.bind (t := [_]) (u := .branch false :: cmpShown b (o + 1) bk (ok + 1) d k)
            (Runs.branchv (v := true) (by simp) m) ?_))
        rw [if_pos rfl]
        exact Runs.bind (t := [_]) (Runs.branchv (v := false) (by simpa using hx) m) hi
      · rw [decide_eq_false (by simp [hxy]), if_neg hxy]
        exact Runs.bind (t := [_]) (Runs.load hd.load0) (Runs.bind (t := [_]) (Runs.load hk.load0)
          (Runs.bind (t := [_]) (u := []) (Runs.branchv (v := false) (by simpa using hxy) m) (Runs.pure _ _)))

theorem cmpShown_take (b bk : Nat) (k : List Byte) : ∀ (s : List Byte) (o ok : Nat),
    cmpShown b o bk ok (s.take k.length) k = cmpShown b o bk ok s k := by
  induction k with
  | nil => intro s o ok; cases s <;> rfl
  | cons a k ih =>
    intro s o ok
    cases s with
    | nil => rfl
    | cons c s => simp only [List.length_cons, List.take_succ_cons, cmpShown, ih]

theorem search_runs {m : Mem} {b o bk ok : Nat} {T k : List Byte} (hT : Reads m b o T) (hk : Reads m bk ok k)
    (h0 : 0#8 ∉ k) (hn : T.length < 2 ^ 32) {mx : U32} (hmx : mx.toNat = T.length - k.length) (fuel : Nat) :
    ∀ i, T.length < fuel + i → i ≤ T.length →
    ∃ a, Runs (searchT (ptr b o) (ptr bk ok) (BitVec.ofNat 64 k.length) mx fuel (BitVec.ofNat 32 i)) m a
      (findShown b bk ok k (o + i) (T.drop i)) m := by
  induction fuel with
  | zero => intro i h1 h2; omega
  | succ fuel ih =>
    intro i h1 h2
    rw [searchT]
    by_cases hi : i < T.length - k.length
    · have hlt : BitVec.ofNat 32 i < mx := by rw [BitVec.lt_def, hmx, ofNat32 (by omega)]; exact hi
      have hr : Reads m b (o + i) ((T.drop i).take k.length) := reads_take (reads_drop hT i) _
      have hc := strncmp_runs k h0 hk hr (by simp; omega)
      rw [cmpShown_take] at hc
      have hcons : T.drop i = T[i] :: T.drop (i + 1) := List.drop_eq_getElem_cons (by omega)
      have hpre : k <+: T.drop i ↔ (T.drop i).take k.length = k := by
        rw [List.prefix_iff_eq_take]; exact ⟨fun h => h.symm, fun h => h.symm⟩
      have hlen : k.length < (T.drop i).length := by simp; omega
      rw [decide_eq_true hlt, ptr_addN, ofNat32 (by omega), ofNat64 (by omega)]
      by_cases he : (T.drop i).take k.length = k
      · rw [decide_eq_true he] at hc
        have hg : T[i + k.length]? = some T[i + k.length] := List.getElem?_eq_getElem (by omega)
        have hq : (T[i + k.length] == 34#8) = decide ((T.drop i)[k.length]? = some 34#8) := by
          rw [List.getElem?_drop, hg]
          by_cases h : T[i + k.length] = 34#8 <;> simp [h]
        refine ⟨(BitVec.ofNat 32 i, T[i + k.length] == 34#8),
          (Runs.bind (Runs.branch _ m) (u := cmpShown b (o + i) bk ok (T.drop i) k ++ [.branch true, .read (ptr b (o + i + k.length)),
            .branch (decide ((T.drop i)[k.length]? = some 34#8))]) ?_).of_eq ?_⟩
        · rw [if_pos rfl]
          refine Runs.bind hc (Runs.bind (t := [_]) (Runs.branch _ m) ?_)
          rw [if_pos rfl, setWidth64 (by omega),
            show BitVec.ofNat 64 i + BitVec.ofNat 64 k.length = BitVec.ofNat 64 (i + k.length) by simp [BitVec.ofNat_add],
            ofNat64 (by omega), ptr_addN, hq, ← Nat.add_assoc]
          have hl := Runs.load (hT.load hg)
          rw [← Nat.add_assoc] at hl
          refine Runs.bind (t := [_]) (u := [_]) hl (Runs.bind (t := [_]) (u := []) ?_ (Runs.pure _ m))
          rw [hq]; exact Runs.branch _ m
        · rw [hcons, findShown, ← hcons, if_pos hlen, if_pos (hpre.mpr he)]; rfl
      · rw [decide_eq_false he] at hc
        obtain ⟨a, ha⟩ := ih (i + 1) (by omega) (by omega)
        refine ⟨a, (Runs.bind (Runs.branch _ m) (u := cmpShown b (o + i) bk ok (T.drop i) k ++ .branch false ::
          findShown b bk ok k (o + (i + 1)) (T.drop (i + 1))) ?_).of_eq ?_⟩
        · rw [if_pos rfl]
          refine Runs.bind hc (Runs.bind (t := [_]) (Runs.branch _ m) ?_)
          rw [if_neg (by simp), ofNat32_succ]
          exact ha
        · rw [hcons, findShown, ← hcons, if_pos hlen, if_neg (fun h => he (hpre.mp h))]; rfl
    · have hlt : ¬ BitVec.ofNat 32 i < mx := by rw [BitVec.lt_def, hmx, ofNat32 (by omega)]; exact hi
      rw [decide_eq_false hlt]
      refine ⟨(BitVec.ofNat 32 i, false), (Runs.bind (Runs.branch _ m) (u := []) ?_).of_eq ?_⟩
      · rw [if_neg (by simp)]; exact Runs.pure _ _
      · cases hd : T.drop i with
        | nil => rfl
        | cons c t =>
          rw [findShown, if_neg]
          · rfl
          · rw [← hd, List.length_drop]; omega

theorem skip_runs {m : Mem} {b o : Nat} {T : List Byte} (hT : Reads m b o T) (hn : T.length < 2 ^ 32) {size : SizeT}
    (hs : size.toNat = T.length) (fuel : Nat) : ∀ i, T.length < fuel + i → i ≤ T.length →
    ∃ a, Runs (skipT (ptr b o) size fuel (BitVec.ofNat 32 i)) m a (skipShown b (o + i) (T.drop i)) m := by
  induction fuel with
  | zero => intro i h1 h2; omega
  | succ fuel ih =>
    intro i h1 h2
    rw [skipT, setWidth64 (by omega)]
    by_cases hi : i < T.length
    · have hlt : BitVec.ofNat 64 i < size := by rw [BitVec.lt_def, hs, ofNat64 (by omega)]; exact hi
      have hcons : T.drop i = T[i] :: T.drop (i + 1) := List.drop_eq_getElem_cons (by omega)
      rw [decide_eq_true hlt, ptr_addN, ofNat32 (by omega), hcons]
      have hl := Runs.load (hT.load (List.getElem?_eq_getElem hi))
      by_cases hq : T[i] = 34#8
      · refine ⟨BitVec.ofNat 32 i, (Runs.bind (Runs.branch _ m) (u := [.read (ptr b (o + i)), .branch true]) ?_).of_eq
          (by rw [skipShown, if_pos hq]; rfl)⟩
        rw [if_pos rfl]
        have hb : (T[i] == 34#8) = true := by simp [hq]
        refine Runs.bind (t := [_]) (u := [_]) hl (Runs.bind (t := [_]) (u := []) (by rw [hb]; exact Runs.branch _ m) ?_)
        exact Runs.pure _ _
      · obtain ⟨a, ha⟩ := ih (i + 1) (by omega) (by omega)
        refine ⟨a, (Runs.bind (Runs.branch _ m) (u := .read (ptr b (o + i)) :: .branch false ::
          skipShown b (o + (i + 1)) (T.drop (i + 1))) ?_).of_eq (by rw [skipShown, if_neg hq]; rfl)⟩
        rw [if_pos rfl]
        have hb : (T[i] == 34#8) = false := by simpa using hq
        refine Runs.bind (t := [_]) hl (Runs.bind (t := [_]) (by rw [hb]; exact Runs.branch _ m) ?_)
        rw [if_neg (by simp), ofNat32_succ]
        exact ha
    · have hlt : ¬ BitVec.ofNat 64 i < size := by rw [BitVec.lt_def, hs, ofNat64 (by omega)]; exact hi
      rw [decide_eq_false hlt, show T.drop i = [] from List.drop_of_length_le (by omega)]
      refine ⟨BitVec.ofNat 32 i, Runs.bind (t := [_]) (u := []) (Runs.branch _ m) ?_⟩
      rw [if_neg (by simp)]
      exact Runs.pure _ _

theorem copy_runs {b o bv ov : Nat} {T : List Byte} (hn : T.length < 2 ^ 32) {size mv : SizeT}
    (hs : size.toNat = T.length) (hd : bv ≠ b ∨ ov + mv.toNat ≤ o ∨ o + T.length ≤ ov) (fuel : Nat) :
    ∀ i (w : SizeT) (m : Mem), T.length < fuel + i → 0 < fuel → i ≤ T.length + 1 → i < 2 ^ 32 → w.toNat ≤ mv.toNat → Reads m b o T →
    ov + mv.toNat ≤ (m.bytes bv).length →
    ∃ a m', Runs (copyT (ptr b o) size (ptr bv ov) mv fuel (BitVec.ofNat 32 i) w) m a
      (copyShown b bv (o + i) (ov + w.toNat) (T.drop i) (mv.toNat - w.toNat)) m' := by
  induction fuel with
  | zero => intro i w m h1 h0; omega
  | succ fuel ih =>
    intro i w m h1 h0 h2 h3 hw hT hroom
    rw [copyT, setWidth64 (by omega)]
    by_cases hi : i < T.length
    · have hlt : BitVec.ofNat 64 i < size := by rw [BitVec.lt_def, hs, ofNat64 (by omega)]; exact hi
      have hcons : T.drop i = T[i] :: T.drop (i + 1) := List.drop_eq_getElem_cons (by omega)
      have hg : T[i]? = some T[i] := List.getElem?_eq_getElem hi
      rw [decide_eq_true hlt, hcons]
      by_cases hwm : w.toNat < mv.toNat
      · rw [decide_eq_true (show w < mv from hwm), ptr_addN, ofNat32 (by omega), ptr_addN,
          show mv.toNat - w.toNat = (mv.toNat - w.toNat - 1) + 1 by omega]
        obtain ⟨m1, a1, a2, a3⟩ := store_frame (m := m) (b := bv) (o := ov + w.toNat) (v := T[i]) (by omega)
        have hT1 : Reads m1 b o T := hT.store a1 (by omega)
        by_cases hq : T[i] = 34#8
        · obtain ⟨m2, b1, b2, b3⟩ := store_frame (m := m1) (b := bv) (o := ov + w.toNat) (v := 0#8)
            (by rw [oc_length a2]; omega)
          refine ⟨true, m2, (Runs.bind (Runs.branch _ m) (u := [.branch true, .read (ptr b (o + i)),
            .write (ptr bv (ov + w.toNat)), .read (ptr b (o + i)), .branch true, .write (ptr bv (ov + w.toNat))]) ?_).of_eq
            (by rw [copyShown, if_pos hq]; rfl)⟩
          rw [if_pos rfl]
          refine Runs.bind (t := [_]) (Runs.branch _ m) ?_
          rw [if_pos rfl]
          have hb : (T[i] == 34#8) = true := by simp [hq]
          refine Runs.bind (t := [_]) (Runs.load (hT.load hg)) (Runs.bind (t := [_]) (Runs.store a1)
            (Runs.bind (t := [_]) (Runs.load (hT1.load hg)) (Runs.bind (t := [_]) (by rw [hb]; exact Runs.branch _ m1) ?_)))
          rw [if_pos rfl]
          exact Runs.bind (t := [_]) (u := []) (Runs.store b1) (Runs.pure _ _)
        · have hw1 : (w + 1#64).toNat = w.toNat + 1 := by
            have := mv.isLt
            rw [BitVec.toNat_add]; simp only [BitVec.toNat_ofNat]; omega
          obtain ⟨a, m2, b1⟩ := ih (i + 1) (w + 1#64) m1 (by omega) (by omega) (by omega) (by omega) (by omega) hT1
            (by rw [oc_length a2]; omega)
          rw [hw1, ← Nat.sub_sub] at b1
          refine ⟨a, m2, (Runs.bind (Runs.branch _ m) (u := .branch true :: .read (ptr b (o + i)) ::
            .write (ptr bv (ov + w.toNat)) :: .read (ptr b (o + i)) :: .branch false ::
            copyShown b bv (o + (i + 1)) (ov + (w.toNat + 1)) (T.drop (i + 1)) (mv.toNat - w.toNat - 1)) ?_).of_eq
            (by rw [copyShown, if_neg hq]; rfl)⟩
          rw [if_pos rfl]
          refine Runs.bind (t := [_]) (Runs.branch _ m) ?_
          rw [if_pos rfl]
          have hb : (T[i] == 34#8) = false := by simpa using hq
          refine Runs.bind (t := [_]) (Runs.load (hT.load hg)) (Runs.bind (t := [_]) (Runs.store a1)
            (Runs.bind (t := [_]) (Runs.load (hT1.load hg)) (Runs.bind (t := [_]) (by rw [hb]; exact Runs.branch _ m1) ?_)))
          rw [if_neg (by simp), ofNat32_succ]
          exact b1
      · rw [decide_eq_false (show ¬ w < mv from hwm), show mv.toNat - w.toNat = 0 by omega]
        refine ⟨false, m, (Runs.bind (Runs.branch _ m) (u := [.branch false]) ?_).of_eq (by rw [copyShown]; rfl)⟩
        rw [if_pos rfl]
        exact Runs.bind (t := [_]) (u := []) (Runs.branch _ m) (Runs.pure _ _)
    · have hlt : ¬ BitVec.ofNat 64 i < size := by rw [BitVec.lt_def, hs, ofNat64 (by omega)]; exact hi
      rw [decide_eq_false hlt, show T.drop i = [] from List.drop_of_length_le (by omega)]
      refine ⟨false, m, (Runs.bind (u := []) (Runs.branch _ m) ?_).of_eq (by rw [copyShown]; rfl)⟩
      exact Runs.pure _ _

/-- The whole function. -/
theorem findByKey_runs {m : Mem} {b o bk ok bv ov : Nat} {T k : List Byte} {size mv : SizeT} (hT : Reads m b o T)
    (hk : Spec.CStr (m.bytes bk) ok k) (hs : size.toNat = T.length) (hn : T.length < 2 ^ 32 - 1) (hkl : k.length < 2 ^ 64)
    (hroom : ov + mv.toNat ≤ (m.bytes bv).length) (hd : bv ≠ b ∨ ov + mv.toNat ≤ o ∨ o + T.length ≤ ov) :
    ∃ r m', Runs (findByKeyT (ptr b o) size (ptr bk ok) (ptr bv ov) mv) m r (lookupShown b o bk ok bv ov k T mv.toNat) m' := by
  have hn' : T.length < 2 ^ 32 := by omega
  have hc : BitVec.ofNat 64 k.length < size ↔ k.length < T.length := by rw [BitVec.lt_def, hs, ofNat64 hkl]
  have hdc : decide (BitVec.ofNat 64 k.length < size) = decide (k.length < T.length) := by
    by_cases h : k.length < T.length
    · rw [decide_eq_true h, decide_eq_true (hc.mpr h)]
    · rw [decide_eq_false h, decide_eq_false (fun h' => h (hc.mp h'))]
  have hmx : (if decide (k.length < T.length) = true then (size - BitVec.ofNat 64 k.length).setWidth 32 else 0#32).toNat =
      T.length - k.length := by
    simp only [decide_eq_true_eq]
    by_cases h : k.length < T.length
    · rw [if_pos h, BitVec.toNat_setWidth, BitVec.toNat_sub_of_le (by rw [BitVec.le_def, hs, ofNat64 hkl]; omega),
        hs, ofNat64 hkl]
      omega
    · rw [if_neg h]
      simp; omega
  obtain ⟨j, a1, a2⟩ := search_ok hT (reads_cstr hk) hk.1 hn' hmx (size.toNat + 1) 0 (by omega) (by omega)
  obtain ⟨x, g⟩ := search_runs hT (reads_cstr hk) hk.1 hn' hmx (size.toNat + 1) 0 (by omega) (by omega)
  have hx : x = (BitVec.ofNat 32 j, (Spec.Json.afterKey k (T.drop 0)).isSome) := by
    have := Runs.erase g
    rw [erase_search, a1] at this
    cases this; rfl
  subst hx
  rw [List.drop_zero] at a1 a2 g
  rw [Nat.add_zero] at g
  have hsl := Runs.strlen (strlen_ok hk)
  simp only [ptr_addN] at hsl
  unfold findByKeyT lookupShown
  cases ha : Spec.Json.afterKey k T with
  | none =>
    rw [ha] at g
    refine ⟨false, m, Runs.bind hsl (Runs.bind (t := [_]) (by rw [hdc]; exact Runs.branch _ m) (Runs.bind g
      (Runs.bind (t := [_]) (u := []) (Runs.branch _ m) ?_)))⟩
    exact Runs.pure _ _
  | some r =>
    rw [ha] at g
    obtain ⟨hr, hj⟩ := a2 r ha
    have e1 : BitVec.ofNat 32 j + (BitVec.ofNat 64 k.length + 1#64).setWidth 32 = BitVec.ofNat 32 (j + k.length + 1) := by
      apply BitVec.eq_of_toNat_eq
      rw [BitVec.toNat_add, BitVec.toNat_setWidth, BitVec.toNat_add, ofNat32 (by omega), ofNat64 hkl, ofNat32 (by omega)]
      simp only [BitVec.toNat_ofNat]
      omega
    have hrl : r.length = T.length - (j + k.length + 1) := by rw [hr, List.length_drop]
    have htl := takeWhile_length_le Spec.Json.notQuote r
    have hdrop : T.drop (j + k.length + 1 + (r.takeWhile Spec.Json.notQuote).length + 1) = (r.dropWhile Spec.Json.notQuote).drop 1 := by
      rw [← drop_takeWhile, List.drop_drop]
      conv => rhs; rw [hr, List.drop_drop]
      rw [← hr, Nat.add_assoc (j + k.length + 1)]
    have k1 := skip_ok hT hn' hs (size.toNat + 1) (j + k.length + 1) (by omega) (by omega)
    obtain ⟨y, k2⟩ := skip_runs hT hn' hs (size.toNat + 1) (j + k.length + 1) (by omega) (by omega)
    have hy : y = BitVec.ofNat 32 (j + k.length + 1 + (r.takeWhile Spec.Json.notQuote).length) := by
      have := Runs.erase k2
      rw [erase_skip, k1, ← hr] at this
      cases this; rfl
    subst hy
    rw [← hr, show j + k.length + 1 = T.length - r.length by omega] at k2
    obtain ⟨z, m', c1⟩ := copy_runs (b := b) (o := o) hn' hs hd (size.toNat + 1)
      (j + k.length + 1 + (r.takeWhile Spec.Json.notQuote).length + 1) 0#64 m (by omega) (by omega) (by omega) (by omega) (by simp) hT hroom
    have hcs : copyShown b bv (o + (j + k.length + 1 + (r.takeWhile Spec.Json.notQuote).length + 1)) ov
        ((r.dropWhile Spec.Json.notQuote).drop 1) mv.toNat =
        copyShown b bv (o + (T.length - ((r.dropWhile Spec.Json.notQuote).drop 1).length)) ov
          ((r.dropWhile Spec.Json.notQuote).drop 1) mv.toNat := by
      have hl := congrArg List.length hdrop
      rw [List.length_drop] at hl
      cases hrr : (r.dropWhile Spec.Json.notQuote).drop 1 with
      | nil => rw [copyShown, copyShown]
      | cons c t =>
        rw [hrr] at hl
        simp only [List.length_cons] at hl ⊢
        rw [show T.length - (t.length + 1) = j + k.length + 1 + (r.takeWhile Spec.Json.notQuote).length + 1 by omega]
    rw [hdrop] at c1
    simp only [show (0#64).toNat = 0 from rfl, Nat.sub_zero, Nat.add_zero] at c1
    rw [hcs] at c1
    refine ⟨z, m', Runs.bind hsl (Runs.bind (t := [_]) (by rw [hdc]; exact Runs.branch _ m) (Runs.bind g
      (Runs.bind (t := [_]) (Runs.branch _ m) ?_)))⟩
    rw [if_pos (by simp), e1, show j + k.length + 1 = T.length - r.length by omega]
    rw [show j + k.length + 1 = T.length - r.length by omega] at c1
    refine Runs.bind k2 ?_
    rw [ofNat32_succ]
    exact c1

end Json
end IMU
