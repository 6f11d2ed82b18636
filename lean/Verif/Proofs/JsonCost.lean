import Verif.Model.LeakJson
import Verif.Proofs.Cost
import Verif.Proofs.JsonFind
import Verif.Spec.JsonCost

/-!
# Counting the steps of `Json_findByKey`
-/

namespace IMU
open Spec.JsonCost Spec.Leak
open Base64 (Reads)

namespace T
variable {α β : Type}

/-- The run of `x` in `m` ends with `a` in `m'` and takes `n` steps. -/
def Goes (x : T α) (m : Mem) (a : α) (n : Nat) (m' : Mem) : Prop := ∃ t, x m = .ok (a, t) m' ∧ t.length = n

theorem Goes.bind {x : T α} {f : α → T β} {m m1 m' : Mem} {a : α} {b : β} {k l : Nat} (h : Goes x m a k m1)
    (hf : Goes (f a) m1 b l m') : Goes (x >>= f) m b (k + l) m' := by
  obtain ⟨t, h1, h2⟩ := h
  obtain ⟨u, g1, g2⟩ := hf
  refine ⟨t ++ u, ?_, by rw [List.length_append, h2, g2]⟩
  show T.bind x f m = _
  simp only [T.bind, h1, g1]

theorem Goes.pure (a : α) (m : Mem) : Goes (Pure.pure a) m a 0 m := ⟨[], rfl, rfl⟩
theorem Goes.branch (b : Bool) (m : Mem) : Goes (T.branch b) m b 1 m := ⟨[_], rfl, rfl⟩
theorem Goes.quiet {x : C α} {m m' : Mem} {a : α} (h : x m = .ok a m') : Goes (T.quiet x) m a 0 m' :=
  ⟨[], by unfold T.quiet; rw [h], rfl⟩
theorem Goes.emit (t : List Leak) (m : Mem) : Goes (T.emit t) m () t.length m := ⟨t, rfl, rfl⟩
theorem Goes.load {p : Ptr} {m : Mem} {v : Byte} (h : IMU.load p m = .ok v m) : Goes (loadT p) m v 1 m :=
  Goes.bind (k := 1) (l := 0) (Goes.emit [.read p] m) (Goes.quiet h)
theorem Goes.store {p : Ptr} {v : Byte} {m m' : Mem} (h : IMU.store p v m = .ok () m') : Goes (storeT p v) m () 1 m' :=
  Goes.bind (k := 1) (l := 0) (Goes.emit [.write p] m) (Goes.quiet h)
theorem Goes.of_eq {x : T α} {m m' : Mem} {a : α} {k l : Nat} (h : Goes x m a k m') (e : k = l) : Goes x m a l m' := e ▸ h
theorem Goes.strlen {p : Ptr} {m : Mem} {n : Nat} (h : IMU.strlen p m = .ok n m) : Goes (strlenT p) m n (n + 1) m :=
  (Goes.bind (k := 0) (Goes.quiet h) (Goes.bind (Goes.emit _ m) (Goes.pure n m))).of_eq (by simp)
end T

open T
namespace Json

theorem erase_strncmp (p q : Ptr) (n : Nat) : erase (strncmpEqT p q n) = strncmpEq p q n := by
  induction n generalizing p q with
  | zero => rfl
  | succ n ih => simp only [strncmpEqT, strncmpEq, erase_bind, erase_branch_bind, erase_load, erase_ite, erase_pure, ih, erase_branch, pure_bind_C]

theorem erase_search (buffer key : Ptr) (ks : SizeT) (mx : U32) (fuel : Nat) (i : U32) :
    erase (searchT buffer key ks mx fuel i) = search buffer key ks mx fuel i := by
  induction fuel generalizing i with
  | zero => exact erase_quiet _
  | succ fuel ih =>
    simp only [searchT, search, erase_bind, erase_branch, pure_bind_C, erase_load, erase_ite, erase_pure, ih, erase_strncmp, decide_eq_true_eq]

theorem erase_skip (buffer : Ptr) (n : SizeT) (fuel : Nat) (i : U32) : erase (skipT buffer n fuel i) = skip buffer n fuel i := by
  induction fuel generalizing i with
  | zero => exact erase_quiet _
  | succ fuel ih =>
    simp only [skipT, skip, erase_bind, erase_branch, pure_bind_C, erase_load, erase_ite, erase_pure, ih, decide_eq_true_eq]

theorem erase_copy (buffer : Ptr) (n : SizeT) (value : Ptr) (mv : SizeT) (fuel : Nat) (i : U32) (w : SizeT) :
    erase (copyT buffer n value mv fuel i w) = copy buffer n value mv fuel i w := by
  induction fuel generalizing i w with
  | zero => exact erase_quiet _
  | succ fuel ih =>
    simp only [copyT, copy, erase_bind, erase_branch, pure_bind_C, erase_load, erase_store, erase_ite, erase_pure, ih, decide_eq_true_eq]
    by_cases h1 : i.setWidth 64 < n
    · by_cases h2 : w < mv
      · rw [if_pos h1, if_pos h2, if_pos ⟨h1, h2⟩]
      · rw [if_pos h1, if_neg h2, if_neg (fun h => h2 h.2)]
    · rw [if_neg h1, if_neg (fun h => h1 h.1)]

theorem erase_findByKey (buffer : Ptr) (n : SizeT) (key value : Ptr) (mv : SizeT) :
    erase (findByKeyT buffer n key value mv) = findByKey buffer n key value mv := by
  simp only [findByKeyT, findByKey, erase_bind, erase_branch, pure_bind_C, erase_strlen, erase_ite, erase_pure, erase_search,
    erase_skip, erase_copy, decide_eq_true_eq]

theorem strncmp_goes {m : Mem} (k : List Byte) : ∀ {d : List Byte} {b o bk ok : Nat}, 0#8 ∉ k → Reads m bk ok k →
    Reads m b o d → d.length = k.length →
    Goes (strncmpEqT (ptr b o) (ptr bk ok) k.length) m (decide (d = k)) (if d = k then 4 * k.length else 4 * agree d k + 3) m := by
  induction k with
  | nil =>
    intro d b o bk ok _ _ _ hl
    have : d = [] := List.eq_nil_of_length_eq_zero hl
    subst this; exact Goes.pure _ _
  | cons x k ih =>
    intro d b o bk ok h0 hk hd hl
    cases d with
    | nil => simp at hl
    | cons y d =>
      have hx : x ≠ 0#8 := fun e => h0 (by simp [e])
      simp only [List.length_cons, strncmpEqT, ptr_addN]
      by_cases hxy : y = x
      · subst hxy
        have hi := ih (fun h => h0 (by simp [h])) (reads_tail hk) (reads_tail hd) (by simpa using hl)
        have e1 : decide (y :: d = y :: k) = decide (d = k) := by simp
        rw [e1]
        refine (Goes.bind (Goes.load hd.load0) (Goes.bind (Goes.load hk.load0) (Goes.bind (Goes.branch _ m) ?_))).of_eq
          (k := 1 + (1 + (1 + (1 + if d = k then 4 * k.length else 4 * agree d k + 3)))) ?_
        · rw [if_pos (by simp)]
          refine Goes.bind (Goes.branch _ m) ?_
          rw [if_neg (by simpa using hx)]
          exact hi
        · by_cases hdk : d = k
          · simp [hdk]; omega
          · simp [hdk, agree]; omega
      · rw [decide_eq_false (by simp [hxy]), if_neg (by simp [hxy])]
        refine (Goes.bind (Goes.load hd.load0) (Goes.bind (Goes.load hk.load0) (Goes.bind (Goes.branch _ m) ?_))).of_eq
          (k := 1 + (1 + (1 + 0))) ?_
        · rw [if_neg (by simpa using hxy)]
          exact Goes.pure _ _
        · simp [agree, hxy]

theorem agree_take (k : List Byte) : ∀ s : List Byte, agree (s.take k.length) k = agree s k := by
  induction k with
  | nil => intro s; cases s <;> rfl
  | cons a k ih =>
    intro s
    cases s with
    | nil => rfl
    | cons c s => simp only [List.length_cons, List.take_succ_cons, agree, ih]

theorem Goes.erase {α : Type} {x : T α} {m m' : Mem} {a : α} {n : Nat} (h : Goes x m a n m') : erase x m = .ok a m' := by
  obtain ⟨t, h, -⟩ := h
  unfold T.erase
  rw [h]

theorem search_goes {m : Mem} {b o bk ok : Nat} {T k : List Byte} (hT : Reads m b o T) (hk : Reads m bk ok k)
    (h0 : 0#8 ∉ k) (hn : T.length < 2 ^ 32) {mx : U32} (hmx : mx.toNat = T.length - k.length) (fuel : Nat) :
    ∀ i, T.length < fuel + i → i ≤ T.length →
    ∃ a, Goes (searchT (ptr b o) (ptr bk ok) (BitVec.ofNat 64 k.length) mx fuel (BitVec.ofNat 32 i)) m a
      (findSteps k (T.drop i)) m := by
  induction fuel with
  | zero => intro i h1 h2; omega
  | succ fuel ih =>
    intro i h1 h2
    rw [searchT]
    by_cases hi : i < T.length - k.length
    · have hlt : BitVec.ofNat 32 i < mx := by rw [BitVec.lt_def, hmx, ofNat32 (by omega)]; exact hi
      have hr : Reads m b (o + i) ((T.drop i).take k.length) := reads_take (reads_drop hT i) _
      have hc := strncmp_goes k h0 hk hr (by simp; omega)
      rw [agree_take] at hc
      have hcons : T.drop i = T[i] :: T.drop (i + 1) := List.drop_eq_getElem_cons (by omega)
      have hpre : k <+: T.drop i ↔ (T.drop i).take k.length = k := by
        rw [List.prefix_iff_eq_take]; exact ⟨fun h => h.symm, fun h => h.symm⟩
      have hlen : k.length < (T.drop i).length := by simp; omega
      rw [decide_eq_true hlt, ptr_addN, ofNat32 (by omega), ofNat64 (by omega)]
      by_cases he : (T.drop i).take k.length = k
      · rw [decide_eq_true he, if_pos he] at hc
        have hg : T[i + k.length]? = some T[i + k.length] := List.getElem?_eq_getElem (by omega)
        refine ⟨(BitVec.ofNat 32 i, T[i + k.length] == 34#8),
          (Goes.bind (Goes.branch _ m) (l := 4 * k.length + 3) ?_).of_eq ?_⟩
        · rw [if_pos rfl]
          refine Goes.bind hc (l := 3) ?_
          refine Goes.bind (Goes.branch _ m) (l := 2) ?_
          rw [if_pos rfl, setWidth64 (by omega),
            show BitVec.ofNat 64 i + BitVec.ofNat 64 k.length = BitVec.ofNat 64 (i + k.length) by simp [BitVec.ofNat_add],
            ofNat64 (by omega), ptr_addN]
          refine Goes.bind (l := 1) (Goes.load (hT.load hg)) (Goes.bind (l := 0) (Goes.branch _ m) ?_)
          exact Goes.pure _ m
        · rw [hcons, findSteps, ← hcons, if_pos hlen, if_pos (hpre.mpr he)]; omega
      · rw [decide_eq_false he, if_neg he] at hc
        obtain ⟨a, ha⟩ := ih (i + 1) (by omega) (by omega)
        refine ⟨a, (Goes.bind (Goes.branch _ m) (l := 4 * agree (T.drop i) k + 3 + (1 + findSteps k (T.drop (i + 1)))) ?_).of_eq ?_⟩
        · rw [if_pos rfl]
          refine Goes.bind hc (Goes.bind (Goes.branch _ m) ?_)
          rw [if_neg (by simp), ofNat32_succ]
          exact ha
        · rw [hcons, findSteps, ← hcons, if_pos hlen, if_neg (fun h => he (hpre.mp h))]; omega
    · have hlt : ¬ BitVec.ofNat 32 i < mx := by rw [BitVec.lt_def, hmx, ofNat32 (by omega)]; exact hi
      rw [decide_eq_false hlt]
      refine ⟨(BitVec.ofNat 32 i, false), (Goes.bind (Goes.branch _ m) (l := 0) ?_).of_eq ?_⟩
      · rw [if_neg (by simp)]; exact Goes.pure _ _
      · cases hd : T.drop i with
        | nil => rfl
        | cons c t =>
          rw [findSteps, if_neg]
          rw [← hd, List.length_drop]; omega

theorem skip_goes {m : Mem} {b o : Nat} {T : List Byte} (hT : Reads m b o T) (hn : T.length < 2 ^ 32) {size : SizeT}
    (hs : size.toNat = T.length) (fuel : Nat) : ∀ i, T.length < fuel + i → i ≤ T.length →
    ∃ a, Goes (skipT (ptr b o) size fuel (BitVec.ofNat 32 i)) m a (skipSteps (T.drop i)) m := by
  induction fuel with
  | zero => intro i h1 h2; omega
  | succ fuel ih =>
    intro i h1 h2
    rw [skipT, setWidth64 (by omega)]
    by_cases hi : i < T.length
    · have hlt : BitVec.ofNat 64 i < size := by rw [BitVec.lt_def, hs, ofNat64 (by omega)]; exact hi
      have hcons : T.drop i = T[i] :: T.drop (i + 1) := List.drop_eq_getElem_cons (by omega)
      rw [decide_eq_true hlt, ptr_addN, ofNat32 (by omega), hcons]
      have hl := Goes.load (hT.load (List.getElem?_eq_getElem hi))
      by_cases hq : T[i] = 34#8
      · refine ⟨BitVec.ofNat 32 i, (Goes.bind (Goes.branch _ m) (l := 2) ?_).of_eq (by rw [skipSteps, if_pos hq])⟩
        rw [if_pos rfl]
        refine Goes.bind (l := 1) hl (Goes.bind (l := 0) (Goes.branch _ m) ?_)
        rw [if_pos (by simp [hq])]
        exact Goes.pure _ _
      · obtain ⟨a, ha⟩ := ih (i + 1) (by omega) (by omega)
        refine ⟨a, (Goes.bind (Goes.branch _ m) (l := 1 + (1 + skipSteps (T.drop (i + 1)))) ?_).of_eq
          (by rw [skipSteps, if_neg hq]; omega)⟩
        rw [if_pos rfl]
        refine Goes.bind hl (Goes.bind (Goes.branch _ m) ?_)
        rw [if_neg (by simpa using hq), ofNat32_succ]
        exact ha
    · have hlt : ¬ BitVec.ofNat 64 i < size := by rw [BitVec.lt_def, hs, ofNat64 (by omega)]; exact hi
      rw [decide_eq_false hlt, show T.drop i = [] from List.drop_of_length_le (by omega)]
      refine ⟨BitVec.ofNat 32 i, Goes.bind (l := 0) (Goes.branch _ m) ?_⟩
      rw [if_neg (by simp)]
      exact Goes.pure _ _

theorem copy_goes {b o bv ov : Nat} {T : List Byte} (hn : T.length < 2 ^ 32) {size mv : SizeT}
    (hs : size.toNat = T.length) (hd : bv ≠ b ∨ ov + mv.toNat ≤ o ∨ o + T.length ≤ ov) (fuel : Nat) :
    ∀ i (w : SizeT) (m : Mem), T.length < fuel + i → 0 < fuel → i ≤ T.length + 1 → i < 2 ^ 32 → w.toNat ≤ mv.toNat → Reads m b o T →
    ov + mv.toNat ≤ (m.bytes bv).length →
    ∃ a m', Goes (copyT (ptr b o) size (ptr bv ov) mv fuel (BitVec.ofNat 32 i) w) m a
      (copySteps (T.drop i) (mv.toNat - w.toNat)) m' := by
  induction fuel with
  | zero => intro i w m h1 h0; omega
  | succ fuel ih =>
    intro i w m h1 h0 h2 h3 hw hT hroom
    rw [copyT, setWidth64 (by omega)]
    by_cases hi : i < T.length
    · have hlt : BitVec.ofNat 64 i < size := by rw [BitVec.lt_def, hs, ofNat64 (by omega)]; exact hi
      have hcons : T.drop i = T[i] :: T.drop (i + 1) := List.drop_eq_getElem_cons (by omega)
      have hg : T[i]? = some T[i] := List.getElem?_eq_getElem hi
      rw [decide_eq_true hlt, hcons]
      by_cases hwm : w.toNat < mv.toNat
      · rw [decide_eq_true (show w < mv from hwm), ptr_addN, ofNat32 (by omega), ptr_addN,
          show mv.toNat - w.toNat = (mv.toNat - w.toNat - 1) + 1 by omega]
        obtain ⟨m1, a1, a2, a3⟩ := store_frame (m := m) (b := bv) (o := ov + w.toNat) (v := T[i]) (by omega)
        have hT1 : Reads m1 b o T := hT.store a1 (by omega)
        by_cases hq : T[i] = 34#8
        · obtain ⟨m2, b1, b2, b3⟩ := store_frame (m := m1) (b := bv) (o := ov + w.toNat) (v := 0#8)
            (by rw [oc_length a2]; omega)
          refine ⟨true, m2, (Goes.bind (Goes.branch _ m) (l := 6) ?_).of_eq (by rw [copySteps, if_pos hq])⟩
          rw [if_pos rfl]
          refine Goes.bind (l := 5) (Goes.branch _ m) ?_
          rw [if_pos rfl]
          refine Goes.bind (l := 4) (Goes.load (hT.load hg)) (Goes.bind (l := 3) (Goes.store a1)
            (Goes.bind (l := 2) (Goes.load (hT1.load hg)) (Goes.bind (l := 1) (Goes.branch _ m1) ?_)))
          rw [if_pos (by simp [hq])]
          exact Goes.bind (l := 0) (Goes.store b1) (Goes.pure _ _)
        · have hw1 : (w + 1#64).toNat = w.toNat + 1 := by
            have := mv.isLt
            rw [BitVec.toNat_add]; simp only [BitVec.toNat_ofNat]; omega
          obtain ⟨a, m2, b1⟩ := ih (i + 1) (w + 1#64) m1 (by omega) (by omega) (by omega) (by omega) (by omega) hT1
            (by rw [oc_length a2]; omega)
          rw [hw1, ← Nat.sub_sub] at b1
          refine ⟨a, m2, (Goes.bind (Goes.branch _ m)
            (l := 1 + (1 + (1 + (1 + (1 + copySteps (T.drop (i + 1)) (mv.toNat - w.toNat - 1)))))) ?_).of_eq
            (by rw [copySteps, if_neg hq]; omega)⟩
          rw [if_pos rfl]
          refine Goes.bind (Goes.branch _ m) ?_
          rw [if_pos rfl]
          refine Goes.bind (Goes.load (hT.load hg)) (Goes.bind (Goes.store a1)
            (Goes.bind (Goes.load (hT1.load hg)) (Goes.bind (Goes.branch _ m1) ?_)))
          rw [if_neg (by simpa using hq), ofNat32_succ]
          exact b1
      · rw [decide_eq_false (show ¬ w < mv from hwm), show mv.toNat - w.toNat = 0 by omega]
        refine ⟨false, m, (Goes.bind (Goes.branch _ m) (l := 1) ?_).of_eq (by rw [copySteps])⟩
        rw [if_pos rfl]
        refine Goes.bind (l := 0) (Goes.branch _ m) ?_
        rw [if_neg (by simp)]
        exact Goes.pure _ _
    · have hlt : ¬ BitVec.ofNat 64 i < size := by rw [BitVec.lt_def, hs, ofNat64 (by omega)]; exact hi
      rw [decide_eq_false hlt, show T.drop i = [] from List.drop_of_length_le (by omega)]
      refine ⟨false, m, (Goes.bind (l := 0) (Goes.branch _ m) ?_).of_eq (by rw [copySteps])⟩
      rw [if_neg (by simp)]
      exact Goes.pure _ _

/-- The whole function. -/
theorem findByKey_goes {m : Mem} {b o bk ok bv ov : Nat} {T k : List Byte} {size mv : SizeT} (hT : Reads m b o T)
    (hk : Spec.CStr (m.bytes bk) ok k) (hs : size.toNat = T.length) (hn : T.length < 2 ^ 32 - 1) (hkl : k.length < 2 ^ 64)
    (hroom : ov + mv.toNat ≤ (m.bytes bv).length) (hd : bv ≠ b ∨ ov + mv.toNat ≤ o ∨ o + T.length ≤ ov) :
    ∃ r m', Goes (findByKeyT (ptr b o) size (ptr bk ok) (ptr bv ov) mv) m r (lookupSteps k T mv.toNat) m' := by
  have hn' : T.length < 2 ^ 32 := by omega
  have hmx : (if decide (BitVec.ofNat 64 k.length < size) = true then (size - BitVec.ofNat 64 k.length).setWidth 32 else 0#32).toNat =
      T.length - k.length := by
    simp only [decide_eq_true_eq]
    have hc : BitVec.ofNat 64 k.length < size ↔ k.length < T.length := by rw [BitVec.lt_def, hs, ofNat64 hkl]
    by_cases h : k.length < T.length
    · rw [if_pos (hc.mpr h), BitVec.toNat_setWidth, BitVec.toNat_sub_of_le (by rw [BitVec.le_def, hs, ofNat64 hkl]; omega),
        hs, ofNat64 hkl]
      omega
    · rw [if_neg (fun h' => h (hc.mp h'))]
      simp; omega
  obtain ⟨j, a1, a2⟩ := search_ok hT (reads_cstr hk) hk.1 hn' hmx (size.toNat + 1) 0 (by omega) (by omega)
  obtain ⟨x, g⟩ := search_goes hT (reads_cstr hk) hk.1 hn' hmx (size.toNat + 1) 0 (by omega) (by omega)
  have hx : x = (BitVec.ofNat 32 j, (Spec.Json.afterKey k (T.drop 0)).isSome) := by
    have := Goes.erase g
    rw [erase_search, a1] at this
    cases this; rfl
  subst hx
  rw [List.drop_zero] at a1 a2 g
  unfold findByKeyT lookupSteps
  cases ha : Spec.Json.afterKey k T with
  | none =>
    rw [ha] at g
    refine ⟨false, m, (Goes.bind (Goes.strlen (strlen_ok hk)) (Goes.bind (Goes.branch _ m) (Goes.bind g
      (Goes.bind (l := 0) (Goes.branch _ m) ?_)))).of_eq (by simp only; omega)⟩
    rw [if_neg (by simp)]
    exact Goes.pure _ _
  | some r =>
    rw [ha] at g
    obtain ⟨hr, hj⟩ := a2 r ha
    have e1 : BitVec.ofNat 32 j + (BitVec.ofNat 64 k.length + 1#64).setWidth 32 = BitVec.ofNat 32 (j + k.length + 1) := by
      apply BitVec.eq_of_toNat_eq
      rw [BitVec.toNat_add, BitVec.toNat_setWidth, BitVec.toNat_add, ofNat32 (by omega), ofNat64 hkl, ofNat32 (by omega)]
      simp only [BitVec.toNat_ofNat]
      omega
    have hrl : r.length = T.length - (j + k.length + 1) := by rw [hr, List.length_drop]
    have htl := takeWhile_length_le Spec.Json.notQuote r
    have hdrop : T.drop (j + k.length + 1 + (r.takeWhile Spec.Json.notQuote).length + 1) = (r.dropWhile Spec.Json.notQuote).drop 1 := by
      rw [← drop_takeWhile, List.drop_drop]
      conv => rhs; rw [hr, List.drop_drop]
      rw [← hr, Nat.add_assoc (j + k.length + 1)]
    have k1 := skip_ok hT hn' hs (size.toNat + 1) (j + k.length + 1) (by omega) (by omega)
    obtain ⟨y, k2⟩ := skip_goes hT hn' hs (size.toNat + 1) (j + k.length + 1) (by omega) (by omega)
    have hy : y = BitVec.ofNat 32 (j + k.length + 1 + (r.takeWhile Spec.Json.notQuote).length) := by
      have := Goes.erase k2
      rw [erase_skip, k1, ← hr] at this
      cases this; rfl
    subst hy
    rw [← hr] at k2
    obtain ⟨z, m', c1⟩ := copy_goes (b := b) (o := o) hn' hs hd (size.toNat + 1)
      (j + k.length + 1 + (r.takeWhile Spec.Json.notQuote).length + 1) 0#64 m (by omega) (by omega) (by omega) (by omega) (by simp) hT hroom
    rw [hdrop] at c1
    simp only [show (0#64).toNat = 0 from rfl, Nat.sub_zero] at c1
    refine ⟨z, m', (Goes.bind (Goes.strlen (strlen_ok hk)) (Goes.bind (Goes.branch _ m) (Goes.bind g
      (Goes.bind (Goes.branch _ m) (l := skipSteps r + copySteps ((r.dropWhile Spec.Json.notQuote).drop 1) mv.toNat) ?_)))).of_eq
      (by simp only; omega)⟩
    rw [if_pos (by simp), e1]
    refine Goes.bind k2 ?_
    rw [ofNat32_succ]
    exact c1

end Json
end IMU
