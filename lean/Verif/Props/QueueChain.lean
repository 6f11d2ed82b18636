import Verif.Props.Aliasing
import Verif.Spec.QueueChain
import Verif.Proofs.Deliver

/-!
# Property C139: queues in series are one FIFO
-/

namespace IMU.Props
open Spec Queue

/-- The elements in the first `n` queues, the oldest first. -/
def chainHeld : Nat → (Nat → List (List Byte)) → List (List Byte)
  | 0, _ => []
  | n + 1, xs => xs n ++ chainHeld n xs

/-- The steps the elements in the first `n` queues are away from the end. -/
def way (N : Nat) : Nat → (Nat → List (List Byte)) → Nat
  | 0, _ => 0
  | n + 1, xs => (xs n).length * (N - n) + way N n xs

theorem chainHeld_congr : ∀ (n : Nat) {xs ys : Nat → List (List Byte)}, (∀ i, i < n → xs i = ys i) → chainHeld n xs = chainHeld n ys
  | 0, _, _, _ => rfl
  | n + 1, _, _, h => by
    rw [chainHeld, chainHeld, h n (by omega), chainHeld_congr n fun i hi => h i (by omega)]

theorem way_congr (N : Nat) : ∀ (n : Nat) {xs ys : Nat → List (List Byte)}, (∀ i, i < n → xs i = ys i) →
    way N n xs = way N n ys
  | 0, _, _, _ => rfl
  | n + 1, _, _, h => by
    rw [way, way, h n (by omega), way_congr N n fun i hi => h i (by omega)]

theorem chainHeld_feed (e : List Byte) (xs : Nat → List (List Byte)) : ∀ n,
    chainHeld (n + 1) (Function.update xs 0 (xs 0 ++ [e])) = chainHeld (n + 1) xs ++ [e]
  | 0 => by simp [chainHeld]
  | n + 1 => by
    rw [chainHeld, chainHeld_feed e xs n, Function.update_of_ne (by omega), ← List.append_assoc]; rfl

theorem way_feed (N : Nat) (e : List Byte) (xs : Nat → List (List Byte)) : ∀ n,
    way N (n + 1) (Function.update xs 0 (xs 0 ++ [e])) = way N (n + 1) xs + N
  | 0 => by simp [way, Nat.add_mul]
  | n + 1 => by
    rw [way, way_feed N e xs n, Function.update_of_ne (by omega), ← Nat.add_assoc]; rfl

theorem chainHeld_move {x : List Byte} {t : List (List Byte)} {xs : Nat → List (List Byte)} {i : Nat} (h : xs i = x :: t) : ∀ d,
    chainHeld (i + 2 + d) (Function.update (Function.update xs i t) (i + 1) (xs (i + 1) ++ [x])) = chainHeld (i + 2 + d) xs
  | 0 => by
    show chainHeld (i + 2) _ = chainHeld (i + 2) _
    rw [chainHeld, chainHeld, chainHeld, chainHeld, Function.update_self, Function.update_of_ne (by omega), Function.update_self, h,
      chainHeld_congr i (ys := xs) fun j hj => by rw [Function.update_of_ne (by omega), Function.update_of_ne (by omega)]]
    simp
  | d + 1 => by
    rw [show i + 2 + (d + 1) = i + 2 + d + 1 by omega, chainHeld, chainHeld, chainHeld_move h d, Function.update_of_ne (by omega),
      Function.update_of_ne (by omega)]

theorem way_move {N : Nat} {x : List Byte} {t : List (List Byte)} {xs : Nat → List (List Byte)} {i : Nat} (h : xs i = x :: t)
    (hi : i + 1 < N) : ∀ d,
    way N (i + 2 + d) (Function.update (Function.update xs i t) (i + 1) (xs (i + 1) ++ [x])) + 1 = way N (i + 2 + d) xs
  | 0 => by
    show way N (i + 2) _ + 1 = way N (i + 2) _
    rw [way, way, way, way, Function.update_self, Function.update_of_ne (by omega), Function.update_self, h,
      way_congr N i (ys := xs) fun j hj => by rw [Function.update_of_ne (by omega), Function.update_of_ne (by omega)]]
    obtain ⟨k, hk⟩ : ∃ k, N = i + 2 + k := ⟨N - (i + 2), by omega⟩
    rw [show N - (i + 1) = k + 1 by omega, show N - i = k + 2 by omega]
    simp only [List.length_append, List.length_cons, List.length_nil, Nat.add_mul]
    omega
  | d + 1 => by
    rw [show i + 2 + (d + 1) = i + 2 + d + 1 by omega, way, way, ← way_move h hi d, Function.update_of_ne (by omega),
      Function.update_of_ne (by omega)]
    omega

theorem chainHeld_length : ∀ (n : Nat) (xs : Nat → List (List Byte)), (chainHeld n xs).length = sumTo n fun i => (xs i).length
  | 0, _ => rfl
  | n + 1, xs => by rw [chainHeld, List.length_append, chainHeld_length n xs, sumTo, Nat.add_comm]

theorem sumTo_congr : ∀ (n : Nat) {f g : Nat → Nat}, (∀ i, i < n → f i = g i) → sumTo n f = sumTo n g
  | 0, _, _, _ => rfl
  | n + 1, _, _, h => by rw [sumTo, sumTo, h n (by omega), sumTo_congr n fun i hi => h i (by omega)]

theorem way_eq (N : Nat) : ∀ (n : Nat) (xs : Nat → List (List Byte)), way N n xs = sumTo n fun i => (xs i).length * (N - i)
  | 0, _ => rfl
  | n + 1, xs => by rw [way, way_eq N n xs, sumTo, Nat.add_comm]

/-- The queues hold the elements `xs`. -/
structure ChainInv (n es : Nat) (ls : Nat → Stage) (qs : Nat → Queue) (m : Mem) (xs : Nat → List (List Byte)) : Prop where
  rep : ∀ i, i < n → Rep (ls i).cap.toNat es (ls i).bb (ls i).bo (qs i) m (xs i)
  apart : ∀ i j, i < n → j < n → i ≠ j → (ls i).bb ≠ (ls j).bb

theorem chainMem_own {n : Nat} {ls : Nat → Stage} {w m : Mem} {i : Nat} (hi : i < n) :
    (chainMem n ls w m).bytes (ls i).bb = m.bytes (ls i).bb := by
  show (if _ then _ else _) = _
  rw [if_pos (List.mem_map.mpr ⟨i, List.mem_range.mpr hi, rfl⟩)]

theorem chainMem_other {n : Nat} {ls : Nat → Stage} {w m : Mem} {b : Nat} (hb : ∀ i, i < n → b ≠ (ls i).bb) :
    (chainMem n ls w m).bytes b = w.bytes b := by
  show (if _ then _ else _) = _
  rw [if_neg]
  rintro h
  obtain ⟨i, hi, rfl⟩ := List.mem_map.mp h
  exact hb i (List.mem_range.mp hi) rfl

theorem ChainInv.mem {n es : Nat} {ls : Nat → Stage} {qs : Nat → Queue} {m : Mem} {xs : Nat → List (List Byte)}
    (h : ChainInv n es ls qs m xs) (w : Mem) : ChainInv n es ls qs (chainMem n ls w m) xs :=
  ⟨fun i hi => (h.rep i hi).of_eq (chainMem_own hi), h.apart⟩

section
variable {n es : Nat} {ls : Nat → Stage} {qs : Nat → Queue} {m : Mem} {xs : Nat → List (List Byte)}

/-- One queue changes, the others' buffers do not. -/
theorem ChainInv.set (h : ChainInv n es ls qs m xs) {i : Nat} (hi : i < n) {q : Queue} {m' : Mem} {ys : List (List Byte)}
    (hr : Rep (ls i).cap.toNat es (ls i).bb (ls i).bo q m' ys)
    (hm : ∀ j, j < n → j ≠ i → m'.bytes (ls j).bb = m.bytes (ls j).bb) :
    ChainInv n es ls (Function.update qs i q) m' (Function.update xs i ys) := by
  refine ⟨fun j hj => ?_, h.apart⟩
  by_cases hc : j = i
  · subst hc; rw [Function.update_self, Function.update_self]; exact hr
  · rw [Function.update_of_ne hc, Function.update_of_ne hc]
    exact (h.rep j hj).of_eq (hm j hj hc)

theorem ChainInv.keep (h : ChainInv n es ls qs m xs) {m' : Mem}
    (hm : ∀ j, j < n → m'.bytes (ls j).bb = m.bytes (ls j).bb) : ChainInv n es ls qs m' xs :=
  ⟨fun j hj => (h.rep j hj).of_eq (hm j hj), h.apart⟩

theorem ask_ok (h : ChainInv n es ls qs m xs) {i : Nat} (hi : i + 1 < n) {b o : Nat} (hb : ∀ i, i < n → b ≠ (ls i).bb)
    (ho : o + es ≤ (m.bytes b).length) {x : List Byte} {t : List (List Byte)} (hx : xs i = x :: t)
    (hroom : (xs (i + 1)).length < (ls (i + 1)).cap.toNat) :
    ∃ a c m', moveAsk (qs i) (qs (i + 1)) (ptr b o) m = .ok (true, a, c) m' ∧
      ChainInv n es ls (Function.update (Function.update qs i a) (i + 1) c) m'
        (Function.update (Function.update xs i t) (i + 1) (xs (i + 1) ++ [x])) := by
  have hri := h.rep i (by omega)
  rw [hx] at hri
  obtain ⟨a, m1, h1, r1, s1, c1⟩ := dequeue_ok hri b o (hb i (by omega)) ho
  have inv1 := h.set (by omega) r1 (fun j hj _ => c1.2.1 _ (Ne.symm (hb j hj)))
  have hrj := inv1.rep (i + 1) hi
  rw [Function.update_of_ne (by omega), Function.update_of_ne (by omega)] at hrj
  obtain ⟨c, m2, h2, r2, c2⟩ := enqueue_ok hrj hroom b o (hb _ hi) (by rw [c1.2.2.1]; exact ho)
  rw [s1] at r2
  refine ⟨a, c, m2, ?_, inv1.set hi r2 (fun j hj hji => c2.2.1 _ (h.apart j (i + 1) hj hi hji))⟩
  unfold moveAsk
  rw [(h.rep (i + 1) hi).full_iff, decide_eq_false (by omega)]
  simp only [Bool.false_eq_true, if_false]
  rw [C.bind_ok h1]
  simp only [if_true]
  rw [C.bind_ok h2]
  rfl

theorem ask_no (h : ChainInv n es ls qs m xs) {i : Nat} (hi : i + 1 < n) {b o : Nat}
    (hx : xs i = [] ∨ (xs (i + 1)).length = (ls (i + 1)).cap.toNat) :
    moveAsk (qs i) (qs (i + 1)) (ptr b o) m = .ok (false, qs i, qs (i + 1)) m := by
  unfold moveAsk
  rw [(h.rep (i + 1) hi).full_iff]
  by_cases hc : (xs (i + 1)).length = (ls (i + 1)).cap.toNat
  · rw [decide_eq_true hc]; rfl
  · rw [decide_eq_false hc]
    simp only [Bool.false_eq_true, if_false]
    have hri := h.rep i (by omega)
    rw [hx.resolve_right hc] at hri
    rw [C.bind_ok (dequeue_empty hri _)]
    rfl

theorem peek_ok (h : ChainInv n es ls qs m xs) {i : Nat} (hi : i + 1 < n) {b o : Nat} (hb : ∀ i, i < n → b ≠ (ls i).bb)
    (ho : o + es ≤ (m.bytes b).length) {x : List Byte} {t : List (List Byte)} (hx : xs i = x :: t)
    (hroom : (xs (i + 1)).length < (ls (i + 1)).cap.toNat) :
    ∃ a c m', movePeek (qs i) (qs (i + 1)) (ptr b o) m = .ok (true, a, c) m' ∧
      ChainInv n es ls (Function.update (Function.update qs i a) (i + 1) c) m'
        (Function.update (Function.update xs i t) (i + 1) (xs (i + 1) ++ [x])) := by
  have hri := h.rep i (by omega)
  rw [hx] at hri
  obtain ⟨m0, h0, s0, c0⟩ := front_ok hri b o (hb i (by omega)) ho
  have inv0 := h.keep (fun j hj => c0.2.1 _ (Ne.symm (hb j hj)))
  obtain ⟨c, m1, h1, r1, c1⟩ := enqueue_ok (inv0.rep (i + 1) hi) hroom b o (hb _ hi) (by rw [c0.2.2.1]; exact ho)
  rw [s0] at r1
  have inv1 := inv0.set hi r1 (fun j hj hji => c1.2.1 _ (h.apart j (i + 1) hj hi hji))
  have hri1 := inv1.rep i (by omega)
  rw [Function.update_of_ne (by omega), Function.update_of_ne (by omega), hx] at hri1
  have hob : o + es ≤ (m1.bytes b).length := by rw [c1.2.1 b (hb _ hi), c0.2.2.1]; exact ho
  obtain ⟨a, m2, h2, r2, -, c2⟩ := dequeue_ok hri1 b o (hb i (by omega)) hob
  have inv2 := inv1.set (show i < n by omega) r2 (fun j hj _ => c2.2.1 _ (Ne.symm (hb j hj)))
  rw [Function.update_comm (show i + 1 ≠ i by omega) c a qs,
    Function.update_comm (show i + 1 ≠ i by omega) (xs (i + 1) ++ [x]) t xs] at inv2
  refine ⟨a, c, m2, ?_, inv2⟩
  unfold movePeek
  rw [C.bind_ok h0]
  simp only [if_true]
  rw [C.bind_ok h1]
  simp only [if_true]
  rw [C.bind_ok h2]
  rfl

theorem peek_no (h : ChainInv n es ls qs m xs) {i : Nat} (hi : i + 1 < n) {b o : Nat} (hb : ∀ i, i < n → b ≠ (ls i).bb)
    (ho : o + es ≤ (m.bytes b).length) (hx : xs i = [] ∨ (xs (i + 1)).length = (ls (i + 1)).cap.toNat) :
    ∃ m', movePeek (qs i) (qs (i + 1)) (ptr b o) m = .ok (false, qs i, qs (i + 1)) m' ∧ ChainInv n es ls qs m' xs := by
  have hri := h.rep i (by omega)
  unfold movePeek
  cases hc : xs i with
  | nil =>
    rw [hc] at hri
    refine ⟨m, ?_, h⟩
    rw [C.bind_ok (front_empty hri _)]; rfl
  | cons x t =>
    rw [hc] at hri
    obtain ⟨m0, h0, s0, c0⟩ := front_ok hri b o (hb i (by omega)) ho
    have inv0 := h.keep (fun j hj => c0.2.1 _ (Ne.symm (hb j hj)))
    refine ⟨m0, ?_, inv0⟩
    rw [C.bind_ok h0]
    simp only [if_true]
    rw [C.bind_ok (enqueue_full (inv0.rep (i + 1) hi) (hx.resolve_left (by rw [hc]; simp)) _)]
    rfl

/-- One step of the chain. -/
theorem chain_step (hn : 0 < n) (h : ChainInv n es ls qs m xs) (c : ChainCall) (hv : c.Valid n es ls) :
    ∃ o qs' m' xs', c.exec n es ls qs m = some (o, qs', m') ∧ ChainInv n es ls qs' m' xs' ∧
      chainHeld n xs ++ chainIn [o] = chainOut [o] ++ chainHeld n xs' ∧
      way n n xs + n * (chainIn [o]).length = way n n xs' + chainMoves [o] + (chainOut [o]).length ∧
      (c.step = .feed → (∃ e, o = .fed e (decide ((xs 0).length < (ls 0).cap.toNat)) ∧ e = slice (c.w.bytes c.blk) c.off es)) ∧
      (∀ i peek, c.step = .move i peek →
        o = .moved (decide (xs i ≠ [] ∧ (xs (i + 1)).length < (ls (i + 1)).cap.toNat))) ∧
      (c.step = .take → o = .took (xs (n - 1)).head?) := by
  obtain ⟨hvm, hvb, hvo⟩ := hv
  have h' := h.mem c.w
  have hmo : c.off + es ≤ ((chainMem n ls c.w m).bytes c.blk).length := by rw [chainMem_other hvb]; exact hvo
  cases hs : c.step with
  | feed =>
    have hr := h'.rep 0 hn
    by_cases hroom : (xs 0).length < (ls 0).cap.toNat
    · obtain ⟨q, m', h1, r1, c1⟩ := enqueue_ok hr hroom c.blk c.off (hvb 0 hn) hmo
      rw [chainMem_other hvb] at r1
      refine ⟨_, _, _, _, (by simp only [ChainCall.exec, hs, h1]; rfl), h'.set hn r1 (fun j hj hj0 =>
        c1.2.1 _ (h.apart j 0 hj hn hj0)), ?_, ?_, fun _ => ⟨_, ?_, rfl⟩, fun i p hp => (by cases hp), fun hp => (by cases hp)⟩
      · obtain ⟨k, rfl⟩ : ∃ k, n = k + 1 := ⟨n - 1, by omega⟩
        rw [chainHeld_feed]; rfl
      · obtain ⟨k, rfl⟩ : ∃ k, n = k + 1 := ⟨n - 1, by omega⟩
        rw [way_feed]; simp [chainIn, chainOut, chainMoves]
      · rw [decide_eq_true hroom]
    · have hfull : (xs 0).length = (ls 0).cap.toNat := by have := hr.size_le; omega
      have h1 := enqueue_full hr hfull (ptr c.blk c.off)
      refine ⟨_, _, _, xs, (by simp only [ChainCall.exec, hs, h1]; rfl), ?_, ?_, ?_, fun _ => ⟨_, ?_, rfl⟩, fun i p hp => (by cases hp),
        fun hp => (by cases hp)⟩
      · rw [Function.update_eq_self]; exact h'
      · simp [chainIn, chainOut]
      · simp [chainIn, chainOut, chainMoves]
      · rw [decide_eq_false hroom]
  | move i peek =>
    have hi := hvm i peek hs
    obtain ⟨d, hd⟩ : ∃ d, n = i + 2 + d := ⟨n - (i + 2), by omega⟩
    by_cases hc : xs i ≠ [] ∧ (xs (i + 1)).length < (ls (i + 1)).cap.toNat
    · obtain ⟨x, t, hx⟩ := List.exists_cons_of_ne_nil hc.1
      have key : ∃ a b m', (if peek then movePeek else moveAsk) (qs i) (qs (i + 1)) (ptr c.blk c.off) (chainMem n ls c.w m) =
            .ok (true, a, b) m' ∧ ChainInv n es ls (Function.update (Function.update qs i a) (i + 1) b) m'
              (Function.update (Function.update xs i t) (i + 1) (xs (i + 1) ++ [x])) := by
        cases peek
        · exact ask_ok h' hi hvb hmo hx hc.2
        · exact peek_ok h' hi hvb hmo hx hc.2
      obtain ⟨a, b, m', h1, inv⟩ := key
      refine ⟨_, _, _, _, (by simp only [ChainCall.exec, hs, h1]; rfl), inv, ?_, ?_, fun hp => (by cases hp), ?_, fun hp => (by cases hp)⟩
      · have := chainHeld_move hx d
        rw [← hd] at this
        rw [this]; simp [chainIn, chainOut]
      · have := way_move (N := n) hx (by omega) d
        rw [← hd] at this
        rw [← this]; simp [chainIn, chainOut, chainMoves]
      · intro j p hp
        cases hp
        rw [decide_eq_true hc]
    · have hc' : xs i = [] ∨ (xs (i + 1)).length = (ls (i + 1)).cap.toNat := by
        have := (h.rep (i + 1) hi).size_le
        by_cases h0 : xs i = []
        · exact Or.inl h0
        · right
          by_contra h2
          exact hc ⟨h0, by omega⟩
      have key : ∃ m', (if peek then movePeek else moveAsk) (qs i) (qs (i + 1)) (ptr c.blk c.off) (chainMem n ls c.w m) =
            .ok (false, qs i, qs (i + 1)) m' ∧ ChainInv n es ls qs m' xs := by
        cases peek
        · exact ⟨_, ask_no h' hi hc', h'⟩
        · exact peek_no h' hi hvb hmo hc'
      obtain ⟨m', h1, inv⟩ := key
      refine ⟨_, _, _, xs, (by simp only [ChainCall.exec, hs, h1]; rfl), ?_, ?_, ?_, fun hp => (by cases hp), ?_, fun hp => (by cases hp)⟩
      · rw [Function.update_eq_self, Function.update_eq_self]; exact inv
      · simp [chainIn, chainOut]
      · simp [chainIn, chainOut, chainMoves]
      · intro j p hp
        cases hp
        rw [decide_eq_false hc]
  | take =>
    have hr := h'.rep (n - 1) (by omega)
    obtain ⟨k, rfl⟩ : ∃ k, n = k + 1 := ⟨n - 1, by omega⟩
    simp only [Nat.add_sub_cancel] at hr ⊢
    cases hx : xs k with
    | nil =>
      rw [hx] at hr
      have h1 := dequeue_empty hr (ptr c.blk c.off)
      refine ⟨_, _, _, xs, (by simp only [ChainCall.exec, hs, Nat.add_sub_cancel, h1]; rfl), ?_, ?_, ?_, fun hp => (by cases hp),
        fun i p hp => (by cases hp), fun _ => rfl⟩
      · rw [Function.update_eq_self]; exact h'
      · simp [chainIn, chainOut]
      · simp [chainIn, chainOut, chainMoves]
    | cons x t =>
      rw [hx] at hr
      obtain ⟨q, m', h1, r1, s1, c1⟩ := dequeue_ok hr c.blk c.off (hvb k (by omega)) hmo
      refine ⟨_, _, _, _, (by simp only [ChainCall.exec, hs, Nat.add_sub_cancel, h1]; rfl), h'.set (show k < k + 1 by omega) r1
        (fun j hj _ => c1.2.1 _ (Ne.symm (hvb j hj))), ?_, ?_, fun hp => (by cases hp), fun i p hp => (by cases hp), fun _ => ?_⟩
      · rw [chainHeld, chainHeld, Function.update_self, hx, s1,
          chainHeld_congr k (xs := Function.update xs k t) (ys := xs) fun j hj => Function.update_of_ne (by omega) ..]
        simp [chainIn, chainOut]
      · rw [way, way, Function.update_self, hx, way_congr (k + 1) k (xs := Function.update xs k t) (ys := xs) fun j hj => Function.update_of_ne (by omega) ..]
        simp [chainIn, chainOut, chainMoves, Nat.add_mul]
        omega
      · rw [s1]; rfl

/-- Every history of the chain. -/
theorem chain_all (hn : 0 < n) : ∀ (h : List ChainCall) {qs : Nat → Queue} {m : Mem} {xs : Nat → List (List Byte)},
    ChainInv n es ls qs m xs → (∀ c ∈ h, c.Valid n es ls) →
    ∃ os qs' m' xs', chainAll n es ls qs m h = some (os, qs', m') ∧ ChainInv n es ls qs' m' xs' ∧
      chainHeld n xs ++ chainIn os = chainOut os ++ chainHeld n xs' ∧
      way n n xs + n * (chainIn os).length = way n n xs' + chainMoves os + (chainOut os).length
  | [], qs, m, xs, hi, _ => ⟨[], qs, m, xs, rfl, hi, by simp [chainIn, chainOut], by simp [chainIn, chainOut, chainMoves]⟩
  | c :: cs, qs, m, xs, hi, hv => by
    obtain ⟨o, qs1, m1, xs1, h1, i1, e1, w1, -⟩ := chain_step hn hi c (hv c (List.mem_cons_self ..))
    obtain ⟨os, qs2, m2, xs2, h2, i2, e2, w2⟩ := chain_all hn cs i1 (fun c hc => hv c (List.mem_cons_of_mem _ hc))
    have ea : chainIn (o :: os) = chainIn [o] ++ chainIn os := by
      rw [← List.singleton_append]; exact List.filterMap_append
    have eb : chainOut (o :: os) = chainOut [o] ++ chainOut os := by
      rw [← List.singleton_append]; exact List.filterMap_append
    have ec : chainMoves (o :: os) = chainMoves [o] + chainMoves os := by
      rw [← List.singleton_append]; exact List.countP_append ..
    refine ⟨o :: os, qs2, m2, xs2, by simp only [chainAll, h1, h2], i2, ?_, ?_⟩
    · rw [ea, eb, ← List.append_assoc, e1, List.append_assoc, e2, List.append_assoc]
    · rw [ea, eb, ec, List.length_append, List.length_append, Nat.mul_add]
      omega

theorem ready_chain {es : U32} (h : ChainReady n es ls qs m) : ChainInv n es.toNat ls qs m fun _ => [] := by
  refine ⟨fun i hi => ?_, h.apart⟩
  obtain ⟨q0, m1, m2, hq⟩ := h.fresh i hi
  have : init (some q0) (ls i).cap es (some (ptr (ls i).bb (ls i).bo)) m = .ok (true, some (qs i)) m := by
    unfold init at hq ⊢
    simp only at hq ⊢
    split at hq
    · rename_i hc
      rw [if_pos hc]
      simp only [C.pure_run, Res.ok.injEq, Prod.mk.injEq] at hq ⊢
      exact ⟨hq.1, trivial⟩
    · simp [C.pure_run] at hq
  exact (init_rep q0 (qs i) (ls i).cap es _ _ m m this (h.lim i hi) (h.fits i hi)).2

theorem chainHeld_nil : ∀ n, chainHeld n (fun _ => []) = []
  | 0 => rfl
  | n + 1 => by rw [chainHeld, chainHeld_nil n]; rfl

theorem way_nil (N : Nat) : ∀ n, way N n (fun _ => []) = 0
  | 0 => rfl
  | n + 1 => by rw [way, way_nil N n]; simp

/-- C139: queues in series are one FIFO.  From freshly initialised queues on, in every history of offers, passings on
and takings, nothing is undefined; the elements taken so far are the first of the elements accepted, in the same order;
and the others are in the queues' buffers, the oldest ones in the last queue. -/
theorem C139_fifo {es : U32} (hn : 0 < n) (hr : ChainReady n es ls qs m) (h : List ChainCall)
    (hv : ∀ c ∈ h, c.Valid n es.toNat ls) :
    ∃ os qs' m', chainAll n es.toNat ls qs m h = some (os, qs', m') ∧
      chainIn os = chainOut os ++ chainHeld n (fun i => held (qs' i) m' (ls i).bb (ls i).bo es.toNat) ∧
      (chainIn os).length = (chainOut os).length + sumTo n fun i => (qs' i).size.toNat := by
  obtain ⟨os, qs', m', xs, h1, i1, e1, -⟩ := chain_all hn h (ready_chain hr) hv
  rw [chainHeld_nil, List.nil_append] at e1
  refine ⟨os, qs', m', h1, ?_, ?_⟩
  · rw [e1, chainHeld_congr n fun i hi => (held_eq (i1.rep i hi)).symm]
  · rw [e1, List.length_append, chainHeld_length]
    exact congrArg _ (sumTo_congr n fun i hi => ((i1.rep i hi).size_eq).symm)

/-- C139: what each step answers: an offer is accepted exactly if the first queue is not full; an element is passed on
exactly if there is one and the next queue is not full, in either way of doing it; one is taken exactly if the last
queue is not empty. -/
theorem C139_answers {es : U32} (hn : 0 < n) (hr : ChainReady n es ls qs m) (h : List ChainCall)
    (hv : ∀ c ∈ h, c.Valid n es.toNat ls) (c : ChainCall) (hc : c.Valid n es.toNat ls) :
    ∃ os qs' m' o qs'' m'', chainAll n es.toNat ls qs m h = some (os, qs', m') ∧
      c.exec n es.toNat ls qs' m' = some (o, qs'', m'') ∧
      (c.step = .feed → ∃ e, o = .fed e (decide ((qs' 0).size.toNat < (ls 0).cap.toNat)) ∧
        e = slice (c.w.bytes c.blk) c.off es.toNat) ∧
      (∀ i peek, c.step = .move i peek →
        o = .moved (decide (0 < (qs' i).size.toNat ∧ (qs' (i + 1)).size.toNat < (ls (i + 1)).cap.toNat))) ∧
      (c.step = .take → ∃ x, o = .took x ∧ (x = none ↔ (qs' (n - 1)).size.toNat = 0)) := by
  obtain ⟨os, qs', m', xs, h1, i1, e1, -⟩ := chain_all hn h (ready_chain hr) hv
  obtain ⟨o, qs'', m'', xs', h2, i2, -, -, a1, a2, a3⟩ := chain_step hn i1 c hc
  refine ⟨os, qs', m', o, qs'', m'', h1, h2, ?_, ?_, ?_⟩
  · intro hs
    rw [(i1.rep 0 hn).size_eq]
    exact a1 hs
  · intro i peek hs
    have hi := hc.1 i peek hs
    rw [a2 i peek hs, (i1.rep i (by omega)).size_eq, (i1.rep (i + 1) hi).size_eq]
    congr 1
    simp only [List.length_pos_iff]
  · intro hs
    refine ⟨_, a3 hs, ?_⟩
    rw [(i1.rep (n - 1) (by omega)).size_eq, List.head?_eq_none_iff, List.length_eq_zero_iff]

theorem chainHeld_empty : ∀ (N : Nat), 0 < N → (xs (N - 1) = []) →
    (∀ i, i + 1 < N → xs i = [] ∨ xs (i + 1) ≠ []) → chainHeld N xs = []
  | 0, h, _, _ => by omega
  | 1, _, h, _ => by rw [chainHeld, chainHeld, show xs 0 = [] from h]; rfl
  | N + 2, _, h, hs => by
    have h0 : xs (N + 1) = [] := h
    have h1 : xs N = [] := (hs N (by omega)).resolve_right (by simp [h0])
    rw [chainHeld, h0, List.nil_append]
    exact chainHeld_empty (N + 1) (by omega) h1 (fun i hi => hs i (by omega))

/-- C139: nothing gets stuck: if nothing can be taken and nothing passed on, everything accepted has been taken. -/
theorem C139_stuck {es : U32} (hn : 0 < n) (hr : ChainReady n es ls qs m) (h : List ChainCall)
    (hv : ∀ c ∈ h, c.Valid n es.toNat ls) {os : List ChainObs} {qs' : Nat → Queue} {m' : Mem}
    (hx : chainAll n es.toNat ls qs m h = some (os, qs', m')) {w : Mem} {b o : Nat} (hb : ∀ i, i < n → b ≠ (ls i).bb)
    (ho : o + es.toNat ≤ (w.bytes b).length)
    (ht : ∃ r, (ChainCall.mk .take w b o).exec n es.toNat ls qs' m' = some (.took none, r))
    (hmv : ∀ i, i + 1 < n → ∃ peek r, (ChainCall.mk (.move i peek) w b o).exec n es.toNat ls qs' m' = some (.moved false, r)) :
    chainIn os = chainOut os := by
  obtain ⟨os1, qs1, m1, xs, h1, i1, e1, -⟩ := chain_all hn h (ready_chain hr) hv
  rw [hx] at h1
  cases h1
  rw [chainHeld_nil, List.nil_append] at e1
  have ht' : xs (n - 1) = [] := by
    obtain ⟨r, ht⟩ := ht
    obtain ⟨o1, q1, m1, xs1, h2, -, -, -, -, -, a3⟩ := chain_step hn i1 (ChainCall.mk .take w b o)
      ⟨fun i p hp => (by cases hp), hb, ho⟩
    rw [ht] at h2
    have := a3 rfl
    simp only [Option.some.injEq, Prod.mk.injEq] at h2
    rw [← h2.1] at this
    injection this with this
    exact List.head?_eq_none_iff.mp this.symm
  have hm' : ∀ i, i + 1 < n → xs i = [] ∨ xs (i + 1) ≠ [] := by
    intro i hi
    obtain ⟨peek, r, hm⟩ := hmv i hi
    obtain ⟨o1, q1, m1, xs1, h2, -, -, -, -, a2, -⟩ := chain_step hn i1 (ChainCall.mk (.move i peek) w b o)
      ⟨fun j p hp => by cases hp; exact hi, hb, ho⟩
    rw [hm] at h2
    have := a2 i peek rfl
    simp only [Option.some.injEq, Prod.mk.injEq] at h2
    rw [← h2.1] at this
    injection this with this
    have := of_decide_eq_false this.symm
    by_cases h0 : xs i = []
    · exact Or.inl h0
    · right
      intro h3
      apply this
      refine ⟨h0, ?_⟩
      rw [h3]
      exact (i1.rep (i + 1) hi).cap_pos
  rw [e1, chainHeld_empty n hn ht' hm', List.append_nil]

/-- C139: how long it takes: every element accepted is passed on `n - 1` times and taken once, and the queues tell how
much of this is still to come.  So a history of successful steps without offers ends, and how many steps it takes does
not depend on their order. -/
theorem C139_steps {es : U32} (hn : 0 < n) (hr : ChainReady n es ls qs m) (h : List ChainCall)
    (hv : ∀ c ∈ h, c.Valid n es.toNat ls) :
    ∃ os qs' m', chainAll n es.toNat ls qs m h = some (os, qs', m') ∧
      n * (chainIn os).length = chainMoves os + (chainOut os).length + sumTo n fun i => (qs' i).size.toNat * (n - i) := by
  obtain ⟨os, qs', m', xs, h1, i1, -, w1⟩ := chain_all hn h (ready_chain hr) hv
  rw [way_nil, Nat.zero_add, way_eq] at w1
  refine ⟨os, qs', m', h1, ?_⟩
  rw [w1, sumTo_congr n (g := fun i => (qs' i).size.toNat * (n - i)) fun i hi => by rw [(i1.rep i hi).size_eq]]
  omega
end

/-- C139: who does not ask loses elements: passing on without asking is the same as with asking as long as there is room
in the next queue (or nothing to pass on); otherwise the oldest element leaves the first queue and goes nowhere. -/
theorem C139_blind {cap cap' es bb bo bb' bo' : Nat} {a b : Queue} {m : Mem} {xs ys : List (List Byte)}
    (ha : Rep cap es bb bo a m xs) (hb : Rep cap' es bb' bo' b m ys) {eb eo : Nat} (hne : eb ≠ bb) (hne' : eb ≠ bb')
    (he : eo + es ≤ (m.bytes eb).length) :
    (ys.length < cap' → moveBlind a b (ptr eb eo) m = moveAsk a b (ptr eb eo) m) ∧
    (ys.length = cap' → xs = [] → moveBlind a b (ptr eb eo) m = .ok (false, a, b) m) ∧
    (ys.length = cap' → ∀ x t, xs = x :: t → ∃ a' m', moveBlind a b (ptr eb eo) m = .ok (false, a', b) m' ∧
      Rep cap es bb bo a' m' t ∧ Rep cap' es bb' bo' b m' ys) := by
  refine ⟨fun h => ?_, fun h h0 => ?_, fun h x t h0 => ?_⟩
  · unfold moveBlind moveAsk
    rw [hb.full_iff, decide_eq_false (by omega)]
    simp only [Bool.false_eq_true, if_false]
    cases xs with
    | nil => rw [C.bind_ok (dequeue_empty ha _), C.bind_ok (dequeue_empty ha _)]; rfl
    | cons x t =>
      obtain ⟨a', m1, h1, r1, s1, c1⟩ := dequeue_ok ha eb eo hne he
      have hb1 := hb.of_eq (c1.2.1 bb' (Ne.symm hne'))
      obtain ⟨b', m2, h2, -, -⟩ := enqueue_ok hb1 h eb eo hne' (by rw [c1.2.2.1]; exact he)
      rw [C.bind_ok h1, C.bind_ok h1]
      simp only [if_true]
      rw [C.bind_ok h2, C.bind_ok h2]
  · subst h0
    unfold moveBlind
    rw [C.bind_ok (dequeue_empty ha _)]; rfl
  · subst h0
    obtain ⟨a', m1, h1, r1, s1, c1⟩ := dequeue_ok ha eb eo hne he
    have hb1 := hb.of_eq (c1.2.1 bb' (Ne.symm hne'))
    refine ⟨a', m1, ?_, r1, hb1⟩
    unfold moveBlind
    rw [C.bind_ok h1]
    simp only [if_true]
    rw [C.bind_ok (enqueue_full hb1 h _)]
    rfl

/-! ### Instances -/

/-- Three queues with room for 2, 1 and 1 elements of one byte. -/
def exChain : Nat → Stage := fun i => ⟨if i = 0 then 2#32 else 1#32, i, 0⟩
def exChainQ : Nat → Queue := fun i => ⟨(exChain i).cap, 0#32, (exChain i).cap - 1#32, 0#32, 1#32, ptr i 0⟩
def exChainM : Mem := ⟨fun b => if b = 0 then [0#8, 0#8] else if b ≤ 2 then [0#8] else [], fun _ => []⟩
def exChainW (a : Byte) : Mem := ⟨fun b => if b = 7 then [a] else [], fun _ => []⟩
def exChainH : List ChainCall :=
  [⟨.feed, exChainW 10, 7, 0⟩, ⟨.feed, exChainW 11, 7, 0⟩, ⟨.feed, exChainW 12, 7, 0⟩, ⟨.move 0 true, exChainW 0, 7, 0⟩,
   ⟨.move 0 false, exChainW 0, 7, 0⟩, ⟨.feed, exChainW 13, 7, 0⟩, ⟨.move 1 false, exChainW 0, 7, 0⟩,
   ⟨.move 0 false, exChainW 0, 7, 0⟩, ⟨.move 1 true, exChainW 0, 7, 0⟩, ⟨.take, exChainW 0, 7, 0⟩]

example : ChainReady 3 1#32 exChain exChainQ exChainM := by
  refine ⟨fun i hi => ⟨exChainQ i, exChainM, exChainM, ?_⟩, fun i hi => ?_, fun i hi => ?_, fun i j _ _ h => h⟩
  · rcases (by omega : i = 0 ∨ i = 1 ∨ i = 2) with rfl | rfl | rfl <;> rfl
  · unfold exChain; simp only; split <;> decide
  · rcases (by omega : i = 0 ∨ i = 1 ∨ i = 2) with rfl | rfl | rfl <;> decide

example : (∀ c ∈ exChainH, c.Valid 3 1 exChain) := by
  intro c hc
  unfold exChainH at hc
  simp only [List.mem_cons, List.not_mem_nil, or_false] at hc
  rcases hc with rfl | rfl | rfl | rfl | rfl | rfl | rfl | rfl | rfl | rfl <;>
    refine ⟨fun i p hp => ?_, fun i hi => ?_, by decide⟩ <;>
    first | (cases hp; done) | (cases hp; omega) | (show 7 ≠ i; omega)

/-- A third offer is refused, a move into a full queue too; the first element comes out first. -/
example : (chainAll 3 1 exChain exChainQ exChainM exChainH).map (·.1) =
    some [.fed [10] true, .fed [11] true, .fed [12] false, .moved true, .moved false, .fed [13] true, .moved true, .moved true,
      .moved false, .took (some [10])] := by decide +kernel

end IMU.Props
