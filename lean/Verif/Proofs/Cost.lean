import Verif.Proofs.LeakPriority
import Verif.Proofs.PriorityQueue
import Verif.Spec.Cost

/-!
# Counting steps
-/

namespace IMU
open Spec.Cost
namespace T
variable {α β σ : Type}

/-- Whenever `x` succeeds it takes `n` steps. -/
def Takes (x : T α) (n : Nat) : Prop := ∀ m a t m', x m = .ok (a, t) m' → t.length = n

theorem Takes.pure (a : α) : Takes (Pure.pure a : T α) 0 := by
  intro m b t m' h; cases h; rfl

theorem Takes.bind {x : T α} {f : α → T β} {k l : Nat} (h : Takes x k) (hf : ∀ a, Takes (f a) l) : Takes (x >>= f) (k + l) := by
  intro m b t m' hx
  obtain ⟨a, u1, m1, u2, h1, h2, rfl⟩ := bind_cases hx
  rw [List.length_append, h m a u1 m1 h1, hf a m1 b u2 m' h2]

theorem Takes.quiet (x : C α) : Takes (T.quiet x) 0 := fun _ _ _ _ h => by rw [(quiet_cases h).2]; rfl

theorem Takes.emit (t : List Leak) : Takes (T.emit t) t.length := by
  intro m a u m' h; cases h; rfl

theorem Takes.branch_bind {b : Bool} {f : Bool → T β} {k : Nat} (hf : Takes (f b) k) : Takes (T.branch b >>= f) (1 + k) := by
  intro m c u m' hx
  obtain ⟨a, u1, m1, u2, h1, h2, rfl⟩ := bind_cases hx
  cases h1
  rw [List.length_append, hf _ c u2 m' h2]; rfl

theorem Takes.branch (b : Bool) : Takes (T.branch b) 1 := by
  intro m a u m' h; cases h; rfl

theorem Takes.of_eq {x : T α} {k l : Nat} (h : Takes x k) (e : k = l) : Takes x l := e ▸ h

theorem Takes.ite {c : Prop} [Decidable c] {x y : T α} {k : Nat} (h : Takes x k) (h2 : Takes y k) : Takes (if c then x else y) k := by
  split
  · exact h
  · exact h2

theorem Takes.load (p : Ptr) : Takes (loadT p) 1 := Takes.bind (Takes.emit _) fun _ => Takes.quiet _
theorem Takes.store (p : Ptr) (v : Byte) : Takes (storeT p v) 1 := Takes.bind (Takes.emit _) fun _ => Takes.quiet _
theorem Takes.constAt {l : List α} (i : Nat) : Takes (constAtT l i) 1 := Takes.bind (Takes.emit _) fun _ => Takes.quiet _
theorem Takes.loadW (b i : Nat) : Takes (loadWT b i) 1 := Takes.bind (Takes.emit _) fun _ => Takes.quiet _
theorem Takes.storeW (b i : Nat) (v : U32) : Takes (storeWT b i v) 1 := Takes.bind (Takes.emit _) fun _ => Takes.quiet _

theorem Takes.memcpy (d s : Ptr) (n : Nat) : Takes (memcpyT d s n) (2 * n) := by
  refine (Takes.bind (Takes.emit _) fun _ => Takes.quiet _).of_eq ?_
  induction n with
  | zero => rfl
  | succ n ih =>
    rw [List.range_succ, List.flatMap_append, List.length_append]
    simp only [List.flatMap_cons, List.flatMap_nil, List.length_append, List.length_cons, List.length_nil] at ih ⊢
    omega

theorem Takes.forNT {k : Nat} {body : Nat → σ → T σ} (hb : ∀ i s, Takes (body i s) k) (n : Nat) :
    ∀ i s, Takes (forNT n i body s) (n * (1 + k) + 1) := by
  induction n with
  | zero => intro i s; exact (Takes.branch_bind (Takes.pure s)).of_eq (by omega)
  | succ n ih =>
    intro i s
    exact (Takes.branch_bind (Takes.bind (hb i s) fun s => ih (i + 1) s)).of_eq (by rw [Nat.succ_mul]; omega)

theorem Takes.localArray {x : T α} {k : Nat} (h : Takes x k) (b : Nat) (init : List Byte) : Takes (localArrayT b init x) k := by
  intro m a t m' hx
  unfold localArrayT IMU.localArray at hx
  cases h1 : x (m.upd b init) with
  | ub e => rw [h1] at hx; cases hx
  | ok at' m1 =>
    rw [h1] at hx
    simp only [Res.ok.injEq] at hx
    obtain ⟨rfl, -⟩ := hx
    exact h _ _ _ _ h1

/-- If the code without the observer succeeds, so does the observed one. -/
theorem of_erase {x : T α} {m m' : Mem} {a : α} (h : erase x m = .ok a m') : ∃ t, x m = .ok (a, t) m' := by
  unfold erase at h
  cases hx : x m with
  | ub e => rw [hx] at h; cases h
  | ok r m1 =>
    obtain ⟨b, t⟩ := r
    rw [hx] at h
    simp only [Res.ok.injEq] at h
    obtain ⟨rfl, rfl⟩ := h
    exact ⟨t, rfl⟩

end T

open T

/-! ### ChaCha20 -/
namespace ChaCha

theorem takes_deser (p : Ptr) : Takes (deserialize32LET p) 4 :=
  (Takes.bind (.load _) fun _ => Takes.bind (.load _) fun _ => Takes.bind (.load _) fun _ => Takes.bind (.load _) fun _ => .pure _)

theorem takes_ser (p : Ptr) (v : U32) : Takes (serialize32LET p v) 4 :=
  (Takes.bind (.store _ _) fun _ => Takes.bind (.store _ _) fun _ => Takes.bind (.store _ _) fun _ => .store _ _)

theorem takes_words (k : Ptr) (c : U32) (n : Ptr) : Takes (readWordsT k c n) 44 :=
  (Takes.bind (takes_deser _) fun _ => Takes.bind (takes_deser _) fun _ => Takes.bind (takes_deser _) fun _ =>
    Takes.bind (takes_deser _) fun _ => Takes.bind (takes_deser _) fun _ => Takes.bind (takes_deser _) fun _ =>
    Takes.bind (takes_deser _) fun _ => Takes.bind (takes_deser _) fun _ => Takes.bind (takes_deser _) fun _ =>
    Takes.bind (takes_deser _) fun _ => Takes.bind (takes_deser _) fun _ => .pure _)

theorem takes_block (k : Ptr) (c : U32) (n o : Ptr) : Takes (blockT k c n o) 163 :=
  (Takes.bind (takes_words _ _ _) fun _ => Takes.bind (Takes.forNT (k := 0) (fun _ _ => .quiet _) 10 _ _) fun _ =>
    Takes.bind (takes_words _ _ _) fun _ =>
    Takes.bind (takes_ser _ _) fun _ => Takes.bind (takes_ser _ _) fun _ => Takes.bind (takes_ser _ _) fun _ =>
    Takes.bind (takes_ser _ _) fun _ => Takes.bind (takes_ser _ _) fun _ => Takes.bind (takes_ser _ _) fun _ =>
    Takes.bind (takes_ser _ _) fun _ => Takes.bind (takes_ser _ _) fun _ => Takes.bind (takes_ser _ _) fun _ =>
    Takes.bind (takes_ser _ _) fun _ => Takes.bind (takes_ser _ _) fun _ => Takes.bind (takes_ser _ _) fun _ =>
    Takes.bind (takes_ser _ _) fun _ => Takes.bind (takes_ser _ _) fun _ => Takes.bind (takes_ser _ _) fun _ =>
    takes_ser _ _)

theorem takes_cryptBlock (ks : Nat) (p k n : Ptr) (inc : U32) (r : Ptr) (j : U32) (l : Nat) :
    Takes (cryptBlockT ks p k n inc r j l) (164 + 4 * l) :=
  (Takes.localArray (Takes.bind (takes_block _ _ _ _) fun _ => Takes.forNT (k := 3)
    (fun _ _ => (Takes.bind (.load _) fun _ => Takes.bind (.load _) fun _ => .store _ _)) l _ _) _ _).of_eq (by omega)

theorem takes_crypt (ks : Nat) (p : Ptr) (len : U32) (k n : Ptr) (inc : U32) (r : Ptr) :
    Takes (cryptT ks p len k n inc r) (chachaSteps len.toNat) := by
  have e1 : (len / 64#32).toNat = len.toNat / 64 := by rw [BitVec.toNat_udiv]; rfl
  have e2 : (len % 64#32).toNat = len.toNat % 64 := by rw [BitVec.toNat_umod]; rfl
  have hl : Takes (forNT (len / 64#32).toNat 0 (fun j _ => cryptBlockT ks p k n inc r (BitVec.ofNat 32 j) 64) ())
      (len.toNat / 64 * 421 + 1) := by
    rw [e1]
    exact Takes.forNT (fun _ _ => takes_cryptBlock _ _ _ _ _ _ _ _) _ _ _
  unfold cryptT
  refine (Takes.bind hl fun _ => Takes.branch_bind (k := if len.toNat % 64 = 0 then 0 else 164 + 4 * (len.toNat % 64)) ?_).of_eq ?_
  · by_cases h : len.toNat % 64 = 0
    · have : ¬ (0#32 ≠ len % 64#32) := by
        rw [Decidable.not_not]; apply BitVec.eq_of_toNat_eq; rw [e2, h]; rfl
      rw [if_pos h, if_neg (by simpa using this)]
      exact .pure _
    · have : 0#32 ≠ len % 64#32 := fun e => h (by rw [← e2, ← e]; rfl)
      rw [if_neg h, if_pos (by simpa using this), ← e2]
      exact takes_cryptBlock _ _ _ _ _ _ _ _
  · unfold chachaSteps
    split <;> omega

end ChaCha

/-! ### CRC -/
namespace Crc

theorem takes_reflectLoop (nb : Byte) (n : Nat) : ∀ (bit : Nat) (d r : U32), Takes (reflectLoopT nb n bit d r) (reflectSteps n) := by
  induction n with
  | zero => intro bit d r; exact Takes.bind (l := 0) (Takes.branch _) fun _ => Takes.pure _
  | succ n ih =>
    intro bit d r
    unfold reflectLoopT
    refine (Takes.bind (l := 1 + reflectSteps n) (Takes.branch _) fun _ => Takes.bind (l := reflectSteps n) (Takes.branch _) fun c =>
      ?_).of_eq (by unfold reflectSteps; omega)
    exact .ite ((Takes.bind (.quiet _) fun _ => ih _ _ _).of_eq (by omega)) (ih _ _ _)

theorem takes_reflect (d : U32) (nb : Byte) : Takes (reflectT d nb) (reflectSteps nb.toNat) := takes_reflectLoop _ _ _ _ _

theorem takes_input (p : Ptr) (ri : Bool) (i : Nat) : Takes (inputT p ri i) (if ri then 2 + reflectSteps 8 else 2) := by
  unfold inputT
  refine (Takes.branch_bind (k := 1 + if ri then reflectSteps 8 else 0) (Takes.bind (.load _) fun d => ?_)).of_eq ?_
  · cases ri
    · exact .pure _
    · exact (Takes.bind (l := 0) (takes_reflect (d.setWidth 32) 8#8) fun _ => .pure _)
  · cases ri <;> rfl

theorem takes_finish {w : Nat} (nb : Byte) (c x : BitVec w) (ro fx : Bool) :
    Takes (finishT nb c x ro fx) (2 + if ro then reflectSteps nb.toNat else 0) := by
  unfold finishT
  refine (Takes.branch_bind (k := (if ro then reflectSteps nb.toNat else 0) + 1)
    (Takes.bind ?_ fun _ => Takes.bind (l := 0) (.branch _) fun _ => .pure _)).of_eq (by omega)
  cases ro
  · exact .pure _
  · exact (Takes.bind (l := 0) (takes_reflect (c.setWidth 32) nb) fun _ => .pure _)

theorem crc_sum (n : Nat) (ri ro : Bool) (w : Nat) :
    n * (1 + ((if ri then 2 + reflectSteps 8 else 2) + 1)) + 1 + (2 + if ro then reflectSteps w else 0) = crcSteps w n ri ro := by
  unfold crcSteps
  cases ri <;> simp only [Bool.false_eq_true, if_false, if_true] <;> simp only [reflectSteps] <;> omega

theorem takes_base8 (t : List Byte) (p : Ptr) (l : U32) (i x : Byte) (ro ri fx : Bool) :
    Takes (base8T t p l i x ro ri fx) (crcSteps 8 l.toNat ri ro) :=
  (Takes.bind (Takes.forNT (fun _ _ => Takes.bind (takes_input _ _ _) fun _ => .constAt _) _ _ _) fun _ =>
    takes_finish _ _ _ _ _).of_eq (crc_sum _ _ _ _)

theorem takes_base16 (t : List U16) (p : Ptr) (l : U32) (i x : U16) (ro ri fx : Bool) :
    Takes (base16T t p l i x ro ri fx) (crcSteps 16 l.toNat ri ro) :=
  (Takes.bind (Takes.forNT (fun _ _ => Takes.bind (takes_input _ _ _) fun _ => Takes.bind (.constAt _) fun _ => .pure _) _ _ _) fun _ =>
    takes_finish _ _ _ _ _).of_eq (crc_sum _ _ _ _)

theorem takes_base32 (t : List U32) (p : Ptr) (l : U32) (i x : U32) (ro ri fx : Bool) :
    Takes (base32T t p l i x ro ri fx) (crcSteps 32 l.toNat ri ro) :=
  (Takes.bind (Takes.forNT (fun _ _ => Takes.bind (takes_input _ _ _) fun _ => Takes.bind (.constAt _) fun _ => .pure _) _ _ _) fun _ =>
    takes_finish _ _ _ _ _).of_eq (crc_sum _ _ _ _)

end Crc

/-! ### Queue -/
namespace Queue

theorem takes_enqueue (q : Queue) (el : Ptr) :
    Takes (enqueueT (some q) (some el)) (if full q then 1 else 1 + 2 * q.element_size.toNat) := by
  refine (Takes.branch_bind (b := !full q) (k := if full q then 0 else 2 * q.element_size.toNat) ?_).of_eq (by split <;> rfl)
  cases full q
  · exact (Takes.bind (.quiet _) fun _ => Takes.bind (.memcpy _ _ _) fun _ => .pure _).of_eq (by simp)
  · exact .pure _

theorem takes_dequeue (q : Queue) (el : Ptr) :
    Takes (dequeueT (some q) (some el)) (if empty q then 1 else 1 + 2 * q.element_size.toNat) := by
  refine (Takes.branch_bind (b := !empty q) (k := if empty q then 0 else 2 * q.element_size.toNat) ?_).of_eq (by split <;> rfl)
  cases empty q
  · exact (Takes.bind (.memcpy _ _ _) fun _ => Takes.bind (.quiet _) fun _ => .pure _).of_eq (by simp)
  · exact .pure _

theorem takes_front (q : Queue) (el : Ptr) :
    Takes (frontT (some q) (some el)) (if empty q then 1 else 1 + 2 * q.element_size.toNat) := by
  refine (Takes.branch_bind (b := !empty q) (k := if empty q then 0 else 2 * q.element_size.toNat) ?_).of_eq (by split <;> rfl)
  cases empty q
  · exact (Takes.bind (.memcpy _ _ _) fun _ => .pure _).of_eq (by simp)
  · exact .pure _

theorem takes_rear (q : Queue) (el : Ptr) :
    Takes (rearT (some q) (some el)) (if empty q then 1 else 1 + 2 * q.element_size.toNat) := by
  refine (Takes.branch_bind (b := !empty q) (k := if empty q then 0 else 2 * q.element_size.toNat) ?_).of_eq (by split <;> rfl)
  cases empty q
  · exact (Takes.bind (.memcpy _ _ _) fun _ => .pure _).of_eq (by simp)
  · exact .pure _

end Queue

/-! ### Priority queue -/
namespace PQ

theorem takes_highest (q : PQueue) : Takes (getHighestPriorityIndexT q) (3 * q.size.toNat + 2) :=
  (Takes.bind (.loadW _ _) fun _ => Takes.bind (Takes.forNT (k := 2)
    (fun _ _ => Takes.bind (l := 1) (.loadW _ _) fun _ => Takes.bind (l := 0) (.branch _) fun _ => .ite (.pure _) (.pure _)) _ _ _) fun _ => .pure _).of_eq (by omega)

theorem takes_lowest (q : PQueue) : Takes (getLowestPriorityIndexT q) (3 * q.size.toNat + 2) :=
  (Takes.bind (.loadW _ _) fun _ => Takes.bind (Takes.forNT (k := 2)
    (fun _ _ => Takes.bind (l := 1) (.loadW _ _) fun _ => Takes.bind (l := 0) (.branch _) fun _ => .ite (.pure _) (.pure _)) _ _ _) fun _ => .pure _).of_eq (by omega)

theorem takes_shift (q : PQueue) (i n : U32) : Takes (shiftDownT q i n) (moveSteps q.element_size.toNat (n.toNat - i.toNat)) :=
  (Takes.forNT (k := 2 * q.element_size.toNat + 2) (fun _ _ => (Takes.bind (.memcpy _ _ _) fun _ => Takes.bind (.loadW _ _) fun _ =>
    .storeW _ _ _)) _ _ _).of_eq (by unfold moveSteps; rw [show 1 + (2 * q.element_size.toNat + 2) = 2 * q.element_size.toNat + 3 by omega])

variable {cap esz bb bo pa : Nat} {q : PQueue} {m m' : Mem} {xs : List Spec.PItem} {t : List Leak} {r : Bool × PQueue} {el : Ptr}

/-- Lemma support: the number of entries behind the one found. -/
theorem behind {pre post : List Spec.PItem} {x : Spec.PItem} (hs : q.size.toNat = (pre ++ x :: post).length) :
    (q.size - 1#32).toNat - (BitVec.ofNat 32 pre.length : U32).toNat = post.length := by
  rw [List.length_append, List.length_cons] at hs
  have := q.size.isLt
  rw [toNat_sub_one (by omega), BitVec.toNat_ofNat, Nat.mod_eq_of_lt (by omega)]
  omega

theorem dequeue_cost (h : Rep cap esz bb bo pa q m xs) (hne : xs ≠ []) (hx : dequeueT q el m = .ok (r, t) m') :
    ∃ pre x post, xs = pre ++ x :: post ∧ (∀ y ∈ pre, y.1 < x.1) ∧ (∀ y ∈ post, y.1 ≤ x.1) ∧
      t.length = 3 * xs.length + 2 * esz + moveSteps esz post.length + 3 := by
  obtain ⟨pre, x, post, rfl, h1, h2, h3⟩ := highest_ok h hne
  refine ⟨pre, x, post, rfl, h1, h2, ?_⟩
  have he : empty q = false := by rw [h.empty_iff]; simpa using hne
  unfold dequeueT at hx
  rw [he] at hx
  obtain ⟨u0, g, rfl⟩ := Vernam.branch_exact hx
  rw [if_pos (by decide)] at g
  obtain ⟨i, u, m1, u2, g1, g2, rfl⟩ := bind_cases g
  have e := erase_ok g1
  rw [erase_highest, h3] at e
  simp only [Res.ok.injEq] at e
  obtain ⟨rfl, rfl⟩ := e
  have hT := (Takes.bind (.memcpy _ _ _) fun _ => Takes.bind (takes_shift { q with size := q.size - 1#32 } _ _) fun _ =>
    .pure _ : Takes _ _) _ _ _ _ g2
  rw [List.length_cons, List.length_append, hT, takes_highest q _ _ _ _ g1, behind h.size_eq, h.size_eq, h.hes]
  omega

theorem enqueue_cost_room (h : Rep cap esz bb bo pa q m xs) (hr : xs.length < cap) {p : U32} (hx : enqueueT q el p m = .ok (r, t) m') :
    t.length = 2 * esz + 2 := by
  have he : full q = false := by rw [h.full_iff]; simp; omega
  unfold enqueueT at hx
  rw [he] at hx
  obtain ⟨u0, g, rfl⟩ := Vernam.branch_exact hx
  rw [if_pos (by decide)] at g
  have hT := (Takes.bind (.memcpy _ _ _) fun _ => Takes.bind (.storeW _ _ _) fun _ => .pure _ : Takes _ _) _ _ _ _ g
  rw [List.length_cons, hT, h.hes]

theorem enqueue_cost_full (h : Rep cap esz bb bo pa q m xs) (hr : xs.length = cap) {p : U32} (hx : enqueueT q el p m = .ok (r, t) m') :
    ∃ pre x post, xs = pre ++ x :: post ∧ (∀ y ∈ pre, x.1 < y.1) ∧ (∀ y ∈ post, x.1 ≤ y.1) ∧
      t.length = 3 * cap + 5 + if x.1 < p then 2 * esz + moveSteps esz post.length + 1 else 0 := by
  have hne : xs ≠ [] := by rintro rfl; have := h.cap_pos; simp at hr; omega
  obtain ⟨pre, x, post, rfl, h1, h2, h3⟩ := lowest_ok h hne
  refine ⟨pre, x, post, rfl, h1, h2, ?_⟩
  have he : full q = true := by rw [h.full_iff]; simpa using hr
  unfold enqueueT at hx
  rw [he] at hx
  obtain ⟨u0, g, rfl⟩ := Vernam.branch_exact hx
  rw [if_neg (by decide)] at g
  obtain ⟨i, u, m1, u2, g1, g2, rfl⟩ := bind_cases g
  have e := erase_ok g1
  rw [erase_lowest, h3] at e
  simp only [Res.ok.injEq] at e
  obtain ⟨rfl, rfl⟩ := e
  obtain ⟨w, t3, m3, u3, g3, g4, rfl⟩ := bind_cases g2
  obtain ⟨hw, rfl, rfl⟩ := loadWT_exact g3
  obtain ⟨u5, g5, rfl⟩ := Vernam.branch_exact g4
  have hs := h.size_eq
  have hwx : w = x.1 := by
    have hpx := h.prio pre.length x (by simp)
    rw [List.length_append, List.length_cons] at hs
    have := q.size.isLt
    rw [h.hpa, BitVec.toNat_ofNat, Nat.mod_eq_of_lt (by omega)] at hw
    rw [hpx] at hw
    simpa using hw.symm
  subst hwx
  rw [List.length_cons, List.length_append, takes_lowest q _ _ _ _ g1, hs, hr, List.length_append, List.length_cons]
  by_cases hp : x.1 < p
  · rw [if_pos (by simpa using hp)] at g5
    have hT := (Takes.bind (takes_shift { q with size := q.size - 1#32 } _ _) fun _ => Takes.bind (.memcpy _ _ _) fun _ =>
      Takes.bind (.storeW _ _ _) fun _ => .pure _ : Takes _ _) _ _ _ _ g5
    simp only [List.length_cons, List.length_nil, hT]
    rw [if_pos hp, behind hs, h.hes]
    omega
  · rw [if_neg (by simpa using hp)] at g5
    obtain ⟨-, -, rfl⟩ := pure_cases g5
    rw [if_neg hp]
    simp only [List.length_cons, List.length_nil]

end PQ

/-! ### Map -/
namespace Map
open Spec.Leak
variable {kb ko ks : Nat}

theorem loopTr_length {q : Ptr} {key : List Byte} (hk : key.length = ks) : ∀ (i : Nat) (l : List (List Byte)),
    (loopTr kb ko ks q key i l).length = searchSteps key l
  | _, [] => rfl
  | i, k :: l => by
    simp only [loopTr, searchSteps, List.length_cons, List.length_append, pairs_length, hk]
    split
    · simp only [List.length_nil]; omega
    · rw [loopTr_length hk (i + 1) l]; omega

theorem found_iff {key : List Byte} : ∀ (i : Nat) (l : List (List Byte)), found key i l = -1 ↔ key ∉ l
  | _, [] => by simp [found]
  | i, k :: l => by
    unfold found
    by_cases h : k = key
    · rw [if_pos h, h]
      refine ⟨fun e => absurd e (by omega), fun e => absurd (List.mem_cons_self ..) e⟩
    · rw [if_neg h, found_iff (i + 1) l, List.mem_cons, not_or]
      exact ⟨fun e => ⟨fun e => h e.symm, e⟩, fun e => e.2⟩

theorem searchSteps_le {key : List Byte} : ∀ l : List (List Byte), searchSteps key l ≤ l.length * (2 * key.length + 2) + 1
  | [] => by simp [searchSteps]
  | k :: l => by
    have ih := searchSteps_le (key := key) l
    rw [searchSteps, List.length_cons, Nat.add_mul, Nat.one_mul]
    split <;> omega

variable {map : MapT} {b o : Nat} {value : Ptr} {m m' : Mem} {t : List Leak}

theorem getValue_cost (hkeys : map.keys = ptr kb ko) (hks : map.key_size = ks) (h0 : 0 < ks) (hlt : ks < 2 ^ 64)
    (hk : o + ks ≤ (m.bytes b).length) {r : Bool} (h : getValueT (some map) (ptr b o) value m = .ok (r, t) m') :
    t.length = searchSteps (slice (m.bytes b) o ks) (stored m kb ko ks 0 map.current_size.toNat) + 1 +
      if slice (m.bytes b) o ks ∈ stored m kb ko ks 0 map.current_size.toNat then 2 * toSizeT map.value_size else 0 := by
  obtain ⟨i, u, m1, u2, h1, h2, rfl⟩ := bind_cases h
  obtain ⟨rfl, rfl, rfl⟩ := loop_cases hkeys hks h0 hlt _ (i := 0) h1
  obtain ⟨u3, h3, rfl⟩ := Vernam.branch_exact h2
  rw [List.length_append, loopTr_length (slice_len hk), List.length_cons]
  have hf := found_iff (key := slice (m1.bytes b) o ks) 0 (stored m1 kb ko ks 0 map.current_size.toNat)
  by_cases hm : slice (m1.bytes b) o ks ∈ stored m1 kb ko ks 0 map.current_size.toNat
  · rw [if_pos (by rw [decide_eq_true_eq]; exact fun e => hf.1 e hm)] at h3
    have hT := (Takes.bind (.quiet _) fun _ => Takes.bind (.memcpy _ _ _) fun _ => .pure _ : Takes _ _) _ _ _ _ h3
    rw [if_pos hm, hT]; omega
  · rw [if_neg (by rw [decide_eq_true_eq]; exact fun e => e (hf.2 hm))] at h3
    obtain ⟨-, -, rfl⟩ := pure_cases h3
    rw [if_neg hm]; rfl

theorem insert_cost (hkeys : map.keys = ptr kb ko) (hks : map.key_size = ks) (h0 : 0 < ks) (hlt : ks < 2 ^ 64)
    (hk : o + ks ≤ (m.bytes b).length) {r : Bool × Option MapT} (h : insertT (some map) (ptr b o) value m = .ok (r, t) m') :
    t.length = searchSteps (slice (m.bytes b) o ks) (stored m kb ko ks 0 map.current_size.toNat) + 1 +
      if slice (m.bytes b) o ks ∈ stored m kb ko ks 0 map.current_size.toNat then 2 * toSizeT map.value_size
      else 1 + if map.current_size = map.max_map_size then 0 else 2 * ks + 2 * toSizeT map.value_size := by
  obtain ⟨i, u, m1, u2, h1, h2, rfl⟩ := bind_cases h
  obtain ⟨rfl, rfl, rfl⟩ := loop_cases hkeys hks h0 hlt _ (i := 0) h1
  obtain ⟨u3, h3, rfl⟩ := Vernam.branch_exact h2
  rw [List.length_append, loopTr_length (slice_len hk), List.length_cons]
  have hf := found_iff (key := slice (m1.bytes b) o ks) 0 (stored m1 kb ko ks 0 map.current_size.toNat)
  by_cases hm : slice (m1.bytes b) o ks ∈ stored m1 kb ko ks 0 map.current_size.toNat
  · rw [if_neg (by rw [decide_eq_true_eq]; exact fun e => hf.1 e hm)] at h3
    have hT := (Takes.bind (.quiet _) fun _ => Takes.bind (.memcpy _ _ _) fun _ => .pure _ : Takes _ _) _ _ _ _ h3
    rw [if_pos hm, hT]; omega
  · rw [if_pos (by rw [decide_eq_true_eq]; exact hf.2 hm)] at h3
    rw [if_neg hm]
    obtain ⟨u4, h4, rfl⟩ := Vernam.branch_exact h3
    by_cases hc : map.current_size = map.max_map_size
    · rw [if_neg (by simpa using hc)] at h4
      obtain ⟨-, -, rfl⟩ := pure_cases h4
      rw [if_pos hc]; rfl
    · rw [if_pos (by simpa using hc)] at h4
      have hT := (Takes.bind (.quiet _) fun _ => Takes.bind (.memcpy _ _ _) fun _ => Takes.bind (.quiet _) fun _ =>
        Takes.bind (.memcpy _ _ _) fun _ => Takes.bind (.quiet _) fun _ => .pure _ : Takes _ _) _ _ _ _ h4
      rw [if_neg hc, List.length_cons, hT, hks, toSizeT_leak hlt]; omega

end Map

/-! ### Caesar -/
namespace Caesar
open Spec.Leak Vernam

theorem caesarTr_length (p : Ptr) (c : Byte) : (caesarTr p (kind c)).length + 2 = caesarChar c := by
  unfold caesarChar
  have h1 : kind c = 0 ∨ kind c = 1 ∨ kind c = 2 ∨ kind c = 3 ∨ kind c = 4 := by have := kind_le c; omega
  rcases h1 with h | h | h | h | h <;> rw [h] <;> simp [caesarTr, alphaTr, upTr, lowTr, isLetter]

theorem loopTr_length (b : Nat) : ∀ (o : Nat) (s : List Byte), (loopTr b o (s.map kind)).length + s.length + 1 = caesarSteps s
  | _, [] => rfl
  | o, c :: s => by
    have ih := loopTr_length b (o + 1) s
    have := caesarTr_length (ptr b o) c
    simp only [caesarSteps, List.map_cons, loopTr, List.length_cons, List.length_append, List.sum_cons] at ih ⊢
    omega

theorem textTr_length (b o : Nat) (s : List Byte) : (textTr b o s).length = caesarSteps s := by
  rw [← loopTr_length b o s, textTr, List.length_append, List.length_map, List.length_range]; omega

theorem caesarSteps_le (s : List Byte) : caesarSteps s ≤ 13 * s.length + 2 := by
  unfold caesarSteps
  have : (s.map caesarChar).sum ≤ 13 * s.length := by
    induction s with
    | nil => simp
    | cons c s ih =>
      have : caesarChar c ≤ 13 := by
        unfold caesarChar
        have h1 : kind c = 0 ∨ kind c = 1 ∨ kind c = 2 ∨ kind c = 3 ∨ kind c = 4 := by have := kind_le c; omega
        rcases h1 with h | h | h | h | h <;> rw [h] <;> decide
      simp only [List.map_cons, List.sum_cons, List.length_cons]
      omega
  omega

end Caesar

/-! ### Vernam -/
namespace Vernam
open Spec.Leak

theorem low_length (k : Byte) : (lowTr (kind k)).length = if k.toNat < 97 then 1 else 2 := by
  revert k; decide +kernel

theorem round_length (p q : Ptr) (c k : Byte) (x : List Leak) :
    (roundTr p q (kind c) (some (kind k)) x).length + 2 = vernamChar x.length c k := by
  have h1 : kind c = 0 ∨ kind c = 1 ∨ kind c = 2 ∨ kind c = 3 ∨ kind c = 4 := by have := Caesar.kind_le c; omega
  have h2 := low_length k
  unfold vernamChar caesarChar roundTr
  rcases h1 with h | h | h | h | h <;> rw [h] <;> simp [alphaTr, upTr, h2, isLetter]
  all_goals first
    | (simp [lowTr]; done)
    | (by_cases hk : k.toNat < 97 <;> simp [lowTr, hk] <;> omega)

theorem loop_length {bm om bk ok : Nat} (hb : bm ≠ bk) {round : Nat → Unit → T Unit} {f : Byte → Byte → List Leak} {e : Nat}
    (hf : ∀ c k, (f c k).length = e)
    (hr : ∀ {i v m a t m'}, round i v m = .ok (a, t) m' →
      SameBut bm (om + i) m m' ∧ ∃ c, (m.bytes bm)[om + i]? = some c ∧
      (isLetter (kind c) = true → ∃ k, (m.bytes bk)[ok + i]? = some k) ∧
      t = roundTr (ptr bm (om + i)) (ptr bk (ok + i)) (kind c) ((m.bytes bk)[ok + i]?.map kind)
        (f c ((m.bytes bk)[ok + i]?.getD 0))) (s : List Byte) :
    ∀ {k : List Byte} {i m a t m'}, k.length = s.length → (∀ j : Nat, j < s.length → (m.bytes bm)[om + i + j]? = s[j]?) →
      (∀ j : Nat, j < s.length → (m.bytes bk)[ok + i + j]? = k[j]?) → forNT s.length i round () m = .ok (a, t) m' →
      t.length + s.length + 2 = vernamSteps e s k := by
  induction s with
  | nil =>
    intro k i m a t m' hl _ _ h
    obtain ⟨u, h3, rfl⟩ := branch_exact h
    obtain ⟨-, -, rfl⟩ := pure_cases h3
    rfl
  | cons c s ih =>
    intro k i m a t m' hl hs hk h
    cases k with
    | nil => cases hl
    | cons kc k =>
      obtain ⟨u, h3, rfl⟩ := branch_exact h
      obtain ⟨v1, r1, m1, r1', x1, y1, rfl⟩ := bind_cases h3
      obtain ⟨s1, c1, hc1, -, rfl⟩ := hr x1
      have e1 := hs 0 (by simp)
      have e2 := hk 0 (by simp)
      rw [Nat.add_zero, hc1] at e1
      rw [Nat.add_zero] at e2
      simp only [List.getElem?_cons_zero, Option.some.injEq] at e1 e2
      subst e1
      have := ih (k := k) (i := i + 1) (by simpa using hl) (fun j hj => by
          have e := hs (j + 1) (by simpa using hj)
          rw [List.getElem?_cons_succ] at e
          rw [← e, s1 _ _ (.inr (by omega))]
          congr 1; omega) (fun j hj => by
          have e := hk (j + 1) (by simpa using hj)
          rw [List.getElem?_cons_succ] at e
          rw [← e, s1 _ _ (.inl (Ne.symm hb))]
          congr 1; omega) y1
      have hl2 := round_length (ptr bm (om + i)) (ptr bk (ok + i)) c1 kc (f c1 kc)
      rw [hf] at hl2
      rw [e2]
      simp only [Option.map_some, Option.getD_some, vernamSteps, List.zipWith_cons_cons, List.sum_cons, List.length_cons,
        List.length_append] at this ⊢
      omega

end Vernam

/-! ### Base64 -/
namespace Base64

theorem takes_putIdx (p : Ptr) (i : U32) : Takes (putIdxT p i) 2 := Takes.bind (.constAt _) fun _ => .store _ _

theorem takes_group (a b : Ptr) : Takes (encGroupT a b) 14 :=
  (Takes.bind (.load _) fun _ => Takes.bind (takes_putIdx _ _) fun _ => Takes.bind (.load _) fun _ => Takes.bind (.load _) fun _ =>
    Takes.bind (takes_putIdx _ _) fun _ => Takes.bind (.load _) fun _ => Takes.bind (.load _) fun _ =>
    Takes.bind (takes_putIdx _ _) fun _ => Takes.bind (.load _) fun _ => takes_putIdx _ _)

theorem takes_last (l i : SizeT) (a b : Ptr) : Takes (encLastT l i a b) (if l - i = 1#64 then 9 else 12) := by
  refine (Takes.bind (.load _) fun _ => Takes.bind (takes_putIdx _ _) fun _ => Takes.branch_bind
    (k := if l - i = 1#64 then 5 else 8) ?_).of_eq (by split <;> rfl)
  by_cases h : l - i = 1#64
  · simp only [h, decide_true, if_true]
    exact (Takes.bind (.load _) fun _ => Takes.bind (takes_putIdx _ _) fun _ => Takes.bind (.store _ _) fun _ =>
      Takes.bind (l := 0) (.store _ _) fun _ => .pure _)
  · simp only [h, decide_false, if_false, Bool.false_eq_true]
    exact (Takes.bind (.load _) fun _ => Takes.bind (.load _) fun _ => Takes.bind (takes_putIdx _ _) fun _ =>
      Takes.bind (.load _) fun _ => Takes.bind (takes_putIdx _ _) fun _ => Takes.bind (l := 0) (.store _ _) fun _ => .pure _)

theorem encLoop_cost (L M : SizeT) : ∀ (fuel : Nat) {s s' : EncState} {m m' : Mem} {t : List Leak},
    encLoopT L M fuel s m = .ok (s', t) m' → s.in_position.toNat ≤ L.toNat → s.success = 0 →
    (s'.success = 0 ∧ (L - s'.in_position).toNat = (L.toNat - s.in_position.toNat) % 3 ∧
      t.length = 16 * ((L.toNat - s.in_position.toNat) / 3) + 1) ∨
    (s'.success = 1 ∧ t.length + 14 ≤ 16 * ((L.toNat - s.in_position.toNat) / 3)) := by
  intro fuel
  induction fuel with
  | zero => intro s s' m m' t h; cases h
  | succ fuel ih =>
    intro s s' m m' t h hi hs
    unfold encLoopT at h
    obtain ⟨u, g, rfl⟩ := Vernam.branch_exact h
    have hle : s.in_position ≤ L := hi
    have hsub : (L - s.in_position).toNat = L.toNat - s.in_position.toNat := BitVec.toNat_sub_of_le hle
    by_cases h3 : 3 ≤ L.toNat - s.in_position.toNat
    · rw [if_pos (by rw [decide_eq_true_eq, BitVec.le_def, hsub]; exact h3)] at g
      obtain ⟨u2, g2, rfl⟩ := Vernam.branch_exact g
      by_cases hr : M < s.current_length + 4#64
      · rw [if_pos (by simpa using hr)] at g2
        obtain ⟨rfl, -, rfl⟩ := pure_cases g2
        right
        refine ⟨rfl, ?_⟩
        simp only [List.length_cons, List.length_nil]
        omega
      · rw [if_neg (by simpa using hr)] at g2
        obtain ⟨_, t1, m1, t2, g3, g4, rfl⟩ := bind_cases g2
        have hT := takes_group _ _ _ _ _ _ g3
        have hp : (s.in_position + 3#64).toNat = s.in_position.toNat + 3 := by
          have := L.isLt
          rw [BitVec.toNat_add]
          show (s.in_position.toNat + 3) % 2 ^ 64 = _
          rw [Nat.mod_eq_of_lt (by omega)]
        have := ih g4 (by show (s.in_position + 3#64).toNat ≤ _; omega) hs
        simp only [hp] at this
        simp only [List.length_cons, List.length_append, hT]
        rcases this with ⟨a, b, c⟩ | ⟨a, b⟩
        · exact .inl ⟨a, by omega, by omega⟩
        · exact .inr ⟨a, by omega⟩
    · rw [if_neg (by rw [decide_eq_true_eq, BitVec.le_def, hsub]; exact h3)] at g
      obtain ⟨rfl, -, rfl⟩ := pure_cases g
      refine .inl ⟨hs, by rw [hsub, Nat.mod_eq_of_lt (by omega)], ?_⟩
      simp only [List.length_cons, List.length_nil]
      omega

theorem encode_cost {L M : SizeT} {a b : Ptr} {m m' : Mem} {r : Int} {t : List Leak} (h : encodeT a L b M m = .ok (r, t) m') :
    t.length ≤ base64Steps L.toNat ∧ (r = 0 → t.length = base64Steps L.toNat) := by
  unfold encodeT at h
  obtain ⟨u, g, rfl⟩ := Vernam.branch_exact h
  split at g
  · obtain ⟨rfl, -, rfl⟩ := pure_cases g
    refine ⟨?_, fun e => by cases e⟩
    unfold base64Steps
    simp only [List.length_cons, List.length_nil]
    split <;> (try split) <;> omega
  · obtain ⟨s, t1, m1, t2, g1, g2, rfl⟩ := bind_cases g
    have hz : ((0#64 : SizeT)).toNat = 0 := rfl
    have hl := encLoop_cost L M _ g1 (by simp only [hz]; omega) rfl
    simp only [hz, Nat.sub_zero] at hl
    unfold encTailT at g2
    obtain ⟨u3, g3, rfl⟩ := Vernam.branch_exact g2
    simp only [List.length_cons, List.length_append]
    rcases hl with ⟨a1, a2, a3⟩ | ⟨a1, a2⟩
    · by_cases h0 : L.toNat % 3 = 0
      · have hz2 : L - s.in_position = 0#64 := BitVec.eq_of_toNat_eq (by rw [a2, h0]; rfl)
        rw [if_neg (by simp [hz2])] at g3
        have hT := (Takes.bind (.store _ _) fun _ => .pure _ : Takes _ _) _ _ _ _ g3
        unfold base64Steps
        rw [if_pos h0, hT, a3]
        exact ⟨by omega, fun _ => by omega⟩
      · have hz2 : L - s.in_position ≠ 0#64 := fun e => h0 (by rw [← a2, e]; rfl)
        rw [if_pos (by simp [hz2, a1])] at g3
        obtain ⟨u4, g4, rfl⟩ := Vernam.branch_exact g3
        unfold base64Steps
        rw [if_neg h0]
        simp only [List.length_cons]
        split at g4
        · obtain ⟨_, t5, m5, t6, g5, g6, rfl⟩ := bind_cases g4
          obtain ⟨rfl, -, rfl⟩ := pure_cases g6
          rw [List.length_append, Takes.store _ _ _ _ _ _ g5, a3]
          refine ⟨?_, fun e => by cases e⟩
          simp only [List.length_nil]
          split <;> omega
        · obtain ⟨_, t5, m5, t6, g5, g6, rfl⟩ := bind_cases g4
          have hT := (Takes.bind (.store _ _) fun _ => .pure _ : Takes _ _) _ _ _ _ g6
          rw [List.length_append, takes_last _ _ _ _ _ _ _ _ g5, hT, a3]
          have he : L - s.in_position = 1#64 ↔ L.toNat % 3 = 1 := by
            rw [← a2]
            exact ⟨fun e => by rw [e]; rfl, fun e => BitVec.eq_of_toNat_eq e⟩
          by_cases h1 : L.toNat % 3 = 1
          · rw [if_pos (he.2 h1), if_pos h1]
            exact ⟨by omega, fun _ => by omega⟩
          · rw [if_neg (fun e => h1 (he.1 e)), if_neg h1]
            exact ⟨by omega, fun _ => by omega⟩
    · rw [if_neg (by simp [a1])] at g3
      obtain ⟨_, t5, m5, t6, g5, g6, rfl⟩ := bind_cases g3
      obtain ⟨rfl, -, rfl⟩ := pure_cases g6
      rw [List.length_append, Takes.store _ _ _ _ _ _ g5]
      refine ⟨?_, fun e => by rw [a1] at e; cases e⟩
      unfold base64Steps
      simp only [List.length_nil]
      split <;> (try split) <;> omega

end Base64

end IMU
