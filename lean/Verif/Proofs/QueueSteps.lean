import Verif.Proofs.Queue
import Verif.Spec.QueueSteps

namespace IMU.Queue
open Spec

/-! ### Copying byte by byte -/

theorem copyByte_ok {b o b' o' k : Nat} {m : Mem} {v : Byte} (hd : o + k < (m.bytes b).length)
    (hs : (m.bytes b')[o' + k]? = some v) :
    copyByte (ptr b o) (ptr b' o') k m = .ok () (m.upd b ((m.bytes b).set (o + k) v)) := by
  simp only [copyByte, C.bind_run, ptr_addN, load_ok hs, store_ok hd]

theorem slice_set_disj (l : List Byte) (i n j : Nat) (v : Byte) (h : j < i ∨ i + n ≤ j) :
    slice (l.set j v) i n = slice l i n := by
  apply List.ext_getElem?; intro k
  rw [getElem?_slice, getElem?_slice]
  split
  · rw [List.getElem?_set_ne (by omega)]
  · rfl

/-- One more byte of `x` has arrived. -/
theorem slice_set_next {l x : List Byte} {o k : Nat} {v : Byte} (hk : x[k]? = some v) (hl : o + k < l.length)
    (h : slice l o k = x.take k) : slice (l.set (o + k) v) o (k + 1) = x.take (k + 1) := by
  apply List.ext_getElem?; intro j
  have hj := congrArg (·[j]?) h
  simp only [getElem?_slice, List.getElem?_take] at hj ⊢
  by_cases h1 : j < k
  · rw [if_pos (by omega), if_pos (by omega), List.getElem?_set_ne (by omega)]
    rw [if_pos h1, if_pos h1] at hj; exact hj
  · by_cases h2 : j = k
    · subst h2; rw [if_pos (by omega), if_pos (by omega), List.getElem?_set_self hl, hk]
    · rw [if_neg (by omega), if_neg (by omega)]

theorem ptr_overlaps {b o b' o' n : Nat} (h : b ≠ b') : overlaps (ptr b o) (ptr b' o') n = false := by
  simp [overlaps, h]

/-! ### The invariant -/

/-- The structure and the buffer: `xs` are the elements between the instants, `F` is the place of the oldest. -/
structure Core (cap esz bb bo : Nat) (q : Queue) (m : Mem) (xs : List (List Byte)) (F : Nat) : Prop where
  hcap : q.capacity.toNat = cap
  cap_pos : 0 < cap
  hes : q.element_size.toNat = esz
  lim : (cap - 1) * esz < 2 ^ 32
  hbuf : q.buffer = ptr bb bo
  hlen : bo + cap * esz ≤ (m.bytes bb).length
  hF : F < cap
  size_eq : q.size.toNat = xs.length
  size_le : xs.length ≤ cap
  content : ∀ k x, xs[k]? = some x → slice (m.bytes bb) (bo + ((F + k) % cap) * esz) esz = x

/-- The element pointer is in range, in one of the objects `P`. -/
def InRange (P : Nat → Prop) (esz : Nat) (m : Mem) (p : Ptr) : Prop :=
  ∃ b o, p = ptr b o ∧ P b ∧ o + esz ≤ (m.bytes b).length

/-- The producer, `w` being the place of the next element. -/
def ProdOk (cap esz bb bo : Nat) (E : Nat → Prop) (w : Nat) (room : Prop) (rear : Nat) (m : Mem) :
    PC → Phase QOp QObs → Prop
  | .idle, .idle => (rear + 1) % cap = w
  | .eGuard p, .called (.enq v) => (rear + 1) % cap = w ∧ InRange E esz m p ∧ elementAt esz m p = v
  | .eAddr p, .called (.enq v) => (rear + 1) % cap = w ∧ room ∧ InRange E esz m p ∧ elementAt esz m p = v
  | .eCopy dst p k, .called (.enq v) => (rear + 1) % cap = w ∧ room ∧ InRange E esz m p ∧ elementAt esz m p = v ∧
      dst = ptr bb (bo + w * esz) ∧ k ≤ esz ∧ slice (m.bytes bb) (bo + w * esz) k = v.take k
  | .eRear, .called (.enq v) => (rear + 1) % cap = w ∧ room ∧ slice (m.bytes bb) (bo + w * esz) esz = v
  | .eSize, .called (.enq v) => rear = w ∧ room ∧ slice (m.bytes bb) (bo + w * esz) esz = v
  | .eRet b, .done r => (rear + 1) % cap = w ∧ r = (b, none)
  | _, _ => False

/-- The consumer, `hd` being the oldest element. -/
def ConsOk (cap esz bb bo : Nat) (D : Nat → Prop) (F : Nat) (hd : Option (List Byte)) (front : Nat) (m : Mem) :
    PC → Phase QOp QObs → Prop
  | .idle, .idle => front = F
  | .dGuard p, .called .deq => front = F ∧ InRange D esz m p
  | .dAddr p, .called .deq => front = F ∧ InRange D esz m p ∧ ∃ x, hd = some x
  | .dCopy p src k, .called .deq => front = F ∧ InRange D esz m p ∧ src = ptr bb (bo + F * esz) ∧ k ≤ esz ∧
      ∃ x, hd = some x ∧ slice (m.bytes p.blk) p.off.toNat k = x.take k
  | .dFront p, .called .deq => front = F ∧ InRange D esz m p ∧ ∃ x, hd = some x ∧ elementAt esz m p = x
  | .dSize p, .called .deq => front = (F + 1) % cap ∧ InRange D esz m p ∧ ∃ x, hd = some x ∧ elementAt esz m p = x
  | .dRet b p, .done r => front = F ∧ InRange D esz m p ∧ r = (b, if b then some (elementAt esz m p) else none)
  | _, _ => False

theorem InRange.mono {P : Nat → Prop} {esz : Nat} {m m' : Mem} {p : Ptr} (h : InRange P esz m p)
    (hl : ∀ b, (m'.bytes b).length = (m.bytes b).length) : InRange P esz m' p := by
  obtain ⟨b, o, h1, h2, h3⟩ := h
  exact ⟨b, o, h1, h2, by rw [hl]; exact h3⟩

theorem InRange.elementAt {P : Nat → Prop} {esz : Nat} {m m' : Mem} {p : Ptr} (h : InRange P esz m p)
    (hl : ∀ b, P b → m'.bytes b = m.bytes b) : Spec.elementAt esz m' p = Spec.elementAt esz m p := by
  obtain ⟨b, o, rfl, h2, h3⟩ := h
  simp only [Spec.elementAt, ptr, hl b h2]

theorem ProdOk.frame {cap esz bb bo : Nat} {E : Nat → Prop} {w : Nat} {room room' : Prop} {rear : Nat} {m m' : Mem}
    {pc : PC} {ph : Phase QOp QObs} (h : ProdOk cap esz bb bo E w room rear m pc ph) (hr : room → room')
    (hbb : m'.bytes bb = m.bytes bb) (hE : ∀ b, E b → m'.bytes b = m.bytes b)
    (hl : ∀ b, (m'.bytes b).length = (m.bytes b).length) : ProdOk cap esz bb bo E w room' rear m' pc ph := by
  cases pc <;> rcases ph with _ | op | r <;> try (first | exact h | exact h.elim)
  all_goals cases op <;> try exact h.elim
  · exact ⟨h.1, h.2.1.mono hl, (h.2.1.elementAt hE).trans h.2.2⟩
  · exact ⟨h.1, hr h.2.1, h.2.2.1.mono hl, (h.2.2.1.elementAt hE).trans h.2.2.2⟩
  · exact ⟨h.1, hr h.2.1, h.2.2.1.mono hl, (h.2.2.1.elementAt hE).trans h.2.2.2.1, h.2.2.2.2.1, h.2.2.2.2.2.1,
      by rw [hbb]; exact h.2.2.2.2.2.2⟩
  · exact ⟨h.1, hr h.2.1, by rw [hbb]; exact h.2.2⟩
  · exact ⟨h.1, hr h.2.1, by rw [hbb]; exact h.2.2⟩

theorem ConsOk.frame {cap esz bb bo : Nat} {D : Nat → Prop} {F : Nat} {hd hd' : Option (List Byte)} {front : Nat}
    {m m' : Mem} {pc : PC} {ph : Phase QOp QObs} (h : ConsOk cap esz bb bo D F hd front m pc ph)
    (hh : ∀ x, hd = some x → hd' = some x) (hD : ∀ b, D b → m'.bytes b = m.bytes b)
    (hl : ∀ b, (m'.bytes b).length = (m.bytes b).length) : ConsOk cap esz bb bo D F hd' front m' pc ph := by
  cases pc <;> rcases ph with _ | op | r <;> try (first | exact h | exact h.elim)
  all_goals try (cases op <;> try exact h.elim)
  · exact ⟨h.1, h.2.mono hl⟩
  · obtain ⟨h1, h2, x, h3⟩ := h
    exact ⟨h1, h2.mono hl, x, hh x h3⟩
  · obtain ⟨h1, h2, h3, h4, x, h5, h6⟩ := h
    refine ⟨h1, h2.mono hl, h3, h4, x, hh x h5, ?_⟩
    obtain ⟨b, o, rfl, hb, _⟩ := h2
    rw [show (ptr b o).blk = b from rfl, hD b hb]; exact h6
  · obtain ⟨h1, h2, x, h3, h4⟩ := h
    exact ⟨h1, h2.mono hl, x, hh x h3, (h2.elementAt hD).trans h4⟩
  · obtain ⟨h1, h2, x, h3, h4⟩ := h
    exact ⟨h1, h2.mono hl, x, hh x h3, (h2.elementAt hD).trans h4⟩
  · obtain ⟨h1, h2, h3⟩ := h
    exact ⟨h1, h2.mono hl, by rw [h2.elementAt hD]; exact h3⟩

/-- What one step may add to the extended history. -/
inductive Adv (cap : Nat) : Phase QOp QObs → List (List Byte) → Option (XEv QOp QObs) → Phase QOp QObs →
    List (List Byte) → Prop
  | none (ph s) : Adv cap ph s none ph s
  | call (op s) : Adv cap .idle s (some (.vis (.call op))) (.called op) s
  | lin (op s) : Adv cap (.called op) s (some (.lin op (fifoStep cap s op).1)) (.done (fifoStep cap s op).1)
      (fifoStep cap s op).2
  | ret (r s) : Adv cap (.done r) s (some (.vis (.ret r))) .idle s

theorem Adv.lin' {cap : Nat} {op : QOp} {s s' : List (List Byte)} {r : QObs} (h : fifoStep cap s op = (r, s')) :
    Adv cap (.called op) s (some (.lin op r)) (.done r) s' := by
  have := Adv.lin (cap := cap) op s
  rw [h] at this; exact this

/-- The visible part. -/
def XEv.vis? : XEv QOp QObs → Option (HEv QOp QObs)
  | .vis e => some e
  | .lin .. => none

section
variable {cap esz bb bo : Nat} {E D : Nat → Prop} {q : Queue} {m : Mem} {xs : List (List Byte)} {F : Nat}

theorem Core.cap_lt (h : Core cap esz bb bo q m xs F) : cap < 2 ^ 32 := by
  rw [← h.hcap]; exact q.capacity.isLt

theorem Core.cap_ne (h : Core cap esz bb bo q m xs F) : q.capacity ≠ 0#32 := by
  intro hc
  have := h.hcap; rw [hc] at this
  have := h.cap_pos
  simp at *; omega

theorem Core.full_iff (h : Core cap esz bb bo q m xs F) : full q = decide (xs.length = cap) := by
  unfold full
  rw [Bool.eq_iff_iff, beq_iff_eq, decide_eq_true_iff, ← h.size_eq, ← h.hcap, BitVec.toNat_inj]

theorem Core.empty_iff (h : Core cap esz bb bo q m xs F) : empty q = decide (xs = []) := by
  unfold empty
  rw [Bool.eq_iff_iff, beq_iff_eq, decide_eq_true_iff, ← List.length_eq_zero_iff, ← h.size_eq,
    ← BitVec.toNat_inj]
  rfl

/-- The state of the whole system. -/
structure Inv (cap esz bb bo : Nat) (E D : Nat → Prop) (s : Sys) (pa pb : Phase QOp QObs) (xs : List (List Byte))
    (F : Nat) : Prop where
  core : Core cap esz bb bo s.q s.m xs F
  rear_lt : s.q.rear.toNat < cap
  front_lt : s.q.front.toNat < cap
  prod : ProdOk cap esz bb bo E ((F + xs.length) % cap) (xs.length < cap) s.q.rear.toNat s.m s.a.pc pa
  cons : ConsOk cap esz bb bo D F xs.head? s.q.front.toNat s.m s.b.pc pb
  todoA : ∀ x ∈ s.a.todo, ∃ p, x = .enq p ∧ InRange E esz s.m p
  todoB : ∀ x ∈ s.b.todo, ∃ p, x = .deq p ∧ InRange D esz s.m p

theorem upd_length {m : Mem} {b i : Nat} {v : Byte} (c : Nat) :
    ((m.upd b ((m.bytes b).set i v)).bytes c).length = (m.bytes c).length := by
  simp only [Mem.upd_bytes]; split
  · subst c; simp
  · rfl

theorem succ_mod {a c : U32} {cap : Nat} (hc : c.toNat = cap) (ha : a.toNat < cap) :
    ((a + 1#32) % c).toNat = (a.toNat + 1) % cap := by
  have := c.isLt
  rw [BitVec.toNat_umod, BitVec.toNat_add, hc]
  congr 1
  simp only [BitVec.toNat_ofNat]; omega

/-- One step of the producer. -/
theorem producer_step {s : Sys} {pa pb : Phase QOp QObs} (hi : Inv cap esz bb bo E D s pa pb xs F)
    (hE : ∀ b, E b → b ≠ bb) (hD : ∀ b, D b → b ≠ bb) :
    ∃ t q' m' e x pa' xs', step true s.a s.q s.m = some (t, q', m', e) ∧
      Adv cap pa xs x pa' xs' ∧ x.bind XEv.vis? = e.map (queueEvent esz) ∧
      Inv cap esz bb bo E D ⟨t, s.b, q', m'⟩ pa' pb xs' F := by
  obtain ⟨⟨todo, pc⟩, b, q, m⟩ := s
  obtain ⟨hc, hrl, hfl, hp, hcons, hA, hB⟩ := hi
  simp only at hc hrl hfl hp hcons hA hB
  have hcp := hc.cap_pos
  have hcl := hc.cap_lt
  have hF := hc.hF
  have hw : (F + xs.length) % cap < cap := Nat.mod_lt _ hcp
  cases pc <;> rcases pa with _ | op | r <;> try exact hp.elim
  all_goals try (cases op <;> try exact hp.elim)
  · -- idle
    cases todo with
    | nil => exact ⟨_, _, _, _, none, .idle, xs, rfl, .none _ _, rfl, ⟨hc, hrl, hfl, hp, hcons, hA, hB⟩⟩
    | cons a rest =>
      obtain ⟨p, rfl, hr⟩ := hA a (by simp)
      refine ⟨_, _, _, _, some (.vis (.call (.enq (elementAt esz m p)))), .called (.enq (elementAt esz m p)), xs, rfl,
        .call _ _, rfl, ⟨hc, hrl, hfl, ⟨hp, hr, rfl⟩, hcons, fun x hx => hA x (by simp [hx]), hB⟩⟩
  · -- guard
    rename_i p v
    simp only [step, hc.full_iff]
    by_cases hf : xs.length = cap
    · rw [decide_eq_true hf]
      refine ⟨_, _, _, _, some (.lin (.enq v) (false, none)), _, xs, rfl, .lin' ?_, rfl, ⟨hc, hrl, hfl, ?_, hcons, hA, hB⟩⟩
      · simp only [fifoStep]; rw [if_neg (by omega)]
      · exact ⟨hp.1, rfl⟩
    · rw [decide_eq_false hf]
      have := hc.size_le
      exact ⟨_, _, _, _, none, _, xs, rfl, .none _ _, rfl,
        ⟨hc, hrl, hfl, ⟨hp.1, by omega, hp.2.1, hp.2.2⟩, hcons, hA, hB⟩⟩
  · -- address
    rename_i p v
    obtain ⟨h1, h2, h3, h4⟩ := hp
    obtain ⟨eb, eo, rfl, h5, h6⟩ := h3
    have hsm : ((q.rear + 1#32) % q.capacity).toNat = (F + xs.length) % cap := (succ_mod hc.hcap hrl).trans h1
    have hmul := mul_toNat hsm hc.hes hw hc.lim
    simp only [step, if_neg hc.cap_ne, hmul, hc.hbuf, ptr_addN, ptr_overlaps (Ne.symm (hE eb h5)), Bool.false_eq_true,
      if_false]
    exact ⟨_, _, _, _, none, _, xs, rfl, .none _ _, rfl,
        ⟨hc, hrl, hfl, ⟨h1, h2, ⟨eb, eo, rfl, h5, h6⟩, h4, rfl, by omega, by simp [slice]⟩, hcons, hA, hB⟩⟩
  · -- copy
    rename_i dst p k v
    obtain ⟨h1, h2, h3, h4, rfl, h6, h7⟩ := hp
    obtain ⟨eb, eo, rfl, h8, h9⟩ := id h3
    simp only [step, hc.hes]
    by_cases hk : k < esz
    · rw [if_pos hk]
      have hbl := hc.hlen
      have hsl := slot_le esz hw
      have hv : v[k]? = some ((m.bytes eb)[eo + k]'(by omega)) := by
        rw [← h4]; simp only [elementAt, ptr, getElem?_slice, Int.toNat_natCast]
        rw [if_pos hk, List.getElem?_eq_getElem]
      rw [copyByte_ok (v := (m.bytes eb)[eo + k]'(by omega)) (by omega) (by simp)]
      simp only
      refine ⟨_, _, _, _, none, .called (.enq v), xs, rfl, .none _ _, rfl,
        ⟨⟨hc.hcap, hcp, hc.hes, hc.lim, hc.hbuf, ?_, hF, hc.size_eq, hc.size_le, ?_⟩, hrl, hfl, ?_, ?_, ?_, ?_⟩⟩
      · rw [upd_length]; exact hbl
      · intro j x hj
        simp only [Mem.upd_bytes, if_true]
        have hjl := (List.getElem?_eq_some_iff.1 hj).1
        rw [slice_set_disj]
        · exact hc.content j x hj
        · have hne : (F + j) % cap ≠ (F + xs.length) % cap := by
            rw [mod_cases hF (by omega), mod_cases hF (by omega)]
            split <;> split <;> omega
          have := slot_disj esz hne
          omega
      · have hEk : ∀ b, E b → (m.upd bb ((m.bytes bb).set (bo + (F + xs.length) % cap * esz + k)
            ((m.bytes eb)[eo + k]'(by omega)))).bytes b = m.bytes b := by
          intro b hb; simp only [Mem.upd_bytes]; rw [if_neg (hE b hb)]
        refine ⟨h1, h2, h3.mono upd_length, (h3.elementAt hEk).trans h4, rfl, hk, ?_⟩
        simp only [Mem.upd_bytes, if_true]
        exact slice_set_next hv (by omega) h7
      · exact hcons.frame (fun _ h => h) (fun b hb => by simp only [Mem.upd_bytes]; rw [if_neg (hD b hb)]) upd_length
      · intro x hx
        obtain ⟨p, h, h'⟩ := hA x hx
        exact ⟨p, h, h'.mono upd_length⟩
      · intro x hx
        obtain ⟨p, h, h'⟩ := hB x hx
        exact ⟨p, h, h'.mono upd_length⟩
    · rw [if_neg hk]
      have : k = esz := by omega
      subst this
      have hvl : v.take k = v := by
        rw [← h4]; simp [elementAt, slice, List.take_take]
      exact ⟨_, _, _, _, none, .called (.enq v), xs, rfl, .none _ _, rfl,
        ⟨hc, hrl, hfl, ⟨h1, h2, by rw [h7, hvl]⟩, hcons, hA, hB⟩⟩
  · -- rear
    rename_i v
    obtain ⟨h1, h2, h3⟩ := hp
    have hsm : ((q.rear + 1#32) % q.capacity).toNat = (F + xs.length) % cap := (succ_mod hc.hcap hrl).trans h1
    refine ⟨_, _, _, _, none, .called (.enq v), xs, rfl, .none _ _, rfl,
      ⟨⟨hc.hcap, hcp, hc.hes, hc.lim, hc.hbuf, hc.hlen, hF, hc.size_eq, hc.size_le, hc.content⟩, ?_, hfl, ⟨hsm, h2, h3⟩,
        hcons, hA, hB⟩⟩
    show ((q.rear + 1#32) % q.capacity).toNat < cap
    rw [hsm]; exact hw
  · -- size
    rename_i v
    obtain ⟨h1, h2, h3⟩ := hp
    refine ⟨_, _, _, _, some (.lin (.enq v) (true, none)), _, xs ++ [v], rfl, .lin' ?_, rfl,
      ⟨⟨hc.hcap, hcp, hc.hes, hc.lim, hc.hbuf, hc.hlen, hF, ?_, ?_, ?_⟩, hrl, hfl, ⟨?_, rfl⟩, ?_, hA, hB⟩⟩
    · simp only [fifoStep]; rw [if_pos h2]
    · show (q.size + 1#32).toNat = _
      rw [BitVec.toNat_add, hc.size_eq, List.length_append, List.length_singleton]
      simp only [BitVec.toNat_ofNat]; omega
    · rw [List.length_append, List.length_singleton]; omega
    · intro k x hk
      by_cases hkx : k < xs.length
      · rw [List.getElem?_append_left hkx] at hk
        exact hc.content k x hk
      · rw [List.getElem?_append_right (by omega)] at hk
        have hkl : k = xs.length := by
          have := (List.getElem?_eq_some_iff.1 hk).1
          simp at this; omega
        subst hkl
        simp at hk
        rw [← hk]; exact h3
    · show (q.rear.toNat + 1) % cap = _
      rw [h1, List.length_append, List.length_singleton, Nat.mod_add_mod, Nat.add_assoc]
    · refine hcons.frame (fun x hx => ?_) (fun _ _ => rfl) (fun _ => rfl)
      cases xs with
      | nil => simp at hx
      | cons y ys => simpa using hx
  · -- return
    rename_i b
    obtain ⟨h1, rfl⟩ := hp
    exact ⟨_, _, _, _, some (.vis (.ret (b, none))), _, xs, rfl, .ret _ _, rfl, ⟨hc, hrl, hfl, h1, hcons, hA, hB⟩⟩

/-- One step of the consumer. -/
theorem consumer_step {s : Sys} {pa pb : Phase QOp QObs} (hi : Inv cap esz bb bo E D s pa pb xs F)
    (hD : ∀ b, D b → b ≠ bb) (hED : ∀ b, E b → ¬ D b) :
    ∃ t q' m' e x pb' xs' F', step true s.b s.q s.m = some (t, q', m', e) ∧
      Adv cap pb xs x pb' xs' ∧ x.bind XEv.vis? = e.map (queueEvent esz) ∧
      Inv cap esz bb bo E D ⟨s.a, t, q', m'⟩ pa pb' xs' F' := by
  obtain ⟨a, ⟨todo, pc⟩, q, m⟩ := s
  obtain ⟨hc, hrl, hfl, hprod, hp, hA, hB⟩ := hi
  simp only at hc hrl hfl hp hprod hA hB
  have hcp := hc.cap_pos
  have hcl := hc.cap_lt
  have hF := hc.hF
  cases pc <;> rcases pb with _ | op | r <;> try exact hp.elim
  all_goals try (cases op <;> try exact hp.elim)
  · -- idle
    cases todo with
    | nil => exact ⟨_, _, _, _, none, .idle, xs, F, rfl, .none _ _, rfl, ⟨hc, hrl, hfl, hprod, hp, hA, hB⟩⟩
    | cons a rest =>
      obtain ⟨p, rfl, hr⟩ := hB a (by simp)
      refine ⟨_, _, _, _, some (.vis (.call .deq)), .called .deq, xs, F, rfl,
        .call _ _, rfl, ⟨hc, hrl, hfl, hprod, ⟨hp, hr⟩, hA, fun x hx => hB x (by simp [hx])⟩⟩
  · -- guard
    rename_i p
    simp only [step, hc.empty_iff]
    cases xs with
    | nil =>
      refine ⟨_, _, _, _, some (.lin .deq (false, none)), _, [], F, rfl, .lin' rfl, rfl,
        ⟨hc, hrl, hfl, hprod, ?_, hA, hB⟩⟩
      exact ⟨hp.1, hp.2, rfl⟩
    | cons x xs =>
      exact ⟨_, _, _, _, none, _, x :: xs, F, rfl, .none _ _, rfl,
        ⟨hc, hrl, hfl, hprod, ⟨hp.1, hp.2, x, rfl⟩, hA, hB⟩⟩
  · -- address
    rename_i p
    obtain ⟨h1, h2, x, h4⟩ := hp
    obtain ⟨eb, eo, rfl, h5, h6⟩ := h2
    have hmul := mul_toNat h1 hc.hes hF hc.lim
    simp only [step, hmul, hc.hbuf, ptr_addN, ptr_overlaps (hD eb h5), Bool.false_eq_true, if_false]
    exact ⟨_, _, _, _, none, _, xs, F, rfl, .none _ _, rfl,
        ⟨hc, hrl, hfl, hprod, ⟨h1, ⟨eb, eo, rfl, h5, h6⟩, rfl, by omega, x, h4, by simp [slice]⟩, hA, hB⟩⟩
  · -- copy
    rename_i p src k
    obtain ⟨h1, h3, rfl, h6, x, h4, h7⟩ := hp
    obtain ⟨eb, eo, rfl, h8, h9⟩ := id h3
    have hx := hc.content 0 x (by rw [← List.head?_eq_getElem?]; exact h4)
    rw [Nat.add_zero, Nat.mod_eq_of_lt hF] at hx
    simp only [step, hc.hes]
    by_cases hk : k < esz
    · rw [if_pos hk]
      have hbl := hc.hlen
      have hsl := slot_le esz hF
      have hv : x[k]? = some ((m.bytes bb)[bo + F * esz + k]'(by omega)) := by
        rw [← hx]; simp only [getElem?_slice]
        rw [if_pos hk, List.getElem?_eq_getElem]
      rw [copyByte_ok (v := (m.bytes bb)[bo + F * esz + k]'(by omega)) (by omega) (by simp)]
      simp only
      have hne : ∀ c, c ≠ eb → (m.upd eb ((m.bytes eb).set (eo + k) ((m.bytes bb)[bo + F * esz + k]'(by omega)))).bytes c =
          m.bytes c := by
        intro c hcc; simp only [Mem.upd_bytes]; rw [if_neg hcc]
      refine ⟨_, _, _, _, none, .called .deq, xs, F, rfl, .none _ _, rfl,
        ⟨⟨hc.hcap, hcp, hc.hes, hc.lim, hc.hbuf, ?_, hF, hc.size_eq, hc.size_le, ?_⟩, hrl, hfl, ?_, ?_, ?_, ?_⟩⟩
      · rw [upd_length]; exact hbl
      · intro j y hj
        rw [hne bb (Ne.symm (hD eb h8))]; exact hc.content j y hj
      · exact hprod.frame id (hne bb (Ne.symm (hD eb h8)))
          (fun b hb => hne b (fun h => hED b hb (h ▸ h8))) upd_length
      · refine ⟨h1, h3.mono upd_length, rfl, hk, x, h4, ?_⟩
        simp only [Mem.upd_bytes, if_true]
        exact slice_set_next hv (by omega) h7
      · intro x hx
        obtain ⟨p, h, h'⟩ := hA x hx
        exact ⟨p, h, h'.mono upd_length⟩
      · intro x hx
        obtain ⟨p, h, h'⟩ := hB x hx
        exact ⟨p, h, h'.mono upd_length⟩
    · rw [if_neg hk]
      have : k = esz := by omega
      subst this
      have hvl : x.take k = x := by
        rw [← hx]; simp [slice, List.take_take]
      exact ⟨_, _, _, _, none, .called .deq, xs, F, rfl, .none _ _, rfl,
        ⟨hc, hrl, hfl, hprod, ⟨h1, h3, x, h4, h7.trans hvl⟩, hA, hB⟩⟩
  · -- front
    rename_i p
    obtain ⟨h1, h2, h3⟩ := hp
    have hsm : ((q.front + 1#32) % q.capacity).toNat = (F + 1) % cap := by rw [succ_mod hc.hcap hfl, h1]
    simp only [step, if_neg hc.cap_ne]
    refine ⟨_, _, _, _, none, .called .deq, xs, F, rfl, .none _ _, rfl,
      ⟨⟨hc.hcap, hcp, hc.hes, hc.lim, hc.hbuf, hc.hlen, hF, hc.size_eq, hc.size_le, hc.content⟩, hrl, ?_, hprod,
        ⟨hsm, h2, h3⟩, hA, hB⟩⟩
    show ((q.front + 1#32) % q.capacity).toNat < cap
    rw [hsm]; exact Nat.mod_lt _ hcp
  · -- size
    rename_i p
    obtain ⟨h1, h2, x, h3, h4⟩ := hp
    cases xs with
    | nil => simp at h3
    | cons y ys =>
      simp only [List.head?_cons, Option.some.injEq] at h3
      subst h3
      have hse := hc.size_eq
      have hsl := hc.size_le
      rw [List.length_cons] at hse hsl
      refine ⟨_, _, _, _, some (.lin .deq (true, some y)), _, ys, (F + 1) % cap, rfl, .lin' rfl, rfl,
        ⟨⟨hc.hcap, hcp, hc.hes, hc.lim, hc.hbuf, hc.hlen, Nat.mod_lt _ hcp, ?_, ?_, ?_⟩, hrl, hfl, ?_, ⟨h1, h2, ?_⟩, hA, hB⟩⟩
      · show (q.size - 1#32).toNat = _
        rw [BitVec.toNat_sub, hse]
        simp only [BitVec.toNat_ofNat]; omega
      · omega
      · intro k z hk
        rw [Nat.mod_add_mod, show F + 1 + k = F + (k + 1) by omega]
        exact hc.content (k + 1) z (by simpa using hk)
      · have hw : ((F + 1) % cap + ys.length) % cap = (F + (y :: ys).length) % cap := by
          rw [Nat.mod_add_mod, List.length_cons]; congr 1; omega
        show ProdOk cap esz bb bo E (((F + 1) % cap + ys.length) % cap) (ys.length < cap) q.rear.toNat m a.pc pa
        rw [hw]
        exact hprod.frame (fun h => by rw [List.length_cons] at h; omega) rfl (fun _ _ => rfl) (fun _ => rfl)
      · simp only [if_true]; rw [h4]
  · -- return
    rename_i b p
    obtain ⟨h1, h2, rfl⟩ := hp
    refine ⟨_, _, _, _, some (.vis (.ret (b, if b then some (elementAt esz m p) else none))), _, xs, F, rfl, .ret _ _, ?_,
      ⟨hc, hrl, hfl, hprod, h1, hA, hB⟩⟩
    cases b <;> rfl

/-! ### Runs -/

/-- Adding what one step contributes to the extended history of the rest. -/
theorem extend {t : Bool} {x : Option (XEv QOp QObs)} {e : Option Event} {ph ph' : Phase QOp QObs}
    {xs' : List (List Byte)} {pho : Phase QOp QObs} {l : List (Bool × XEv QOp QObs)} {es : List (Bool × Event)}
    (ha : Adv cap ph xs x ph' xs') (hx : x.bind XEv.vis? = e.map (queueEvent esz))
    (h1 : l.filterMap visible = queueHistory esz es) (h2 : Follows ph' (l.filterMap (ofCaller t)))
    (h3 : Follows pho (l.filterMap (ofCaller (!t)))) (h4 : Legal (fifoStep cap) xs' (l.filterMap instant)) :
    ∃ l' : List (Bool × XEv QOp QObs),
      l'.filterMap visible = queueHistory esz ((e.map fun e => (t, e)).toList ++ es) ∧
      Follows ph (l'.filterMap (ofCaller t)) ∧ Follows pho (l'.filterMap (ofCaller (!t))) ∧
      Legal (fifoStep cap) xs (l'.filterMap instant) := by
  have hv : ∀ y : XEv QOp QObs, visible (t, y) = (XEv.vis? y).map fun h => (t, h) := by intro y; cases y <;> rfl
  have hh : queueHistory esz ((e.map fun e => (t, e)).toList ++ es) =
      ((e.map (queueEvent esz)).map fun h => (t, h)).toList ++ queueHistory esz es := by
    cases e <;> simp [queueHistory]
  rw [hh, ← hx, ← h1]
  have ht : ∀ y : XEv QOp QObs, ofCaller t (t, y) = some y := by intro y; simp [ofCaller]
  have hnt : ∀ y : XEv QOp QObs, ofCaller (!t) (t, y) = none := by intro y; cases t <;> simp [ofCaller]
  cases ha with
  | none => exact ⟨l, by simp, h2, h3, h4⟩
  | call op =>
    refine ⟨(t, .vis (.call op)) :: l, ?_, ?_, ?_, ?_⟩
    · simp [visible, XEv.vis?]
    · simpa [ht, Follows] using h2
    · simpa [hnt] using h3
    · exact h4
  | lin op =>
    refine ⟨(t, .lin op (fifoStep cap xs op).1) :: l, ?_, ?_, ?_, ?_⟩
    · rfl
    · simpa [ht, Follows] using h2
    · simpa [hnt] using h3
    · simpa [instant, Legal] using h4
  | ret r =>
    refine ⟨(t, .vis (.ret r)) :: l, ?_, ?_, ?_, ?_⟩
    · simp [visible, XEv.vis?]
    · simpa [ht, Follows] using h2
    · simpa [hnt] using h3
    · exact h4

theorem interleave_ok (hE : ∀ b, E b → b ≠ bb) (hD : ∀ b, D b → b ≠ bb) (hED : ∀ b, E b → ¬ D b) (sched : List Bool) :
    ∀ (s : Sys) (pa pb : Phase QOp QObs) (xs : List (List Byte)) (F : Nat), Inv cap esz bb bo E D s pa pb xs F →
      ∃ s' es, interleave true s sched = some (s', es) ∧
        (∃ pa' pb' xs' F', Inv cap esz bb bo E D s' pa' pb' xs' F') ∧
        ∃ l : List (Bool × XEv QOp QObs), l.filterMap visible = queueHistory esz es ∧
          Follows pa (l.filterMap (ofCaller false)) ∧ Follows pb (l.filterMap (ofCaller true)) ∧
          Legal (fifoStep cap) xs (l.filterMap instant) := by
  induction sched with
  | nil => exact fun s pa pb xs F hi => ⟨s, [], rfl, ⟨pa, pb, xs, F, hi⟩, [], rfl, by simp [Follows], by simp [Follows], trivial⟩
  | cons t sched ih =>
    intro s pa pb xs F hi
    cases t with
    | false =>
      obtain ⟨t, q', m', e, x, pa', xs', h1, h2, h3, h4⟩ := producer_step hi hE hD
      obtain ⟨s', es, h5, h6, l, h7, h8, h9, h10⟩ := ih _ _ _ _ _ h4
      obtain ⟨l', k1, k2, k3, k4⟩ := extend (t := false) h2 h3 h7 h8 h9 h10
      exact ⟨s', _, by simp only [interleave, h1, h5], h6, l', k1, k2, k3, k4⟩
    | true =>
      obtain ⟨t, q', m', e, x, pb', xs', F', h1, h2, h3, h4⟩ := consumer_step hi hD hED
      obtain ⟨s', es, h5, h6, l, h7, h8, h9, h10⟩ := ih _ _ _ _ _ h4
      obtain ⟨l', k1, k2, k3, k4⟩ := extend (t := true) h2 h3 h7 h9 h8 h10
      exact ⟨s', _, by simp only [interleave, h1, h5], h6, l', k1, k3, k2, k4⟩

/-- A queue between calls. -/
theorem Inv.of_rep {s : Sys} (h : Rep cap esz bb bo s.q s.m xs) (ha : s.a.pc = .idle) (hb : s.b.pc = .idle)
    (hA : ∀ x ∈ s.a.todo, ∃ p, x = .enq p ∧ InRange E esz s.m p)
    (hB : ∀ x ∈ s.b.todo, ∃ p, x = .deq p ∧ InRange D esz s.m p) :
    Inv cap esz bb bo E D s .idle .idle xs s.q.front.toNat := by
  refine ⟨⟨h.hcap, h.cap_pos, h.hes, h.lim, h.hbuf, h.hlen, h.front_lt, h.size_eq, h.size_le, h.content⟩, h.rear_lt,
    h.front_lt, ?_, ?_, hA, hB⟩
  · rw [ha]; exact h.rear_eq
  · rw [hb]; rfl

/-- Between calls the queue is in order again. -/
theorem Inv.rep {s : Sys} {pa pb : Phase QOp QObs} (hi : Inv cap esz bb bo E D s pa pb xs F) (hz : 0 < esz)
    (ha : s.a.pc = .idle) (hb : s.b.pc = .idle) : Rep cap esz bb bo s.q s.m xs := by
  obtain ⟨hc, hrl, hfl, hp, hcons, -, -⟩ := hi
  rw [ha] at hp; rw [hb] at hcons
  have h1 : (s.q.rear.toNat + 1) % cap = (F + xs.length) % cap := by cases pa <;> first | exact hp | exact hp.elim
  have h2 : s.q.front.toNat = F := by cases pb <;> first | exact hcons | exact hcons.elim
  exact ⟨hc.hcap, hc.cap_pos, hc.hes, hz, hc.lim, hc.hbuf, hc.hlen, hfl, hrl, by rw [h2]; exact h1, hc.size_eq, hc.size_le,
    by rw [h2]; exact hc.content⟩

end

end IMU.Queue
