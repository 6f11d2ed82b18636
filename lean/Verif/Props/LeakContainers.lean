import Verif.Proofs.LeakPriority
import Verif.Props.Leak

/-!
# Properties C132 - C134: what an observer learns from the containers and the Caesar cipher

The observer of `Verif/C/Leak.lean` sees addresses and decisions, but no values.
-/

namespace IMU.Props
open Spec Spec.Leak

/-- What comes out of a run: the results and what the observer saw; `none` if the behaviour is undefined. -/
def observed {α : Type} (r : Res (α × List Leak)) : Option (α × List Leak) :=
  match r with
  | .ok x _ => some x
  | .ub _ => none

theorem observed_alike {α : Type} {R : α → α → Mem → Mem → Prop} {r s : Res (α × List Leak)} (h : Alike R r s)
    (hr : ∀ a b m m2, R a b m m2 → b = a) : observed r = observed s := by
  cases r with
  | ub e => cases s with
    | ub e2 => rfl
    | ok _ _ => exact h.elim
  | ok at' m => cases s with
    | ub e2 => exact h.elim
    | ok bu m2 =>
      obtain ⟨a, t⟩ := at'
      obtain ⟨b, u⟩ := bu
      obtain ⟨rfl, h⟩ := h
      rw [hr _ _ _ _ h]
      rfl

/-! ### C132: queues -/

/-- C132: the observed versions of the queue functions are the queue functions. -/
theorem C132_same_code (q : Option Queue.Queue) (el : Option Ptr) (p : PQ.PQueue) (e : Ptr) (w : U32) :
    T.erase (Queue.enqueueT q el) = Queue.enqueue q el ∧ T.erase (Queue.dequeueT q el) = Queue.dequeue q el ∧
    T.erase (Queue.frontT q el) = Queue.front q el ∧ T.erase (Queue.rearT q el) = Queue.rear q el ∧
    T.erase (PQ.enqueueT p e w) = PQ.enqueue p e w ∧ T.erase (PQ.dequeueT p e) = PQ.dequeue p e :=
  ⟨Queue.erase_enqueue q el, Queue.erase_dequeue q el, Queue.erase_front q el, Queue.erase_rear q el,
    PQ.erase_enqueue p e w, PQ.erase_dequeue p e⟩

/-- C132: whatever calls are made on a queue, the answers, the structure and everything an observer sees do not depend on
the contents of the memory. -/
theorem C132_queue (l : List Queue.Call) (q : Option Queue.Queue) {m m2 : Mem}
    (hb : ∀ b, (m.bytes b).length = (m2.bytes b).length) (hw : ∀ b, (m.words b).length = (m2.words b).length) :
    observed (Queue.callsT l q m) = observed (Queue.callsT l q m2) :=
  observed_alike (Queue.calls_alike l ⟨hb, hw⟩) fun _ _ _ _ h => h.1.symm

/-- C132: whatever calls are made on a priority queue, the answers, the structure and everything an observer sees do not
depend on the elements, and of the priorities only on their order: they stay the same if all priorities, stored and given,
are replaced by others in the same order. -/
theorem C132_priorities {S : U32 → Prop} {f : U32 → U32} (hf : Keeps S f) (l : List PQ.Call)
    (hl : ∀ el p, PQ.Call.enqueue el p ∈ l → S p) {q : PQ.PQueue} (hc : q.capacity ≠ 0#32)
    (hs : q.size.toNat ≤ q.capacity.toNat) {m m2 : Mem}
    (hb : ∀ b, (m.bytes b).length = (m2.bytes b).length) (hw : ∀ b, (m.words b).length = (m2.words b).length)
    (hp : ∀ (i : Nat) (w : U32), i < q.size.toNat → (m.words q.priority_array)[i]? = some w →
      S w ∧ (m2.words q.priority_array)[i]? = some (f w)) :
    observed (PQ.callsT l q m) = observed (PQ.callsT (l.map (PQ.Call.map f)) q m2) := by
  refine observed_alike (PQ.calls_rel hf l (fun c hc el p e => hl el p (e ▸ hc)) ⟨⟨hb, hw⟩, fun i hi => ?_⟩ ⟨?_, hs⟩) fun _ _ _ _ h => h
  · cases hx : (m.words q.priority_array)[i]? with
    | none =>
      rw [List.getElem?_eq_none_iff] at hx
      exact ⟨List.getElem?_eq_none_iff.mpr (by rw [← hw]; exact hx), fun w h => by cases h⟩
    | some w =>
      obtain ⟨h1, h2⟩ := hp i w hi hx
      exact ⟨h2, fun w' e => by cases e; exact h1⟩
  · have : q.capacity.toNat ≠ 0 := fun e => hc (BitVec.eq_of_toNat_eq e)
    omega

/-- C132: how much of the priorities `PriorityQueue_dequeue` shows: exactly which stored priorities are greater than all
stored before them. -/
theorem C132_dequeue {q : PQ.PQueue} {el : Ptr} (h0 : q.size ≠ 0#32) {m m2 m' m2' : Mem}
    (hn : q.size.toNat ≤ (m.words q.priority_array).length) (hn2 : q.size.toNat ≤ (m2.words q.priority_array).length)
    {r r2 : Bool × PQ.PQueue} {t t2 : List Leak} (h : PQ.dequeueT q el m = .ok (r, t) m')
    (h2 : PQ.dequeueT q el m2 = .ok (r2, t2) m2') :
    t = t2 ↔ ∀ i, 0 < i → i < q.size.toNat → (Record (slice (m.words q.priority_array) 0 q.size.toNat) i ↔
      Record (slice (m2.words q.priority_array) 0 q.size.toNat) i) := by
  have hs : 0 < q.size.toNat := by
    have : q.size.toNat ≠ 0 := fun e => h0 (BitVec.eq_of_toNat_eq e)
    omega
  obtain ⟨f, hf⟩ := PQ.dequeue_rest q el (by unfold PQ.empty; simpa using h0)
  obtain ⟨i, u, m1, g, rfl⟩ := hf h
  obtain ⟨i2, u2, m3, g2, rfl⟩ := hf h2
  obtain ⟨-, rfl, rfl⟩ := PQ.highest_cases hs hn g _ rfl
  obtain ⟨-, rfl, rfl⟩ := PQ.highest_cases hs hn2 g2 _ rfl
  have l1 := (PQ.slice_words hn).1
  have l2 := (PQ.slice_words hn2).1
  generalize slice (m.words q.priority_array) 0 q.size.toNat = l at l1 ⊢
  generalize slice (m2.words q.priority_array) 0 q.size.toNat = l' at l2 ⊢
  have key := PQ.rises_eq_iff (lt := fun a b => decide (a < b)) (fun a => by simp)
    (fun a b c => by simp only [decide_eq_true_eq]; intro h1 h2; bv_omega)
    (fun a b c => by simp only [decide_eq_true_eq]; intro h1 h2; bv_omega) (l := l) (l2 := l') (by omega)
  simp only [decide_eq_true_eq, l1] at key
  unfold Record
  rw [← key]
  constructor
  · intro e
    simp only [List.cons_append, List.cons.injEq, true_and] at e
    exact (PQ.searchTr_inj (by rw [PQ.rises_length, PQ.rises_length]; omega) e).1
  · intro e
    rw [e]

/-- C132: how much `PriorityQueue_enqueue` into a full queue shows: exactly which stored priorities are smaller than all
stored before them, and whether the new item takes the place of one. -/
theorem C132_enqueue {q : PQ.PQueue} {el : Ptr} {p p2 : U32} (h0 : q.size ≠ 0#32) (hfull : q.size = q.capacity) {m m2 m' m2' : Mem}
    (hn : q.size.toNat ≤ (m.words q.priority_array).length) (hn2 : q.size.toNat ≤ (m2.words q.priority_array).length)
    {r r2 : Bool × PQ.PQueue} {t t2 : List Leak} (h : PQ.enqueueT q el p m = .ok (r, t) m')
    (h2 : PQ.enqueueT q el p2 m2 = .ok (r2, t2) m2') :
    t = t2 ↔ (∀ i, 0 < i → i < q.size.toNat → (RecordLow (slice (m.words q.priority_array) 0 q.size.toNat) i ↔
      RecordLow (slice (m2.words q.priority_array) 0 q.size.toNat) i)) ∧
      ((∃ x ∈ slice (m.words q.priority_array) 0 q.size.toNat, x < p) ↔
        ∃ x ∈ slice (m2.words q.priority_array) 0 q.size.toNat, x < p2) := by
  have hs : 0 < q.size.toNat := by
    have : q.size.toNat ≠ 0 := fun e => h0 (BitVec.eq_of_toNat_eq e)
    omega
  obtain ⟨f, hf⟩ := PQ.enqueue_rest q el (by unfold PQ.full; simpa using hfull)
  obtain ⟨i, u, m1, w, g, hw, rfl⟩ := hf h
  obtain ⟨i2, u2, m3, w2, g2, hw2, rfl⟩ := hf h2
  obtain ⟨rfl, rfl, ei, ew⟩ := PQ.lowest_cases hs hn g _ rfl
  obtain ⟨rfl, rfl, ei2, ew2⟩ := PQ.lowest_cases hs hn2 g2 _ rfl
  have l1 := (PQ.slice_words hn).1
  have l2 := (PQ.slice_words hn2).1
  rw [ew] at hw
  rw [ew2] at hw2
  clear ew ew2 h h2 g g2
  generalize slice (m1.words q.priority_array) 0 q.size.toNat = l at l1 hw ei ⊢
  generalize slice (m3.words q.priority_array) 0 q.size.toNat = l' at l2 hw2 ei2 ⊢
  cases hw
  cases hw2
  have key := PQ.rises_eq_iff (lt := fun a b => decide (a > b)) (fun a => by simp)
    (fun a b c => by simp only [decide_eq_true_eq]; intro h1 h2; bv_omega)
    (fun a b c => by simp only [decide_eq_true_eq]; intro h1 h2; bv_omega) (l := l) (l2 := l') (by omega)
  simp only [decide_eq_true_eq, l1, gt_iff_lt] at key
  have hx : ∀ (l : List U32), 0 < l.length → ∀ p, (PQ.bestOf (fun a b => decide (a > b)) (l.getD 0 0) l < p ↔ ∃ x ∈ l, x < p) := by
    intro l hl p
    rw [PQ.bestOf_lt]
    constructor
    · rintro (h | h)
      · refine ⟨_, ?_, h⟩
        rw [List.getD_eq_getElem?_getD, List.getElem?_eq_getElem hl]
        exact List.getElem_mem _
      · exact h
    · exact fun h => .inr h
  unfold RecordLow
  rw [← key, ← hx l (by omega), ← hx l' (by omega)]
  constructor
  · intro e
    simp only [List.cons_append, List.cons.injEq, true_and] at e
    obtain ⟨e1, e2⟩ := PQ.searchTr_inj (by rw [PQ.rises_length, PQ.rises_length]; omega) e
    simp only [List.cons.injEq, Leak.branch.injEq, decide_eq_decide] at e2
    exact ⟨e1, e2.2.1⟩
  · rintro ⟨e1, e2⟩
    rw [show i = i2 by rw [ei, ei2]; exact congrArg _ e1, e1, decide_eq_decide.mpr e2]

/-- Lemma support: room for two elements of one byte with their priorities, and a byte of the client. -/
def leakPQ (e w0 w1 : Nat) : Mem :=
  ⟨fun b => if b = 0 then [0, 0] else if b = 1 then [BitVec.ofNat 8 e] else [], fun b => if b = 2 then [BitVec.ofNat 32 w0, BitVec.ofNat 32 w1] else []⟩

/-- Lemma support: a priority queue with room for two elements, with `n` stored. -/
def leakQ (n : U32) : PQ.PQueue := { capacity := 2, size := n, element_size := 1, priority_array := 2, buffer := ptr 0 0 }

/-- Non-vacuity: the priorities 3 and 7 replaced by 20 and 4000000000; all calls of a history succeed but the last, the
third one by taking the place of the first. -/
example : Keeps (fun w => w = 3 ∨ w = 7) (fun w => if w = 3 then 20 else 4000000000) ∧
    (observed (PQ.callsT [.enqueue (ptr 1 0) 3, .enqueue (ptr 1 0) 7, .enqueue (ptr 1 0) 7, .dequeue (ptr 1 0), .dequeue (ptr 1 0),
      .dequeue (ptr 1 0)] (leakQ 0) (leakPQ 5 0 0))).map (·.1.1) =
      some [true, true, true, true, true, false] := by
  constructor
  · rintro a b (rfl | rfl) (rfl | rfl) <;> decide
  · decide +kernel

/-- Non-vacuity: the dequeue of (3, 7) and that of (7, 3) end and show different things, that of (1, 2) shows the same as
that of (3, 7). -/
example :
    let f := fun x y => (observed (PQ.dequeueT (leakQ 2) (ptr 1 0) (leakPQ 5 x y))).map (·.2)
    (f 3 7).isSome ∧ f 3 7 ≠ f 7 3 ∧ f 3 7 = f 1 2 ∧ Record [3, 7] 1 ∧ ¬ Record [7, 3] 1 := by
  refine ⟨by decide +kernel, by decide +kernel, by decide +kernel, ?_, ?_⟩
  · intro j hj
    obtain rfl : j = 0 := by omega
    decide
  · intro h
    exact absurd (h 0 (by decide)) (by decide)

/-- Non-vacuity: an enqueue into the full queue of (3, 7) that is refused and two that are not. -/
example :
    let f := fun p => (observed (PQ.enqueueT (leakQ 2) (ptr 1 0) p (leakPQ 5 3 7))).map (·.2)
    (f 3).isSome ∧ f 3 ≠ f 4 ∧ f 4 = f 9 := by
  refine ⟨by decide +kernel, by decide +kernel, by decide +kernel⟩

/-- Non-vacuity: a queue of two one-byte elements with all four calls. -/
example : (observed (Queue.callsT [.enqueue (some (ptr 1 0)), .front (some (ptr 1 0)), .rear (some (ptr 1 0)), .dequeue (some (ptr 1 0)),
    .dequeue (some (ptr 1 0))] (some { capacity := 2, front := 0, rear := 1, size := 0, element_size := 1, buffer := ptr 0 0 })
      (leakPQ 5 0 0))).map (·.1.1) = some [true, true, true, true, false] := by decide +kernel

/-! ### C133: map -/

/-- C133: the observed versions of the map functions are the map functions. -/
theorem C133_same_code (map : Option Map.MapT) (key value : Ptr) :
    T.erase (Map.insertT map key value) = Map.insert map key value ∧
    T.erase (Map.getValueT map key value) = Map.getValue map key value :=
  ⟨Map.erase_insert map key value, Map.erase_getValue map key value⟩

/-- The keys stored in a map. -/
def keysOf (map : Map.MapT) (m : Mem) (kb ko ks : Nat) : List (List Byte) :=
  (List.range' 0 map.current_size.toNat).map fun j => slice (m.bytes kb) (ko + j * ks) ks

/-- C133: `Map_getValue` shows exactly how many leading bytes of the key agree with each of the stored keys up to the one
found; nothing of the values, and nothing else of the keys. -/
theorem C133_lookup {map : Map.MapT} {kb ko ks b o : Nat} {value : Ptr} (hkeys : map.keys = ptr kb ko)
    (hks : map.key_size = ks) (h0 : 0 < ks) (hlt : ks < 2 ^ 31) {m m2 m' m2' : Mem}
    (hm : ko + map.current_size.toNat * ks ≤ (m.bytes kb).length)
    (hm2 : ko + map.current_size.toNat * ks ≤ (m2.bytes kb).length)
    (hk : o + ks ≤ (m.bytes b).length) (hk2 : o + ks ≤ (m2.bytes b).length) {r r2 : Bool} {t t2 : List Leak}
    (h : Map.getValueT (some map) (ptr b o) value m = .ok (r, t) m')
    (h2 : Map.getValueT (some map) (ptr b o) value m2 = .ok (r2, t2) m2') :
    t = t2 ↔ compared (slice (m.bytes b) o ks) (keysOf map m kb ko ks) = compared (slice (m2.bytes b) o ks) (keysOf map m2 kb ko ks) := by
  obtain ⟨f, hf⟩ := Map.getValue_rest map (ptr b o) value
  obtain ⟨i, u, m1, g, rfl⟩ := hf h
  obtain ⟨i2, u2, m3, g2, rfl⟩ := hf h2
  exact Map.search_iff hkeys hks h0 (by omega) hm hm2 hk hk2 g g2

/-- C133: the same for `Map_insert`. -/
theorem C133_insert {map : Map.MapT} {kb ko ks b o : Nat} {value : Ptr} (hkeys : map.keys = ptr kb ko)
    (hks : map.key_size = ks) (h0 : 0 < ks) (hlt : ks < 2 ^ 31) {m m2 m' m2' : Mem}
    (hm : ko + map.current_size.toNat * ks ≤ (m.bytes kb).length)
    (hm2 : ko + map.current_size.toNat * ks ≤ (m2.bytes kb).length)
    (hk : o + ks ≤ (m.bytes b).length) (hk2 : o + ks ≤ (m2.bytes b).length) {r r2 : Bool × Option Map.MapT} {t t2 : List Leak}
    (h : Map.insertT (some map) (ptr b o) value m = .ok (r, t) m')
    (h2 : Map.insertT (some map) (ptr b o) value m2 = .ok (r2, t2) m2') :
    t = t2 ↔ compared (slice (m.bytes b) o ks) (keysOf map m kb ko ks) = compared (slice (m2.bytes b) o ks) (keysOf map m2 kb ko ks) := by
  obtain ⟨f, hf⟩ := Map.insert_rest map (ptr b o) value
  obtain ⟨i, u, m1, g, rfl⟩ := hf h
  obtain ⟨i2, u2, m3, g2, rfl⟩ := hf h2
  exact Map.search_iff hkeys hks h0 (by omega) hm hm2 hk hk2 g g2

/-- Lemma support: a map with one entry of a key of three bytes and a value of one byte; object 2 is the key looked for. -/
def leakMap (stored key : String) (v : Byte) : Mem :=
  ⟨fun b => if b = 0 then ascii stored else if b = 1 then [v] else if b = 2 then ascii key else if b = 3 then [0] else [], fun _ => []⟩

/-- Non-vacuity: looking for "abc" and "abd" in a map with the key "abx" shows the same, looking for "axx" something else,
looking for "abx" yet something else; the value does not matter. -/
example :
    let map : Map.MapT := ⟨ptr 0 0, ptr 1 0, 3, 1, 1, 1⟩
    let f := fun k v => (observed (Map.getValueT (some map) (ptr 2 0) (ptr 3 0) (leakMap "abx" k v))).map (·.2)
    (f "abc" 1).isSome ∧ f "abc" 1 = f "abd" 2 ∧ f "abc" 1 ≠ f "axx" 1 ∧ f "abc" 1 ≠ f "abx" 1 ∧ (f "abx" 1).isSome ∧
    compared (ascii "abc") [ascii "abx"] = [2] ∧ compared (ascii "axx") [ascii "abx"] = [1] ∧
    compared (ascii "abx") [ascii "abx"] = [3] := by
  refine ⟨?_, ?_, ?_, ?_, ?_, ?_, ?_, ?_⟩ <;> decide +kernel

/-! ### C134: Caesar cipher -/

/-- C134: the observed versions of the two functions are the functions. -/
theorem C134_same_code (msg : Ptr) (shift : Byte) :
    T.erase (Caesar.encryptT msg shift) = Caesar.encrypt msg shift ∧
    T.erase (Caesar.decryptT msg shift) = Caesar.decrypt msg shift := ⟨Caesar.erase_encrypt msg shift, Caesar.erase_decrypt msg shift⟩

/-- C134: two runs on texts at the same place, with any two shifts, show the same exactly if the texts have the same kinds
of characters at the same places: neither the letters themselves nor the shifts are seen. -/
theorem C134_encrypt {b o : Nat} {sh sh2 : Byte} {m m2 m' m2' : Mem} {s s2 : List Byte} (hs : CStr (m.bytes b) o s)
    (hs2 : CStr (m2.bytes b) o s2) {v v2 : Unit} {t t2 : List Leak} (h : Caesar.encryptT (ptr b o) sh m = .ok (v, t) m')
    (h2 : Caesar.encryptT (ptr b o) sh2 m2 = .ok (v2, t2) m2') : t = t2 ↔ s.map kind = s2.map kind := by
  rw [Caesar.encrypt_shows hs h, Caesar.encrypt_shows hs2 h2, Caesar.textTr_iff]

/-- C134: the same for decryption. -/
theorem C134_decrypt {b o : Nat} {sh sh2 : Byte} {m m2 m' m2' : Mem} {s s2 : List Byte} (hs : CStr (m.bytes b) o s)
    (hs2 : CStr (m2.bytes b) o s2) {v v2 : Unit} {t t2 : List Leak} (h : Caesar.decryptT (ptr b o) sh m = .ok (v, t) m')
    (h2 : Caesar.decryptT (ptr b o) sh2 m2 = .ok (v2, t2) m2') : t = t2 ↔ s.map kind = s2.map kind := by
  rw [Caesar.decrypt_shows hs h, Caesar.decrypt_shows hs2 h2, Caesar.textTr_iff]

/-- C134: encryption and decryption of a text show the same. -/
theorem C134_direction {b o : Nat} {sh sh2 : Byte} {m m2 m' m2' : Mem} {s : List Byte} (hs : CStr (m.bytes b) o s)
    (hs2 : CStr (m2.bytes b) o s) {v v2 : Unit} {t t2 : List Leak} (h : Caesar.encryptT (ptr b o) sh m = .ok (v, t) m')
    (h2 : Caesar.decryptT (ptr b o) sh2 m2 = .ok (v2, t2) m2') : t = t2 := by
  rw [Caesar.encrypt_shows hs h, Caesar.decrypt_shows hs2 h2]

/-- Non-vacuity: "aB-" with shift 3 and "zQ!" with shift 200 show the same; "ab-" does not. -/
example :
    let f := fun t sh => (observed (Caesar.encryptT (ptr 0 0) sh (mem1 (ascii t ++ [0])))).map (·.2)
    (f "aB-" 3).isSome ∧ f "aB-" 3 = f "zQ!" 200 ∧ f "aB-" 3 ≠ f "ab-" 3 ∧ CStr (ascii "aB-" ++ [0]) 0 (ascii "aB-") := by
  refine ⟨by decide +kernel, by decide +kernel, by decide +kernel, by decide +kernel, [], rfl⟩

end IMU.Props
