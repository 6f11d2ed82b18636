import Verif.Proofs.Cost
import Verif.Props.LeakContainers
import Verif.Props.Map
import Verif.Props.PriorityQueueLines

/-!
# Properties C136 and C137: how many steps the calls take

Src/queue.c:64-131, Src/priority_queue.c:44-72, 94-158, Src/map.c:41-117 (C136); Src/crypto/chacha20.c, Src/crc, Src/base64.c:21-106,
Src/crypto/caesar_cipher.c, Src/crypto/vernam_cipher.c (C137).  A step is a memory access or a decision as listed in `Verif/C/Leak.lean`; the length of
what an observer sees is the number of steps.
-/

namespace IMU.Props
open Spec Spec.Leak Spec.Cost T

/-! ### C136: the containers -/

section queue
variable {q : Queue.Queue} {el : Ptr} {m m' : Mem} {t : List Leak}

/-- C136: an enqueue copies one element and nothing else: its steps do not depend on the number of places, on how many
are taken or on what is stored. -/
theorem C136_enqueue {r : Bool × Option Queue.Queue} (h : Queue.enqueueT (some q) (some el) m = .ok (r, t) m') :
    t.length = if q.size = q.capacity then 1 else 2 * q.element_size.toNat + 1 := by
  rw [Queue.takes_enqueue q el m r t m' h]
  by_cases hs : q.size = q.capacity
  · rw [if_pos hs, if_pos (by rw [Queue.full]; simpa using hs)]
  · rw [if_neg hs, if_neg (by rw [Queue.full]; simpa using hs)]; omega

/-- C136: the same for a dequeue. -/
theorem C136_dequeue {r : Bool × Option Queue.Queue} (h : Queue.dequeueT (some q) (some el) m = .ok (r, t) m') :
    t.length = if q.size = 0#32 then 1 else 2 * q.element_size.toNat + 1 := by
  rw [Queue.takes_dequeue q el m r t m' h]
  by_cases hs : q.size = 0#32
  · rw [if_pos hs, if_pos (by rw [Queue.empty]; simpa using hs)]
  · rw [if_neg hs, if_neg (by rw [Queue.empty]; simpa using hs)]; omega

/-- C136: the same for looking at the oldest or the newest element. -/
theorem C136_peek {r : Bool} (h : Queue.frontT (some q) (some el) m = .ok (r, t) m' ∨ Queue.rearT (some q) (some el) m = .ok (r, t) m') :
    t.length = if q.size = 0#32 then 1 else 2 * q.element_size.toNat + 1 := by
  have e : t.length = if Queue.empty q then 1 else 1 + 2 * q.element_size.toNat := by
    rcases h with h | h
    · exact Queue.takes_front q el m r t m' h
    · exact Queue.takes_rear q el m r t m' h
  rw [e]
  by_cases hs : q.size = 0#32
  · rw [if_pos hs, if_pos (by rw [Queue.empty]; simpa using hs)]
  · rw [if_neg hs, if_neg (by rw [Queue.empty]; simpa using hs)]; omega

end queue

section pq
variable {cap es : U32} {bb bo pa : Nat} {cs : List PQCall} {os : List PQObs} {q : PQ.PQueue} {m : Mem}

/-- Lemma support: the memory of the call. -/
theorem call_rep (h : PQReach cap es bb bo pa cs os q m) (c : PQCall) (hv : c.Valid bb es.toNat) :
    PQ.Rep cap.toNat es.toNat bb bo pa q (c.mem bb pa m) (stored q m bb bo pa es.toNat) ∧
      c.off + es.toNat ≤ ((c.mem bb pa m).bytes c.blk).length := by
  obtain ⟨_, xs, -, hrep⟩ := h.rep
  rw [stored_eq hrep]
  refine ⟨hrep.of_eq (by simp [PQCall.mem]) (by simp [PQCall.mem]), ?_⟩
  have : (c.mem bb pa m).bytes c.blk = c.w.bytes c.blk := by simp [PQCall.mem, hv.1]
  rw [this]; exact hv.2

/-- C136: a dequeue from a priority queue of `n` items whose first one of the highest priority has `post.length` items
behind it; and one from an empty queue. -/
theorem C136_pq_dequeue (h : PQReach cap es bb bo pa cs os q m) (c : PQCall) (hv : c.Valid bb es.toNat)
    {xs : List PItem} (hx : stored q m bb bo pa es.toNat = xs) :
    ∃ r t m', PQ.dequeueT q (ptr c.blk c.off) (c.mem bb pa m) = .ok (r, t) m' ∧
      ((xs = [] ∧ t.length = 1) ∨
        ∃ pre x post, xs = pre ++ x :: post ∧ (∀ y ∈ pre, y.1 < x.1) ∧ (∀ y ∈ post, y.1 ≤ x.1) ∧
          t.length = 3 * xs.length + 2 * es.toNat + post.length * (2 * es.toNat + 3) + 4) := by
  obtain ⟨hr, hl⟩ := call_rep h c hv
  rw [hx] at hr
  obtain ⟨r, q', m', -, -, h1, -⟩ := PQ.dequeue_ok hr c.blk c.off hv.1 hl
  rw [← PQ.erase_dequeue] at h1
  obtain ⟨t, h2⟩ := T.of_erase h1
  refine ⟨_, t, m', h2, ?_⟩
  by_cases hxs : xs = []
  · left
    refine ⟨hxs, ?_⟩
    have he : PQ.empty q = true := by rw [hr.empty_iff]; simpa using hxs
    unfold PQ.dequeueT at h2
    rw [he] at h2
    obtain ⟨u, g, rfl⟩ := Vernam.branch_exact h2
    rw [if_neg (by decide)] at g
    obtain ⟨-, -, rfl⟩ := pure_cases g
    rfl
  · right
    obtain ⟨pre, x, post, e, a, b, hc⟩ := PQ.dequeue_cost hr hxs h2
    exact ⟨pre, x, post, e, a, b, by rw [hc, moveSteps]; omega⟩

/-- C136: an enqueue with room copies one element and its priority; into a full queue it searches all priorities, and
either stops or closes the gap behind the first item of the lowest priority. -/
theorem C136_pq_enqueue (h : PQReach cap es bb bo pa cs os q m) (c : PQCall) (hv : c.Valid bb es.toNat) (p : U32)
    {xs : List PItem} (hx : stored q m bb bo pa es.toNat = xs) :
    ∃ r t m', PQ.enqueueT q (ptr c.blk c.off) p (c.mem bb pa m) = .ok (r, t) m' ∧
      ((xs.length < cap.toNat ∧ t.length = 2 * es.toNat + 2) ∨
        ∃ pre x post, xs.length = cap.toNat ∧ xs = pre ++ x :: post ∧ (∀ y ∈ pre, x.1 < y.1) ∧ (∀ y ∈ post, x.1 ≤ y.1) ∧
          t.length = if x.1 < p then 3 * cap.toNat + 2 * es.toNat + post.length * (2 * es.toNat + 3) + 7
            else 3 * cap.toNat + 5) := by
  obtain ⟨hr, hl⟩ := call_rep h c hv
  rw [hx] at hr
  obtain ⟨r, q', m', -, -, h1, -⟩ := PQ.enqueue_ok hr p c.blk c.off hv.1 hl
  rw [← PQ.erase_enqueue] at h1
  obtain ⟨t, h2⟩ := T.of_erase h1
  refine ⟨_, t, m', h2, ?_⟩
  have hle := hr.size_le
  by_cases hroom : xs.length < cap.toNat
  · exact .inl ⟨hroom, PQ.enqueue_cost_room hr hroom h2⟩
  · right
    obtain ⟨pre, x, post, e, a, b, hc⟩ := PQ.enqueue_cost_full hr (by omega) h2
    refine ⟨pre, x, post, by omega, e, a, b, ?_⟩
    rw [hc, moveSteps]
    split <;> omega

/-- Lemma support: closing the gap moves fewer than `n` entries. -/
theorem gap_le {es n k : Nat} (h : k + 1 ≤ n) : 3 * n + 2 * es + k * (2 * es + 3) + 4 ≤ n * (2 * es + 6) + 1 := by
  have h1 : (k + 1) * (2 * es + 3) ≤ n * (2 * es + 3) := Nat.mul_le_mul_right _ h
  have h2 : n * (2 * es + 6) = n * (2 * es + 3) + n * 3 := by rw [← Nat.mul_add]
  rw [Nat.add_mul, Nat.one_mul] at h1
  omega

/-- C136: the worst cases, reached when the item found is the first one of the array (see below). -/
theorem C136_pq_worst (h : PQReach cap es bb bo pa cs os q m) (c : PQCall) (hv : c.Valid bb es.toNat) (p : U32) :
    (∃ r t m', PQ.dequeueT q (ptr c.blk c.off) (c.mem bb pa m) = .ok (r, t) m' ∧
      t.length ≤ (stored q m bb bo pa es.toNat).length * (2 * es.toNat + 6) + 1) ∧
    (∃ r t m', PQ.enqueueT q (ptr c.blk c.off) p (c.mem bb pa m) = .ok (r, t) m' ∧
      t.length ≤ cap.toNat * (2 * es.toNat + 6) + 4) := by
  constructor
  · obtain ⟨r, t, m', h1, h2⟩ := C136_pq_dequeue h c hv rfl
    refine ⟨r, t, m', h1, ?_⟩
    rcases h2 with ⟨-, e⟩ | ⟨pre, x, post, e, -, -, e2⟩
    · omega
    · rw [e2]
      refine gap_le ?_
      rw [e, List.length_append, List.length_cons]; omega
  · obtain ⟨r, t, m', h1, h2⟩ := C136_pq_enqueue h c hv p rfl
    refine ⟨r, t, m', h1, ?_⟩
    rcases h2 with ⟨hl, e⟩ | ⟨pre, x, post, hl, e, -, -, e2⟩
    · have := Nat.mul_le_mul_right (2 * es.toNat + 6) (show 1 ≤ cap.toNat by omega)
      omega
    · have hk : post.length + 1 ≤ cap.toNat := by
        rw [e, List.length_append, List.length_cons] at hl; omega
      have := gap_le (es := es.toNat) hk
      rw [e2]
      split <;> omega

end pq

section map
variable {map : Map.MapT} {kb ko ks vs b o : Nat} {value : Ptr} {m m' : Mem} {t : List Leak}

/-- C136: a lookup compares the key with the stored ones in turn, each up to the first difference, up to the equal one;
then it copies the value. -/
theorem C136_lookup (hkeys : map.keys = ptr kb ko) (hks : map.key_size = ks) (hvs : map.value_size = vs) (h0 : 0 < ks)
    (hlt : ks < 2 ^ 31) (hvlt : vs < 2 ^ 31) (hk : o + ks ≤ (m.bytes b).length) {r : Bool}
    (h : Map.getValueT (some map) (ptr b o) value m = .ok (r, t) m') :
    t.length = searchSteps (slice (m.bytes b) o ks) (keysOf map m kb ko ks) + 1 +
      if slice (m.bytes b) o ks ∈ keysOf map m kb ko ks then 2 * vs else 0 := by
  have := Map.getValue_cost hkeys hks h0 (by omega) hk h
  rw [hvs, Map.toSizeT_leak (by omega)] at this
  exact this

/-- C136: an insert searches in the same way; then it copies the value, or key and value, or nothing if the map is full. -/
theorem C136_insert (hkeys : map.keys = ptr kb ko) (hks : map.key_size = ks) (hvs : map.value_size = vs) (h0 : 0 < ks)
    (hlt : ks < 2 ^ 31) (hvlt : vs < 2 ^ 31) (hk : o + ks ≤ (m.bytes b).length) {r : Bool × Option Map.MapT}
    (h : Map.insertT (some map) (ptr b o) value m = .ok (r, t) m') :
    t.length = searchSteps (slice (m.bytes b) o ks) (keysOf map m kb ko ks) + 1 +
      if slice (m.bytes b) o ks ∈ keysOf map m kb ko ks then 2 * vs
      else 1 + if map.current_size = map.max_map_size then 0 else 2 * ks + 2 * vs := by
  have := Map.insert_cost hkeys hks h0 (by omega) hk h
  rw [hvs, Map.toSizeT_leak (by omega)] at this
  exact this

/-- C136: after any history every lookup and every insert ends within steps that grow with the number of distinct keys
inserted, not with the number of places. -/
theorem C136_map_worst {n vb vo : Nat} {cs : List MapCall} (h : MapReach n ks vs kb ko vb vo cs map m) (c : MapCall)
    (hc : c.Valid kb vb ks vs) :
    (∃ r t m', Map.getValueT (some map) (ptr c.kblk c.koff) (ptr c.vblk c.voff) (c.mem kb vb m) = .ok (r, t) m' ∧
      t.length ≤ distinctKeys (mapRun n [] (cs.map (·.op ks vs))).2 * (2 * ks + 2) + 2 * vs + 2) ∧
    (∃ r t m', Map.insertT (some map) (ptr c.kblk c.koff) (ptr c.vblk c.voff) (c.mem kb vb m) = .ok (r, t) m' ∧
      t.length ≤ distinctKeys (mapRun n [] (cs.map (·.op ks vs))).2 * (2 * ks + 2) + 2 * ks + 2 * vs + 3) := by
  obtain ⟨es, hr, ht⟩ := h.rep
  have hkl : c.koff + ks ≤ ((c.mem kb vb m).bytes c.kblk).length := by
    have : (c.mem kb vb m).bytes c.kblk = c.w.bytes c.kblk := by simp [MapCall.mem, hc.k1, hc.k2]
    rw [this]; exact hc.kl
  have hlen : (slice ((c.mem kb vb m).bytes c.kblk) c.koff ks).length = ks := slice_len hkl
  have hn : (keysOf map (c.mem kb vb m) kb ko ks).length = distinctKeys (mapRun n [] (cs.map (·.op ks vs))).2 := by
    rw [ht.count]
    unfold keysOf
    rw [List.length_map, List.length_range', hr.size]; rfl
  have hs := Map.searchSteps_le (key := slice ((c.mem kb vb m).bytes c.kblk) c.koff ks) (keysOf map (c.mem kb vb m) kb ko ks)
  rw [hlen, hn] at hs
  have h1 := hr.ks_lt
  have h2 := hr.vs_lt
  have h0 := hr.ks_pos
  constructor
  · obtain ⟨map2, m2, es2, g1, -⟩ := map_step hr rfl ht { c with kind := .get } ⟨hc.k1, hc.k2, hc.v1, hc.v2, hc.kl, hc.vl⟩
    simp only [MapCall.exec] at g1
    cases hg : Map.getValue (some map) (ptr c.kblk c.koff) (ptr c.vblk c.voff) (c.mem kb vb m) with
    | ub e => rw [show MapCall.mem { c with kind := .get } kb vb m = c.mem kb vb m from rfl, hg] at g1; cases g1
    | ok r m' =>
      rw [← Map.erase_getValue] at hg
      obtain ⟨t, hg⟩ := T.of_erase hg
      refine ⟨r, t, m', hg, ?_⟩
      rw [C136_lookup hr.hk hr.hks hr.hvs h0 h1 h2 hkl hg]
      split <;> omega
  · obtain ⟨map2, m2, es2, g1, -⟩ := map_step hr rfl ht { c with kind := .ins } ⟨hc.k1, hc.k2, hc.v1, hc.v2, hc.kl, hc.vl⟩
    simp only [MapCall.exec] at g1
    cases hg : Map.insert (some map) (ptr c.kblk c.koff) (ptr c.vblk c.voff) (c.mem kb vb m) with
    | ub e => rw [show MapCall.mem { c with kind := .ins } kb vb m = c.mem kb vb m from rfl, hg] at g1; cases g1
    | ok r m' =>
      rw [← Map.erase_insert] at hg
      obtain ⟨t, hg⟩ := T.of_erase hg
      refine ⟨r, t, m', hg, ?_⟩
      rw [C136_insert hr.hk hr.hks hr.hvs h0 h1 h2 hkl hg]
      split
      · omega
      · split <;> omega

end map

/-- Lemma support: the number of steps of a call, if it ends. -/
def stepsOf {α : Type} (r : Res (α × List Leak)) : Option Nat := (observed r).map (·.2.length)

/-- Non-vacuity: a queue of two one-byte elements. -/
example :
    let q := fun n => ({ capacity := 2, front := 0, rear := 1, size := n, element_size := 1, buffer := ptr 0 0 } : Queue.Queue)
    stepsOf (Queue.enqueueT (some (q 1)) (some (ptr 1 0)) (leakPQ 5 0 0)) = some 3 ∧
    stepsOf (Queue.enqueueT (some (q 2)) (some (ptr 1 0)) (leakPQ 5 0 0)) = some 1 ∧
    stepsOf (Queue.dequeueT (some (q 1)) (some (ptr 1 0)) (leakPQ 5 0 0)) = some 3 ∧
    stepsOf (Queue.rearT (some (q 0)) (some (ptr 1 0)) (leakPQ 5 0 0)) = some 1 := by
  refine ⟨?_, ?_, ?_, ?_⟩ <;> decide +kernel

/-- Non-vacuity: a priority queue of two one-byte elements; the worst cases (17 for the dequeue, 20 for the enqueue) are
reached. -/
example : stepsOf (PQ.dequeueT (leakQ 2) (ptr 1 0) (leakPQ 5 7 3)) = some 17 ∧
    stepsOf (PQ.dequeueT (leakQ 2) (ptr 1 0) (leakPQ 5 3 7)) = some 12 ∧
    stepsOf (PQ.enqueueT (leakQ 2) (ptr 1 0) 9 (leakPQ 5 3 7)) = some 20 ∧
    stepsOf (PQ.enqueueT (leakQ 2) (ptr 1 0) 9 (leakPQ 5 7 3)) = some 15 ∧
    stepsOf (PQ.enqueueT (leakQ 2) (ptr 1 0) 3 (leakPQ 5 7 3)) = some 11 ∧
    stepsOf (PQ.enqueueT (leakQ 1) (ptr 1 0) 9 (leakPQ 5 7 3)) = some 4 := by
  refine ⟨?_, ?_, ?_, ?_, ?_, ?_⟩ <;> decide +kernel

/-- Non-vacuity: after two offers to two places a dequeue and a further offer. -/
example : ∃ os q m, PQReach 2 1 0 0 0 [exPCall (.enq 5) 1, exPCall (.enq 3) 2] os q m ∧
    stored q m 0 0 0 1 = [(5, [1]), (3, [2])] := by
  have hv : ∀ c ∈ [exPCall (.enq 5) 1, exPCall (.enq 3) 2], c.Valid 0 (1#32).toNat := by
    intro c hc
    simp only [List.mem_cons, List.not_mem_nil, or_false] at hc
    rcases hc with rfl | rfl <;> exact ex_valid _ _
  cases he : pqExecAll 0 0 1 exPQ2 exMem [exPCall (.enq 5) 1, exPCall (.enq 3) 2] with
  | none =>
    have : (pqExecAll 0 0 1 exPQ2 exMem [exPCall (.enq 5) 1, exPCall (.enq 3) 2]).isSome = true := by decide +kernel
    rw [he] at this; cases this
  | some r =>
    obtain ⟨os, q, m⟩ := r
    refine ⟨os, q, m, ⟨⟨exPQ0, _, exMem, rfl, by decide, by decide, he⟩, by decide, hv⟩, ?_⟩
    have : (pqExecAll 0 0 1 exPQ2 exMem [exPCall (.enq 5) 1, exPCall (.enq 3) 2]).map (fun r => stored r.2.1 r.2.2 0 0 0 1) =
      some [(5, [1]), (3, [2])] := by decide +kernel
    rw [he] at this
    simpa using this

/-- Non-vacuity: a map of two-byte keys; the key compared with `[1, 2]` and found second. -/
example :
    let map : Map.MapT := ⟨ptr 0 0, ptr 0 4, 2, 1, 2, 2⟩
    let f := fun k => stepsOf (Map.getValueT (some map) (ptr 1 0) (ptr 1 2) (mem2 [1, 2, 1, 3, 10, 11] k))
    f [1, 3, 0] = some (searchSteps [1, 3] [[1, 2], [1, 3]] + 1 + 2) ∧ f [1, 3, 0] = some 15 ∧ f [9, 9, 0] = some 10 ∧
    stepsOf (Map.insertT (some map) (ptr 1 0) (ptr 1 2) (mem2 [1, 2, 1, 3, 10, 11] [9, 9, 0])) = some 11 := by
  refine ⟨?_, ?_, ?_, ?_⟩ <;> decide +kernel

/-! ### C137: ciphers, checksums and Base64 -/

/-- C137: ChaCha20 takes the same number of steps for all keys, nonces and texts of a length. -/
theorem C137_chacha {ks : Nat} {p : Ptr} {len : U32} {k n : Ptr} {inc : U32} {r : Ptr} {m m' : Mem} {v : Unit} {t : List Leak}
    (h : ChaCha.cryptT ks p len k n inc r m = .ok (v, t) m') : t.length = chachaSteps len.toNat :=
  ChaCha.takes_crypt ks p len k n inc r m v t m' h

/-- C137: every checksum takes a number of steps given by the length and the two kinds of reflection. -/
theorem C137_crc {p : Ptr} {len : U32} {ro ri fx : Bool} {m m' : Mem} {t : List Leak} :
    (∀ {tab : List Byte} {i x v : Byte}, Crc.base8T tab p len i x ro ri fx m = .ok (v, t) m' → t.length = crcSteps 8 len.toNat ri ro) ∧
    (∀ {tab : List U16} {i x v : U16}, Crc.base16T tab p len i x ro ri fx m = .ok (v, t) m' → t.length = crcSteps 16 len.toNat ri ro) ∧
    (∀ {tab : List U32} {i x v : U32}, Crc.base32T tab p len i x ro ri fx m = .ok (v, t) m' → t.length = crcSteps 32 len.toNat ri ro) :=
  ⟨fun h => Crc.takes_base8 _ _ _ _ _ _ _ _ _ _ _ _ h, fun h => Crc.takes_base16 _ _ _ _ _ _ _ _ _ _ _ _ h,
    fun h => Crc.takes_base32 _ _ _ _ _ _ _ _ _ _ _ _ h⟩

/-- C137: a successful Base64 encoding takes a number of steps given by the length; a failed one takes at most as many. -/
theorem C137_base64 {L M : SizeT} {a b : Ptr} {m m' : Mem} {r : Int} {t : List Leak} (h : Base64.encodeT a L b M m = .ok (r, t) m') :
    t.length ≤ base64Steps L.toNat ∧ (r = 0 → t.length = base64Steps L.toNat) := Base64.encode_cost h

/-- C137: both directions of the Caesar cipher take the same number of steps, given by the kinds of the characters, and no
shift changes it. -/
theorem C137_caesar {b o : Nat} {sh : Byte} {m m' : Mem} {s : List Byte} (hs : CStr (m.bytes b) o s) {v : Unit} {t : List Leak}
    (h : Caesar.encryptT (ptr b o) sh m = .ok (v, t) m' ∨ Caesar.decryptT (ptr b o) sh m = .ok (v, t) m') :
    t.length = caesarSteps s ∧ t.length ≤ 13 * s.length + 2 := by
  have e : t.length = caesarSteps s := by
    rcases h with h | h
    · rw [Caesar.encrypt_shows hs h, Caesar.textTr_length]
    · rw [Caesar.decrypt_shows hs h, Caesar.textTr_length]
  exact ⟨e, e ▸ Caesar.caesarSteps_le s⟩

section vernam
variable {bm om bk ok : Nat} {m m' : Mem} {s : List Byte} {a : Bool} {t : List Leak}

/-- C137: the Vernam cipher with a key of the length of the text takes a number of steps given by the kinds of the
characters of the text and by whether those of the key are at least 97; decryption takes one more for every letter; which
letters they are does not matter. -/
theorem C137_vernam {cs : Bool} {n : U32} (hb : bm ≠ bk) (hs : CStr (m.bytes bm) om s) (hn : n.toInt = s.length)
    (hk : ok + s.length ≤ (m.bytes bk).length) :
    (Vernam.encryptT (ptr bm om) (ptr bk ok) n m = .ok (a, t) m' → t.length = vernamSteps 0 s (slice (m.bytes bk) ok s.length)) ∧
    (Vernam.decryptT cs (ptr bm om) (ptr bk ok) n m = .ok (a, t) m' → t.length = vernamSteps 1 s (slice (m.bytes bk) ok s.length)) := by
  have hc : BitVec.ofNat 32 s.length = n := by
    apply BitVec.eq_of_toNat_eq
    have h0 := n.isLt
    rw [BitVec.toInt] at hn
    rw [BitVec.toNat_ofNat]
    split at hn <;> omega
  have hn2 : n.toInt.toNat = s.length := by rw [hn]; rfl
  have g1 : ∀ j : Nat, j < s.length → (m.bytes bm)[om + 0 + j]? = s[j]? := fun j hj => by
    rw [Nat.add_zero]; exact hs.get (by omega)
  have g2 : ∀ j : Nat, j < s.length → (m.bytes bk)[ok + 0 + j]? = (slice (m.bytes bk) ok s.length)[j]? := fun j hj => by
    rw [getElem?_slice, if_pos hj, Nat.add_zero]
  constructor
  · intro h
    unfold Vernam.encryptT at h
    obtain ⟨l, t3, m3, r3, h3, x3, rfl⟩ := bind_cases h
    obtain ⟨h5, rfl⟩ := Vernam.strlenT_cases h3
    rw [strlen_ok hs] at h5
    cases h5
    obtain ⟨r5, x5, rfl⟩ := Vernam.branch_exact x3
    rw [if_pos (decide_eq_true hc), hn2] at x5
    obtain ⟨_, t7, m7, r7, h7, x7, rfl⟩ := bind_cases x5
    obtain ⟨-, -, rfl⟩ := pure_cases x7
    have := Vernam.loop_length hb (f := fun _ _ => []) (e := 0) (fun _ _ => rfl) (fun h => Vernam.encryptRound_cases h) s
      (slice_len hk) g1 g2 h7
    simp only [List.length_append, List.length_cons, List.length_nil, List.length_map, List.length_range]
    omega
  · intro h
    unfold Vernam.decryptT at h
    obtain ⟨l, t3, m3, r3, h3, x3, rfl⟩ := bind_cases h
    obtain ⟨h5, rfl⟩ := Vernam.strlenT_cases h3
    rw [strlen_ok hs] at h5
    cases h5
    obtain ⟨r5, x5, rfl⟩ := Vernam.branch_exact x3
    rw [if_pos (decide_eq_true hc), hn2] at x5
    obtain ⟨_, t7, m7, r7, h7, x7, rfl⟩ := bind_cases x5
    obtain ⟨-, -, rfl⟩ := pure_cases x7
    have := Vernam.loop_length hb (f := fun c k => [.branch (Vernam.negative cs c k)]) (e := 1) (fun _ _ => rfl)
      (fun h => Vernam.decryptRound_cases h) s (slice_len hk) g1 g2 h7
    simp only [List.length_append, List.length_cons, List.length_nil, List.length_map, List.length_range]
    omega

/-- C137: a refused Vernam call takes the steps of measuring the text and two more. -/
theorem C137_vernam_refused {cs : Bool} {n : U32} {key : Ptr} (hs : CStr (m.bytes bm) om s) (hn : BitVec.ofNat 32 s.length ≠ n)
    (h : Vernam.encryptT (ptr bm om) key n m = .ok (a, t) m' ∨ Vernam.decryptT cs (ptr bm om) key n m = .ok (a, t) m') :
    t.length = s.length + 2 ∧ a = false := by
  rcases h with h | h
  all_goals
    obtain ⟨l, t3, m3, r3, h3, x3, rfl⟩ := bind_cases h
    obtain ⟨h5, rfl⟩ := Vernam.strlenT_cases h3
    rw [strlen_ok hs] at h5
    cases h5
    obtain ⟨r5, x5, rfl⟩ := Vernam.branch_exact x3
    rw [if_neg (by simpa using hn)] at x5
    obtain ⟨rfl, -, rfl⟩ := pure_cases x5
    simp

end vernam

/-- Non-vacuity. -/
example :
    let f := fun k => stepsOf (Vernam.encryptT (ptr 0 0) (ptr 1 0) 3 (mem2 (ascii "aB-" ++ [0]) (ascii k)))
    f "XYZ" = some (16 + 15 + 7 + 3) ∧ f "xYz" = some (17 + 15 + 7 + 3) ∧
    stepsOf (Vernam.decryptT true (ptr 0 0) (ptr 1 0) 3 (mem2 (ascii "aB-" ++ [0]) (ascii "xYz"))) = some (18 + 16 + 7 + 3) ∧
    stepsOf (Vernam.decryptT true (ptr 0 0) (ptr 1 0) 4 (mem2 (ascii "aB-" ++ [0]) (ascii "xYz"))) = some 5 := by
  refine ⟨?_, ?_, ?_, ?_⟩ <;> decide +kernel
example : stepsOf (Caesar.encryptT (ptr 0 0) 3 (mem1 (ascii "aB-" ++ [0]))) = some (13 + 12 + 7 + 2) := by decide +kernel
example :
    let f := fun n M => stepsOf (Base64.encodeT (ptr 0 0) n (ptr 1 0) M (mem2 [1, 2, 3, 4, 5] (List.replicate 9 0)))
    f 3 8 = some 20 ∧ f 4 8 = some 30 ∧ f 5 8 = some 33 ∧ f 5 7 = some 21 ∧ f 5 3 = some 5 := by
  refine ⟨?_, ?_, ?_, ?_, ?_⟩ <;> decide +kernel
example : stepsOf (Crc.base8T ((List.range 256).map (BitVec.ofNat 8)) (ptr 0 0) 2 0 0 true true false (mem1 [1, 2])) = some (2 * 21 + 17 + 3) ∧
    crcSteps 8 2 true true = 62 := by
  refine ⟨?_, ?_⟩ <;> decide +kernel
example : ∃ t m', ChaCha.cryptT 9 (ptr 2 0) 65 (ptr 0 0) (ptr 1 0) 1 (ptr 3 0) (leakMem 1 2 3) = .ok ((), t) m' ∧ t.length = 591 := by
  obtain ⟨m', h1, -⟩ := C47_rfc8439 (m := leakMem 1 2 3) (ks := 9) 65#32 1
    (⟨by simp [leakMem], by simp [leakMem], by simp [leakMem], by simp [leakMem], .inl (by decide), .inl (by decide),
      .inl (by decide), by decide, by decide, by decide, by decide⟩ : ChaCha.Args (leakMem 1 2 3) 9 2 0 0 0 1 0 3 0 (65#32).toNat)
  obtain ⟨t, ht⟩ := C96_total h1
  exact ⟨t, m', ht, C137_chacha ht⟩

end IMU.Props
