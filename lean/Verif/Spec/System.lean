import Verif.Spec.QueueCalls
import Verif.Spec.PriorityQueueCalls
import Verif.Spec.MapCalls

/-!
# Several containers in one memory

Any number of queues, priority queues and maps share one memory; calls on them are interleaved in any order.
-/

namespace IMU.Props
open Spec

/-- Parameters and storage of one container. -/
inductive Layout where
  /-- capacity, element size, byte object and offset of the buffer -/
  | queue (cap es : U32) (bb bo : Nat)
  /-- the same and the `uint32_t` array of the priorities -/
  | pq (cap es : U32) (bb bo pa : Nat)
  /-- number of places, key and value size, objects and offsets of the two arrays -/
  | map (n ks vs kb ko vb vo : Nat)

/-- The byte objects that hold the storage. -/
def Layout.bytes : Layout → List Nat
  | .queue _ _ bb _ => [bb]
  | .pq _ _ bb _ _ => [bb]
  | .map _ _ _ kb _ vb _ => [kb, vb]

/-- The `uint32_t` array objects that hold the storage. -/
def Layout.words : Layout → List Nat
  | .pq _ _ _ _ pa => [pa]
  | _ => []

/-- The caller's structure for a container. -/
inductive Container where
  | queue (q : Queue.Queue)
  | pq (q : PQ.PQueue)
  | map (m : Map.MapT)

/-- A function of the API and the addresses of its arguments. -/
inductive Request where
  | queue (k : QKind) (blk off : Nat)
  | pq (k : PQKind) (blk off : Nat)
  | map (k : MapKind) (kblk koff vblk voff : Nat)

/-- One call in a history: container number `i`, the request, and the caller's memory `w` at the time of the call,
which is arbitrary apart from the storage of the containers. -/
structure SysCall where
  i : Nat
  req : Request
  w : Mem

/-- Status and delivered bytes. -/
abbrev SysObs := Bool × Option (List Byte)

/-- Memory at a call: the caller's, with the storage objects of all containers as the last call left them. -/
def sysMem (ls : List Layout) (w m : Mem) : Mem :=
  ⟨fun b => if b ∈ ls.flatMap Layout.bytes then m.bytes b else w.bytes b,
   fun b => if b ∈ ls.flatMap Layout.words then m.words b else w.words b⟩

/-- Run one API function in the memory `m`; `none` is undefined behaviour (or a request for another kind of
container). -/
def Request.exec : Request → Layout → Container → Mem → Option (SysObs × Container × Mem)
  | .queue k blk off, .queue _ es bb _, .queue q, m =>
    ((QCall.mk k m blk off).exec bb es.toNat q m).map fun r => (r.1, .queue r.2.1, r.2.2)
  | .pq k blk off, .pq _ es bb _ pa, .pq q, m =>
    ((PQCall.mk k m blk off).exec bb pa es.toNat q m).map fun r => (r.1, .pq r.2.1, r.2.2)
  | .map k kblk koff vblk voff, .map _ _ vs kb _ vb _, .map q, m =>
    match (MapCall.mk k m kblk koff vblk voff).exec kb vb vs q m with
    | .ok r => some (r.1, .map r.2.1, r.2.2)
    | .error _ => none
  | _, _, _, _ => none

/-- Run a history on the containers `cs` with layouts `ls`: the observations, in order, each with the number of its
container. -/
def sysAll (ls : List Layout) : List Container → Mem → List SysCall → Option (List (Nat × SysObs) × List Container × Mem)
  | cs, m, [] => some ([], cs, m)
  | cs, m, c :: rest =>
    match ls[c.i]?, cs[c.i]? with
    | some l, some k =>
      match c.req.exec l k (sysMem ls c.w m) with
      | none => none
      | some (o, k', m') =>
        match sysAll ls (cs.set c.i k') m' rest with
        | none => none
        | some (os, cs', m'') => some ((c.i, o) :: os, cs', m'')
    | _, _ => none

/-- `n` valid bytes at `blk`, `off` that belong to no container. -/
def ArgOk (ls : List Layout) (w : Mem) (blk off n : Nat) : Prop :=
  blk ∉ ls.flatMap Layout.bytes ∧ off + n ≤ (w.bytes blk).length

/-- The request fits the container and its arguments are valid. -/
def SysCall.Valid (ls : List Layout) (c : SysCall) : Prop :=
  match ls[c.i]?, c.req with
  | some (.queue _ es _ _), .queue _ blk off => ArgOk ls c.w blk off es.toNat
  | some (.pq _ es _ _ _), .pq _ blk off => ArgOk ls c.w blk off es.toNat
  | some (.map _ ks vs _ _ _ _), .map _ kblk koff vblk voff => ArgOk ls c.w kblk koff ks ∧ ArgOk ls c.w vblk voff vs
  | _, _ => False

/-- The container comes from a successful initialisation, the documented sizes fit, and the storage is large enough. -/
def Ready (m : Mem) : Layout → Container → Prop
  | .queue cap es bb bo, .queue q =>
    (∃ q0 m1 m2, Queue.init (some q0) cap es (some (ptr bb bo)) m1 = .ok (true, some q) m2) ∧
    (cap.toNat - 1) * es.toNat < 2 ^ 32 ∧ bo + cap.toNat * es.toNat ≤ (m.bytes bb).length
  | .pq cap es bb bo pa, .pq q =>
    (∃ q0, PQ.init (some q0) cap es (some ⟨pa, ptr bb bo⟩) = (true, some q)) ∧
    (cap.toNat - 1) * es.toNat < 2 ^ 32 ∧ bo + cap.toNat * es.toNat ≤ (m.bytes bb).length ∧
    cap.toNat ≤ (m.words pa).length
  | .map n ks vs kb ko vb vo, .map q =>
    (∃ q0 m1 m2, Map.init (some q0) (some (ptr kb ko)) (some (ptr vb vo)) ks vs n m1 = .ok (true, some q) m2) ∧
    (n < 2 ^ 31 ∧ ks < 2 ^ 31 ∧ vs < 2 ^ 31 ∧ (n - 1) * ks < 2 ^ 31 ∧ (n - 1) * vs < 2 ^ 31) ∧
    ko + n * ks ≤ (m.bytes kb).length ∧ vo + n * vs ≤ (m.bytes vb).length ∧
    (kb ≠ vb ∨ ko + n * ks ≤ vo ∨ vo + n * vs ≤ ko)
  | _, _ => False

/-- The storage of any two containers is in different objects. -/
def Apart (ls : List Layout) : Prop :=
  ∀ (i j : Nat) (l l' : Layout), ls[i]? = some l → ls[j]? = some l' → i ≠ j →
    (∀ b ∈ l.bytes, b ∉ l'.bytes) ∧ (∀ b ∈ l.words, b ∉ l'.words)

/-- The ideal operation behind a request (with the caller's memory at the call) to a queue. -/
def queueOp (es : U32) : Request × Mem → Option QOp
  | (.queue k blk off, w) => some ((QCall.mk k w blk off).op es.toNat)
  | _ => none

/-- The same for a priority queue. -/
def pqOp (es : U32) : Request × Mem → Option PQOp
  | (.pq k blk off, w) => some ((PQCall.mk k w blk off).op es.toNat)
  | _ => none

/-- The same for a map. -/
def mapOp (ks vs : Nat) : Request × Mem → Option MapOp
  | (.map k kblk koff vblk voff, w) => some ((MapCall.mk k w kblk koff vblk voff).op ks vs)
  | _ => none

/-- What one container alone should show: the observations `os` are those of the ideal container for the requests
`rs`. -/
def Ideal : Layout → List (Request × Mem) → List SysObs → Prop
  | .queue cap es _ _, rs, os => os = fifoRun cap.toNat [] (rs.filterMap (queueOp es))
  | .pq cap es _ _ _, rs, os => ∃ out xs, PQRun cap.toNat [] (rs.filterMap (pqOp es)) os out xs
  | .map n ks vs _ _ _ _, rs, os => os = (mapRun n [] (rs.filterMap (mapOp ks vs))).1

/-- The requests of a history to container `i`. -/
def requestsTo (i : Nat) (h : List SysCall) : List (Request × Mem) :=
  (h.filter fun c => c.i == i).map fun c => (c.req, c.w)

/-- The observations made at container `i`. -/
def observedAt (i : Nat) (os : List (Nat × SysObs)) : List SysObs := (os.filter fun o => o.1 == i).map (·.2)

/-- Addresses of the arguments. -/
def Request.blocks : Request → List Nat
  | .queue _ blk _ => [blk]
  | .pq _ blk _ => [blk]
  | .map _ kblk _ vblk _ => [kblk, vblk]

/-- The same request with the same contents of the objects it names. -/
def SameRequest (a b : Request × Mem) : Prop := a.1 = b.1 ∧ ∀ x ∈ a.1.blocks, a.2.bytes x = b.2.bytes x

end IMU.Props
