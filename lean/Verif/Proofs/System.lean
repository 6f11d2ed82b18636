import Verif.Spec.System
import Verif.Proofs.QueueHistory
import Verif.Proofs.PriorityQueueHistory
import Verif.Proofs.MapHistory

/-! # Several containers in one memory: proofs -/

namespace IMU.Props
open Spec

/-- Abstract content of a container. -/
inductive Abs where
  | queue (xs : List (List Byte))
  | pq (xs : List PItem)
  | map (log : List (Bytes × Bytes))

def Inv : Layout → Container → Mem → Abs → Prop
  | .queue cap es bb bo, .queue q, m, .queue xs => Queue.Rep cap.toNat es.toNat bb bo q m xs
  | .pq cap es bb bo pa, .pq q, m, .pq xs => PQ.Rep cap.toNat es.toNat bb bo pa q m xs
  | .map n ks vs kb ko vb vo, .map q, m, .map log =>
    ∃ es, Map.Rep n ks vs n kb ko vb vo q m es ∧ Map.Tracks log es
  | _, _, _, _ => False

def IdealFrom : Layout → Abs → List (Request × Mem) → List SysObs → Prop
  | .queue cap es _ _, .queue xs, rs, os => os = fifoRun cap.toNat xs (rs.filterMap (queueOp es))
  | .pq cap es _ _ _, .pq xs, rs, os => ∃ out ys, PQRun cap.toNat xs (rs.filterMap (pqOp es)) os out ys
  | .map n ks vs _ _ _ _, .map log, rs, os => os = (mapRun n log (rs.filterMap (mapOp ks vs))).1
  | _, _, _, _ => False

def start : Layout → Abs
  | .queue .. => .queue []
  | .pq .. => .pq []
  | .map .. => .map []

theorem idealFrom_start (l : Layout) (rs : List (Request × Mem)) (os : List SysObs) :
    IdealFrom l (start l) rs os = Ideal l rs os := by cases l <;> rfl

/-- Inv only looks at the container's own storage. -/
theorem Inv.of_eq {l : Layout} {k : Container} {m m' : Mem} {A : Abs} (h : Inv l k m A)
    (hb : ∀ b ∈ l.bytes, m'.bytes b = m.bytes b) (hw : ∀ b ∈ l.words, m'.words b = m.words b) : Inv l k m' A := by
  cases l <;> cases k <;> cases A <;> try exact h.elim
  · exact Queue.Rep.of_eq h (hb _ (by simp [Layout.bytes]))
  · exact PQ.Rep.of_eq h (hb _ (by simp [Layout.bytes])) (hw _ (by simp [Layout.words]))
  · obtain ⟨es, h1, h2⟩ := h
    exact ⟨es, h1.of_eq (hb _ (by simp [Layout.bytes])) (hb _ (by simp [Layout.bytes])), h2⟩

theorem ready_inv {m : Mem} {l : Layout} {k : Container} (h : Ready m l k) : Inv l k m (start l) := by
  cases l <;> cases k <;> try exact h.elim
  · rename_i cap es bb bo q
    obtain ⟨⟨q0, m1, m2, h1⟩, h2, h3⟩ := h
    have h1' : ∃ m2, Queue.init (some q0) cap es (some (ptr bb bo)) m = .ok (true, some q) m2 := by
      unfold Queue.init at h1 ⊢
      simp only at h1 ⊢
      split at h1
      · rename_i hc
        rw [if_pos hc]
        simp only [C.pure_run, Res.ok.injEq, Prod.mk.injEq, Option.some.injEq, true_and] at h1
        exact ⟨m, by simp only [C.pure_run, h1.1]⟩
      · simp at h1
    obtain ⟨m2, h1⟩ := h1'
    exact (Queue.init_rep _ _ _ _ _ _ _ _ h1 h2 h3).2
  · obtain ⟨⟨q0, h1⟩, h2, h3, h4⟩ := h
    exact pq_init h1 h2 h3 h4
  · obtain ⟨⟨q0, m1, m2, h1⟩, ⟨h2, h3, h4, h5, h6⟩, h7, h8, h9⟩ := h
    simp only [Map.init] at h1
    split at h1
    · rename_i hc
      simp only [C.pure_run, Res.ok.injEq, Prod.mk.injEq, Option.some.injEq, true_and] at h1
      obtain ⟨rfl, rfl⟩ := h1
      refine ⟨[], ?_, tracks_nil⟩
      exact { hk := rfl, hv := rfl, hks := rfl, hvs := rfl, hmx := rfl, ks_pos := by omega, vs_pos := by omega,
              ks_lt := h3, vs_lt := h4, n_lt := h2, limk := h5, limv := h6, klen := h7, vlen := h8, apart := h9,
              size := rfl, size_le := by simp, ck := by simp, cv := by simp, nodup := by simp }
    · simp at h1

/-- The arguments are valid in the memory `w` and outside the container's own storage. -/
def Request.Fits (w : Mem) : Layout → Request → Prop
  | .queue _ es bb _, .queue _ blk off => blk ≠ bb ∧ off + es.toNat ≤ (w.bytes blk).length
  | .pq _ es bb _ _, .pq _ blk off => blk ≠ bb ∧ off + es.toNat ≤ (w.bytes blk).length
  | .map _ ks vs kb _ vb _, .map _ kblk koff vblk voff =>
    (kblk ≠ kb ∧ kblk ≠ vb ∧ koff + ks ≤ (w.bytes kblk).length) ∧
    (vblk ≠ kb ∧ vblk ≠ vb ∧ voff + vs ≤ (w.bytes vblk).length)
  | _, _ => False

theorem bytes_ext {m m' : Mem} {x : Nat} (h : ∀ i : Nat, (m'.bytes x)[i]? = (m.bytes x)[i]?) : m'.bytes x = m.bytes x :=
  List.ext_getElem? h

/-- One call on one container. -/
theorem container_step {l : Layout} {k : Container} {m : Mem} {A : Abs} (h : Inv l k m A) (r : Request) (w : Mem)
    (hf : r.Fits m l) (hw : ∀ b ∈ r.blocks, m.bytes b = w.bytes b) :
    ∃ o k' m' A', r.exec l k m = some (o, k', m') ∧ Inv l k' m' A' ∧
      (∀ rs os, IdealFrom l A' rs os → IdealFrom l A ((r, w) :: rs) (o :: os)) ∧
      (∀ b, b ∉ l.bytes → b ∉ r.blocks → m'.bytes b = m.bytes b) ∧ (∀ b, b ∉ l.words → m'.words b = m.words b) := by
  cases l with
  | queue cap es bb bo =>
    cases r <;> try exact hf.elim
    cases k <;> cases A <;> try exact h.elim
    rename_i kind blk off q xs
    have hb : m.bytes blk = w.bytes blk := hw _ (by simp [Request.blocks])
    have hop : (QCall.mk kind m blk off).op es.toNat = (QCall.mk kind w blk off).op es.toNat := by
      cases kind <;> simp only [QCall.op, hb]
    have hmem : (QCall.mk kind m blk off).mem bb m = m := by
      simp only [QCall.mem, ite_self]
    obtain ⟨q', m', h1, h2, h3⟩ := exec_step h (QCall.mk kind m blk off) hf
    rw [hmem] at h3
    rw [hop] at h1 h2
    refine ⟨_, .queue q', m', .queue _, by simp only [Request.exec, h1, Option.map_some]; rfl, h2, ?_, ?_, ?_⟩
    · intro rs os hi
      simp only [IdealFrom] at hi ⊢
      simp only [List.filterMap_cons, queueOp, fifoRun, hi]
    · intro b hb1 hb2
      simp only [Layout.bytes, Request.blocks, List.mem_singleton] at hb1 hb2
      cases kind <;> simp only [QCall.Frame] at h3
      · exact h3.2.1 b hb1
      · exact h3.2.1 b hb2
      · exact h3.2.1 b hb2
      · exact h3.2.1 b hb2
      · rw [h3]
      · rw [h3]
    · intro b _
      cases kind <;> simp only [QCall.Frame] at h3
      · rw [h3.1]
      · rw [h3.1]
      · rw [h3.1]
      · rw [h3.1]
      · rw [h3]
      · rw [h3]
  | pq cap es bb bo pa =>
    cases r <;> try exact hf.elim
    cases k <;> cases A <;> try exact h.elim
    rename_i kind blk off q xs
    have hb : m.bytes blk = w.bytes blk := hw _ (by simp [Request.blocks])
    have hop : (PQCall.mk kind m blk off).op es.toNat = (PQCall.mk kind w blk off).op es.toNat := by
      cases kind <;> simp only [PQCall.op, hb]
    have hmem : (PQCall.mk kind m blk off).mem bb pa m = m := by
      simp only [PQCall.mem, ite_self]
    obtain ⟨o, q', m', out, xs', h1, h2, h3, h4⟩ := pq_step h (PQCall.mk kind m blk off) hf
    rw [hmem] at h4
    rw [hop] at h2
    refine ⟨o, .pq q', m', .pq xs', by simp only [Request.exec, h1, Option.map_some], h3, ?_, ?_, ?_⟩
    · rintro rs os ⟨out', ys, hi⟩
      exact ⟨_, ys, .cons h2 hi⟩
    · intro b hb1 hb2
      simp only [Layout.bytes, Request.blocks, List.mem_singleton] at hb1 hb2
      cases kind <;> simp only [PQCall.Frame] at h4
      · exact bytes_ext fun i => h4.2.2.2.2 b i (fun h => hb1 h.1) (fun h => by omega)
      · exact bytes_ext fun i => h4.2.2.2.2 b i (fun h => hb1 h.1) (fun h => hb2 h.1)
      · rw [h4]
    · intro b hb1
      simp only [Layout.words, List.mem_singleton] at hb1
      cases kind <;> simp only [PQCall.Frame] at h4
      · exact h4.1 b hb1
      · exact h4.1 b hb1
      · rw [h4]
  | map n ks vs kb ko vb vo =>
    cases r <;> try exact hf.elim
    cases k <;> cases A <;> try exact h.elim
    rename_i kind kblk koff vblk voff q log
    obtain ⟨es, h, ht⟩ := h
    have hb : m.bytes kblk = w.bytes kblk := hw _ (by simp [Request.blocks])
    have hb' : m.bytes vblk = w.bytes vblk := hw _ (by simp [Request.blocks])
    have hop : (MapCall.mk kind m kblk koff vblk voff).op ks vs = (MapCall.mk kind w kblk koff vblk voff).op ks vs := by
      cases kind <;> simp only [MapCall.op, MapCall.key, hb, hb']
    have hmem : (MapCall.mk kind m kblk koff vblk voff).mem kb vb m = m := by
      simp only [MapCall.mem, ite_self]
    obtain ⟨⟨k1, k2, k3⟩, v1, v2, v3⟩ := hf
    obtain ⟨q', m', es', h1, h2, h3, h4⟩ := map_step h rfl ht (MapCall.mk kind m kblk koff vblk voff)
      ⟨k1, k2, v1, v2, k3, v3⟩
    rw [hmem] at h4
    rw [hop] at h1 h3
    refine ⟨_, .map q', m', .map _, by simp only [Request.exec, h1]; rfl, ⟨es', h2, h3⟩, ?_, ?_, ?_⟩
    · intro rs os hi
      simp only [IdealFrom] at hi ⊢
      simp only [List.filterMap_cons, mapOp, mapRun, hi]
    · intro b hb1 hb2
      simp only [Layout.bytes, Request.blocks, List.mem_cons, List.not_mem_nil, or_false, not_or] at hb1 hb2
      cases kind <;> simp only [MapCall.Frame] at h4
      · exact bytes_ext fun i => h4.2.2 b i (fun h => hb1.1 h.1) (fun h => hb1.2 h.1)
      · exact h4.2.1 b hb2.2
    · intro b _
      cases kind <;> simp only [MapCall.Frame] at h4
      · rw [h4.1]
      · rw [h4.1]

theorem mem_flatMap_of {ls : List Layout} {f : Layout → List Nat} {i : Nat} {l : Layout} (h : ls[i]? = some l) {b : Nat}
    (hb : b ∈ f l) : b ∈ ls.flatMap f := List.mem_flatMap.2 ⟨l, List.mem_of_getElem? h, hb⟩

/-- A valid call fits. -/
theorem valid_fits {ls : List Layout} {c : SysCall} (hv : c.Valid ls) (m : Mem) :
    ∃ l, ls[c.i]? = some l ∧ c.req.Fits (sysMem ls c.w m) l ∧ (∀ b ∈ c.req.blocks, b ∉ ls.flatMap Layout.bytes) := by
  unfold SysCall.Valid at hv
  have key : ∀ {b off n}, ArgOk ls c.w b off n → off + n ≤ ((sysMem ls c.w m).bytes b).length := by
    intro b off n h
    simp only [sysMem, if_neg h.1]; exact h.2
  split at hv
  · rename_i cap es bb bo k blk off hl hr
    refine ⟨_, hl, ?_, ?_⟩
    · rw [hr]
      exact ⟨fun h => hv.1 (h ▸ mem_flatMap_of (f := Layout.bytes) hl (by simp [Layout.bytes])), key hv⟩
    · rw [hr]; intro b hb
      simp only [Request.blocks, List.mem_singleton] at hb
      rw [hb]; exact hv.1
  · rename_i cap es bb bo pa k blk off hl hr
    refine ⟨_, hl, ?_, ?_⟩
    · rw [hr]
      exact ⟨fun h => hv.1 (h ▸ mem_flatMap_of (f := Layout.bytes) hl (by simp [Layout.bytes])), key hv⟩
    · rw [hr]; intro b hb
      simp only [Request.blocks, List.mem_singleton] at hb
      rw [hb]; exact hv.1
  · rename_i n ks vs kb ko vb vo k kblk koff vblk voff hl hr
    refine ⟨_, hl, ?_, ?_⟩
    · rw [hr]
      refine ⟨⟨fun h => hv.1.1 ?_, fun h => hv.1.1 ?_, key hv.1⟩, fun h => hv.2.1 ?_, fun h => hv.2.1 ?_, key hv.2⟩ <;>
        exact h ▸ mem_flatMap_of (f := Layout.bytes) hl (by simp [Layout.bytes])
    · rw [hr]; intro b hb
      simp only [Request.blocks, List.mem_cons, List.not_mem_nil, or_false] at hb
      rcases hb with rfl | rfl
      · exact hv.1.1
      · exact hv.2.1
  · exact hv.elim

/-- Histories. -/
theorem sys_all {ls : List Layout} (hap : Apart ls) (h : List SysCall) : ∀ {cs : List Container} {m : Mem} {A : Nat → Abs},
    (∀ i l, ls[i]? = some l → ∃ k, cs[i]? = some k ∧ Inv l k m (A i)) → (∀ c ∈ h, c.Valid ls) →
    ∃ os cs' m', sysAll ls cs m h = some (os, cs', m') ∧
      ∀ i l, ls[i]? = some l → IdealFrom l (A i) (requestsTo i h) (observedAt i os) := by
  induction h with
  | nil =>
    intro cs m A hinv _
    refine ⟨[], cs, m, rfl, ?_⟩
    intro i l hl
    obtain ⟨k, -, hk⟩ := hinv i l hl
    revert hk
    generalize A i = a
    intro hk
    cases l <;> cases k <;> cases a <;> first | exact hk.elim | skip
    · rfl
    · exact ⟨[], _, .nil⟩
    · rfl
  | cons c h ih =>
    intro cs m A hinv hv
    have hinv' : ∀ i l, ls[i]? = some l → ∃ k, cs[i]? = some k ∧ Inv l k (sysMem ls c.w m) (A i) := by
      intro i l hl
      obtain ⟨k, h1, h2⟩ := hinv i l hl
      refine ⟨k, h1, h2.of_eq (fun b hb => ?_) (fun b hb => ?_)⟩
      · simp only [sysMem, if_pos (mem_flatMap_of (f := Layout.bytes) hl hb)]
      · simp only [sysMem, if_pos (mem_flatMap_of (f := Layout.words) hl hb)]
    obtain ⟨l, hl, hf, hargs⟩ := valid_fits (hv c List.mem_cons_self) m
    obtain ⟨k, hk, hi⟩ := hinv' c.i l hl
    obtain ⟨o, k', m', A', g1, g2, g3, g4, g5⟩ := container_step hi c.req c.w hf (fun b hb => by
      simp only [sysMem, if_neg (hargs b hb)])
    have hnext : ∀ i l', ls[i]? = some l' → ∃ k, (cs.set c.i k')[i]? = some k ∧
        Inv l' k m' (if i = c.i then A' else A i) := by
      intro i l' hl'
      by_cases hic : i = c.i
      · subst hic
        rw [hl] at hl'; cases hl'
        have hlt : c.i < cs.length := (List.getElem?_eq_some_iff.1 hk).1
        exact ⟨k', by rw [List.getElem?_set_self hlt], by rw [if_pos rfl]; exact g2⟩
      · obtain ⟨k2, h1, h2⟩ := hinv' i l' hl'
        refine ⟨k2, by rw [List.getElem?_set_ne (Ne.symm hic)]; exact h1, ?_⟩
        rw [if_neg hic]
        obtain ⟨ha, hb⟩ := hap i c.i l' l hl' hl hic
        refine h2.of_eq (fun b hb1 => g4 b (ha b hb1) (fun hb2 => ?_)) (fun b hb1 => g5 b (hb b hb1))
        exact hargs b hb2 (mem_flatMap_of (f := Layout.bytes) hl' hb1)
    obtain ⟨os, cs', m'', e1, e2⟩ := ih (A := fun i => if i = c.i then A' else A i) hnext
      (fun d hd => hv d (List.mem_cons_of_mem _ hd))
    refine ⟨(c.i, o) :: os, cs', m'', by simp only [sysAll, hl, hk, g1, e1], ?_⟩
    intro i l' hl'
    have := e2 i l' hl'
    by_cases hic : c.i = i
    · subst hic
      rw [hl] at hl'; cases hl'
      simp only [if_pos rfl] at this
      have e := g3 _ _ this
      simpa only [requestsTo, observedAt, List.filter_cons, beq_self_eq_true, if_true, List.map_cons] using e
    · simp only [if_neg (Ne.symm hic)] at this
      have hne : (c.i == i) = false := by simpa using hic
      simpa only [requestsTo, observedAt, List.filter_cons, hne, Bool.false_eq_true, if_false] using this

theorem ideal_congr {l : Layout} {rs rs' : List (Request × Mem)} (h : List.Forall₂ SameRequest rs rs') :
    ∀ {os : List SysObs}, Ideal l rs os → Ideal l rs' os := by
  have key : ∀ {β : Type} (f : Request × Mem → Option β), (∀ a b, SameRequest a b → f a = f b) →
      rs.filterMap f = rs'.filterMap f := by
    intro β f hf
    induction h with
    | nil => rfl
    | cons hab _ ih => simp only [List.filterMap_cons, hf _ _ hab, ih]
  intro os
  have hq : ∀ (es : U32) (a b : Request × Mem), SameRequest a b → queueOp es a = queueOp es b := by
    rintro es ⟨r, w⟩ ⟨r', w'⟩ ⟨h1, h2⟩
    simp only at h1 h2
    subst h1
    cases r with
    | queue k blk off =>
      have := h2 blk (by simp [Request.blocks])
      cases k <;> simp only [queueOp, QCall.op, this]
    | pq => rfl
    | map => rfl
  have hp : ∀ (es : U32) (a b : Request × Mem), SameRequest a b → pqOp es a = pqOp es b := by
    rintro es ⟨r, w⟩ ⟨r', w'⟩ ⟨h1, h2⟩
    simp only at h1 h2
    subst h1
    cases r with
    | pq k blk off =>
      have := h2 blk (by simp [Request.blocks])
      cases k <;> simp only [pqOp, PQCall.op, this]
    | queue => rfl
    | map => rfl
  have hm : ∀ (ks vs : Nat) (a b : Request × Mem), SameRequest a b → mapOp ks vs a = mapOp ks vs b := by
    rintro ks vs ⟨r, w⟩ ⟨r', w'⟩ ⟨h1, h2⟩
    simp only at h1 h2
    subst h1
    cases r with
    | map k kblk koff vblk voff =>
      have e1 := h2 kblk (by simp [Request.blocks])
      have e2 := h2 vblk (by simp [Request.blocks])
      cases k <;> simp only [mapOp, MapCall.op, MapCall.key, e1, e2]
    | queue => rfl
    | pq => rfl
  cases l with
  | queue cap es bb bo => simp only [Ideal]; rw [key _ (hq es)]; exact id
  | pq cap es bb bo pa => simp only [Ideal]; rw [key _ (hp es)]; exact id
  | map n ks vs kb ko vb vo => simp only [Ideal]; rw [key _ (hm ks vs)]; exact id

theorem ideal_det {l : Layout} {rs : List (Request × Mem)} {os os' : List SysObs} (h : Ideal l rs os)
    (h' : Ideal l rs os') : os = os' := by
  cases l with
  | queue => simp only [Ideal] at h h'; rw [h, h']
  | pq =>
    obtain ⟨out, xs, h⟩ := h
    obtain ⟨out', xs', h'⟩ := h'
    exact (pqRun_det h h').1
  | map => simp only [Ideal] at h h'; rw [h, h']

end IMU.Props
