import Verif.Proofs.MapOrder
import Verif.Props.Map

/-!
# Property C130: what a map keeps, and the order of insertions

Src/map.c:41-52, 70-117.
-/

namespace IMU.Props
open Spec Utils IMU.Map

section
variable {n ks vs kb ko vb vo : Nat} {cs : List MapCall} {map : MapT} {m : Mem}

/-- C130: the entries are those of the first `n` different keys offered, in the order of their first insertion. -/
theorem C130_keys (h : MapReach n ks vs kb ko vb vo cs map m) :
    (mapEntries ks vs kb ko vb vo map m).map Prod.fst =
      (firsts ((inserted (cs.map (·.op ks vs))).map Prod.fst)).take n := by
  obtain ⟨map0, map', m0, m', os, hs, hi, hx⟩ := h.start
  obtain ⟨rfl, hr⟩ := map_init_rep hs hi
  obtain ⟨os', map2, m2, es, g1, g2, g3⟩ := order_all (pre := []) cs hr tracks_nil (by simp [inserted, firsts]) h.valid
  rw [hx] at g1
  simp only [Except.ok.injEq, Prod.mk.injEq] at g1
  obtain ⟨-, rfl, rfl⟩ := g1
  rw [entries_eq g2, g3]; rfl

theorem kept_eq (n : Nat) (ops : List MapOp) (k : Bytes) : latest (mapRun n [] ops).2 k = kept n ops k := by
  rw [log_eq, latest_filter (inserted ops) (fun k => decide (k ∈ (firsts ((inserted ops).map Prod.fst)).take n)) k, kept]
  simp only [decide_eq_true_eq]

/-- C130: a lookup finds a key exactly if it is among the first `n` different keys offered, and delivers the last value
offered for it - also one offered after the map was full. -/
theorem C130_lookup (h : MapReach n ks vs kb ko vb vo cs map m) (c : MapCall) (hc : c.Valid kb vb ks vs)
    (hk : c.kind = .get) : ∃ m', c.exec kb vb vs map m =
      .ok (((kept n (cs.map (·.op ks vs)) (c.key ks)).isSome, kept n (cs.map (·.op ks vs)) (c.key ks)), map, m') := by
  obtain ⟨es, hr, ht⟩ := h.rep
  obtain ⟨map', m', es', h1, -, -, -⟩ := map_step hr rfl ht c hc
  rw [show c.op ks vs = .get (c.key ks) by simp only [MapCall.op, hk]] at h1
  simp only [mapStep, kept_eq] at h1
  refine ⟨m', ?_⟩
  have hmap : map' = map := by
    simp only [MapCall.exec, hk] at h1
    split at h1
    · simp only [Except.ok.injEq, Prod.mk.injEq] at h1
      exact h1.2.1.symm
    · simp at h1
  rw [hmap] at h1
  exact h1

variable {kb' ko' vb' vo' : Nat} {cs' : List MapCall} {map' : MapT} {m' : Mem}

/-- C130: two maps (anywhere, after any two histories) that keep the same answer every later history alike: no call shows
anything else of the past, neither the order of the insertions nor lookups nor overwritten values. -/
theorem C130_same (h : MapReach n ks vs kb ko vb vo cs map m) (h' : MapReach n ks vs kb' ko' vb' vo' cs' map' m')
    (hkept : ∀ k, kept n (cs.map (·.op ks vs)) k = kept n (cs'.map (·.op ks vs)) k)
    (ds : List MapCall) (hv : ∀ c ∈ ds, c.Valid kb vb ks vs ∧ c.Valid kb' vb' ks vs) :
    ∃ os map1 m1 map2 m2, mapExecAll kb vb vs map m ds = .ok (os, map1, m1) ∧
      mapExecAll kb' vb' vs map' m' ds = .ok (os, map2, m2) := by
  obtain ⟨es, hr, ht⟩ := h.rep
  obtain ⟨es', hr', ht'⟩ := h'.rep
  obtain ⟨map1, m1, -, g1, -, -⟩ := map_all rfl ds hr ht fun c hc => (hv c hc).1
  obtain ⟨map2, m2, -, g2, -, -⟩ := map_all rfl ds hr' ht' fun c hc => (hv c hc).2
  rw [mapRun_congr n _ (l2 := (mapRun n [] (cs'.map (·.op ks vs))).2) fun k => by rw [kept_eq, kept_eq, hkept]] at g1
  exact ⟨_, map1, m1, map2, m2, g1, g2⟩

theorem firsts_of_nodup (l : List Bytes) (h : l.Nodup) : firsts l = l := by
  induction l using List.reverseRecOn with
  | nil => rfl
  | append_singleton l a ih =>
    rw [List.nodup_append] at h
    rw [firsts_append, ih h.1, if_neg fun ha => h.2.2 a ha a (by simp) rfl]

/-- C130: so different keys, not more than there are places, may be inserted in any order. -/
theorem C130_any_order (h : MapReach n ks vs kb ko vb vo cs map m) (h' : MapReach n ks vs kb' ko' vb' vo' cs' map' m')
    (hp : (inserted (cs.map (·.op ks vs))).Perm (inserted (cs'.map (·.op ks vs))))
    (hnd : ((inserted (cs.map (·.op ks vs))).map Prod.fst).Nodup) (hn : (inserted (cs.map (·.op ks vs))).length ≤ n)
    (ds : List MapCall) (hv : ∀ c ∈ ds, c.Valid kb vb ks vs ∧ c.Valid kb' vb' ks vs) :
    ∃ os map1 m1 map2 m2, mapExecAll kb vb vs map m ds = .ok (os, map1, m1) ∧
      mapExecAll kb' vb' vs map' m' ds = .ok (os, map2, m2) := by
  refine C130_same h h' (fun k => ?_) ds hv
  have hnd' := (hp.map Prod.fst).nodup_iff.1 hnd
  unfold kept
  rw [firsts_of_nodup _ hnd, firsts_of_nodup _ hnd', List.take_of_length_le (by simpa using hn),
    List.take_of_length_le (by rw [List.length_map, ← hp.length_eq]; exact hn), latest_perm hp hnd]
  simp only [(hp.map Prod.fst).mem_iff]

end

/-- Non-vacuity of C130: two places; keys 1, 2, 3 offered in this order, 1 again when the map is full; and in another order,
which keeps other keys. -/
def exKept (cs : List MapCall) : Option (List (Bytes × Bytes)) :=
  match mapExecAll 0 0 1 ⟨ptr 0 0, ptr 0 2, 1, 1, 2, 0⟩ (mem2 [0, 0, 0, 0] []) cs with
  | .ok (_, map, m) => some (mapEntries 1 1 0 0 0 2 map m)
  | .error _ => none
def exOffer : List MapCall := [exMCall .ins 1 10, exMCall .ins 2 20, exMCall .ins 3 30, exMCall .ins 1 11]
example : exKept exOffer = some [([1], [11]), ([2], [20])] ∧
    exKept exOffer.reverse = some [([1], [10]), ([3], [30])] := ⟨by decide +kernel, by decide +kernel⟩
example : (firsts ((inserted (exOffer.map (·.op 1 1))).map Prod.fst)).take 2 = [[1], [2]] ∧
    kept 2 (exOffer.map (·.op 1 1)) [1] = some [11] ∧ kept 2 (exOffer.map (·.op 1 1)) [3] = none := by
  refine ⟨?_, ?_, ?_⟩ <;> decide +kernel
example : ∃ map m map' m', MapReach 2 1 1 0 0 0 2 [exMCall .ins 1 10, exMCall .ins 2 20] map m ∧
    MapReach 2 1 1 0 0 0 2 [exMCall .ins 2 20, exMCall .get 2 0, exMCall .ins 1 10] map' m' := by
  have hs : MapSetup 2 1 1 0 0 0 2 (mem2 [0, 0, 0, 0] []) := by constructor <;> decide
  refine ⟨_, _, _, _, ⟨?_, exMap0, _, _, _, _, hs, rfl, rfl⟩, ⟨?_, exMap0, _, _, _, _, hs, rfl, rfl⟩⟩
  all_goals
    intro c hc
    simp only [List.mem_cons, List.not_mem_nil, or_false] at hc
    rcases hc with rfl | rfl | rfl <;> constructor <;> decide

end IMU.Props
