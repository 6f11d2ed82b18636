import Verif.Proofs.MapHistory
import Verif.Props.Utils

/-!
# Properties C31 - C34: Src/map.c
-/

namespace IMU.Props
open Spec Utils IMU.Map

/-- Sizes and arrays with which the map is usable: positive `int32_t` sizes, index products representable,
arrays (possibly in one object) large enough and apart. -/
structure MapSetup (n ks vs kb ko vb vo : Nat) (m : Mem) : Prop where
  n_pos : 0 < n
  ks_pos : 0 < ks
  vs_pos : 0 < vs
  n_lt : n < 2 ^ 31
  ks_lt : ks < 2 ^ 31
  vs_lt : vs < 2 ^ 31
  limk : (n - 1) * ks < 2 ^ 31
  limv : (n - 1) * vs < 2 ^ 31
  klen : ko + n * ks ≤ (m.bytes kb).length
  vlen : vo + n * vs ≤ (m.bytes vb).length
  apart : kb ≠ vb ∨ ko + n * ks ≤ vo ∨ vo + n * vs ≤ ko

theorem map_init_rep {n ks vs kb ko vb vo : Nat} {m m' : Mem} {map0 map : MapT} {mx : Int}
    (h : MapSetup n ks vs kb ko vb vo m)
    (hi : init (some map0) (some (ptr kb ko)) (some (ptr vb vo)) ks vs mx m = .ok (true, some map) m') :
    m' = m ∧ Rep n ks vs mx kb ko vb vo map m [] := by
  simp only [init] at hi
  split at hi
  · simp only [C.pure_run, Res.ok.injEq, Prod.mk.injEq, Option.some.injEq, true_and] at hi
    obtain ⟨rfl, rfl⟩ := hi
    exact ⟨rfl, { h with hk := rfl, hv := rfl, hks := rfl, hvs := rfl, hmx := rfl, size := rfl, size_le := by simp,
                         ck := by simp, cv := by simp, nodup := by simp }⟩
  · simp at hi

/-- C31: after `Map_init` every history of valid inserts and lookups is free of undefined behaviour and
shows exactly the observations of the ideal map: a lookup delivers the value of the latest successful
insert for its key, and fails if there is none. -/
theorem C31_map_refines (n ks vs kb ko vb vo : Nat) (m m' : Mem) (map0 map : MapT)
    (h : MapSetup n ks vs kb ko vb vo m)
    (hi : init (some map0) (some (ptr kb ko)) (some (ptr vb vo)) ks vs n m = .ok (true, some map) m')
    (cs : List MapCall) (hv : ∀ c ∈ cs, c.Valid kb vb ks vs) :
    ∃ map' m'', mapExecAll kb vb vs map m' cs = .ok ((mapRun n [] (cs.map (·.op ks vs))).1, map', m'') := by
  obtain ⟨rfl, hr⟩ := map_init_rep h hi
  obtain ⟨map', m'', es, h1, -, -⟩ := map_all rfl cs hr tracks_nil hv
  exact ⟨map', m'', h1⟩

/-- C31: `Map_init` succeeds for every such setup. -/
theorem C31_map_init (n ks vs kb ko vb vo : Nat) (m : Mem) (map0 : MapT) (h : MapSetup n ks vs kb ko vb vo m) :
    ∃ map, init (some map0) (some (ptr kb ko)) (some (ptr vb vo)) ks vs n m = .ok (true, some map) m := by
  have h1 := h.n_pos
  have h2 := h.ks_pos
  have h3 := h.vs_pos
  refine ⟨⟨ptr kb ko, ptr vb vo, ks, vs, n, 0⟩, ?_⟩
  simp only [init]
  rw [if_pos (by omega)]; rfl

/-- Non-vacuity: two entries with one-byte keys and values in one object; update, full map, lookups. -/
def exMap0 : MapT := ⟨ptr 0 0, ptr 0 0, 0, 0, 0, 0⟩
def exMCall (k : MapKind) (key value : Byte) : MapCall := ⟨k, mem2 [] [key, value], 1, 0, 1, 1⟩
def exMCalls : List MapCall := [exMCall .ins 1 10, exMCall .ins 2 20, exMCall .ins 1 11, exMCall .ins 3 30,
  exMCall .get 1 0, exMCall .get 2 0, exMCall .get 3 0]
example : MapSetup 2 1 1 0 0 0 2 (mem2 [0, 0, 0, 0] []) := by constructor <;> decide
example : ∀ c ∈ exMCalls, c.Valid 0 0 1 1 := by
  intro c hc
  simp only [exMCalls, List.mem_cons, List.not_mem_nil, or_false] at hc
  rcases hc with rfl | rfl | rfl | rfl | rfl | rfl | rfl <;> constructor <;> decide
example : (mapRun 2 [] (exMCalls.map (·.op 1 1))).1 =
    [(true, none), (true, none), (true, none), (false, none), (true, some [11]), (true, some [20]), (false, none)] := by
  decide +kernel

/-- `(map1, m1)` is reached from a successful initialisation by the valid calls `cs`. -/
structure MapReach (n ks vs kb ko vb vo : Nat) (cs : List MapCall) (map1 : MapT) (m1 : Mem) : Prop where
  valid : ∀ c ∈ cs, c.Valid kb vb ks vs
  start : ∃ map0 map m m' os, MapSetup n ks vs kb ko vb vo m ∧
    init (some map0) (some (ptr kb ko)) (some (ptr vb vo)) ks vs n m = .ok (true, some map) m' ∧
    mapExecAll kb vb vs map m' cs = .ok (os, map1, m1)

theorem MapReach.rep {n ks vs kb ko vb vo : Nat} {cs : List MapCall} {map1 : MapT} {m1 : Mem}
    (h : MapReach n ks vs kb ko vb vo cs map1 m1) :
    ∃ es, Rep n ks vs n kb ko vb vo map1 m1 es ∧ Tracks (mapRun n [] (cs.map (·.op ks vs))).2 es := by
  obtain ⟨map0, map, m, m', os, hs, hi, hx⟩ := h.start
  obtain ⟨rfl, hr⟩ := map_init_rep hs hi
  obtain ⟨map', m'', es, h1, h2, h3⟩ := map_all rfl cs hr tracks_nil h.valid
  rw [hx] at h1
  simp only [Except.ok.injEq, Prod.mk.injEq] at h1
  obtain ⟨-, rfl, rfl⟩ := h1
  exact ⟨es, h2, h3⟩

/-- C32: in every reachable state, an insert fails exactly if its key was not inserted before and `n`
distinct keys are stored; in particular an update always succeeds. -/
theorem C32_insert_fails_iff (n ks vs kb ko vb vo : Nat) (cs : List MapCall) (map1 : MapT) (m1 : Mem)
    (h : MapReach n ks vs kb ko vb vo cs map1 m1) (c : MapCall) (hc : c.Valid kb vb ks vs) (hk : c.kind = .ins) :
    ∃ r map2 m2, c.exec kb vb vs map1 m1 = .ok ((r, none), map2, m2) ∧
      (r = false ↔ (∀ v, (c.key ks, v) ∉ (mapRun n [] (cs.map (·.op ks vs))).2) ∧
        distinctKeys (mapRun n [] (cs.map (·.op ks vs))).2 = n) := by
  obtain ⟨es, hr, ht⟩ := h.rep
  set log := (mapRun n [] (cs.map (·.op ks vs))).2 with hlog
  obtain ⟨map2, m2, es2, h1, -, -, -⟩ := map_step hr rfl ht c hc
  rw [show c.op ks vs = .ins (c.key ks) (slice (c.w.bytes c.vblk) c.voff vs) by simp only [MapCall.op, hk]] at h1
  have hle : distinctKeys log ≤ n := by rw [ht.count]; exact hr.size_le
  have hmem : (∀ v, (c.key ks, v) ∉ log) ↔ c.key ks ∉ log.map Prod.fst := by
    simp [List.mem_map]
  rw [hmem]
  by_cases hcond : c.key ks ∈ log.map Prod.fst ∨ distinctKeys log < n
  · refine ⟨true, map2, m2, by rw [h1]; simp only [mapStep, hcond, if_true], ?_⟩
    simp only [Bool.true_eq_false, false_iff]
    rintro ⟨ha, hb⟩
    rcases hcond with hcond | hcond
    · exact ha hcond
    · omega
  · refine ⟨false, map2, m2, by rw [h1]; simp only [mapStep, hcond, if_false], ?_⟩
    simp only [true_iff]
    exact ⟨fun hx => hcond (.inl hx), by have : ¬ distinctKeys log < n := fun hx => hcond (.inr hx); omega⟩

/-- C32: the number of entries is always the number of distinct keys inserted, at most `n`. -/
theorem C32_entry_count (n ks vs kb ko vb vo : Nat) (cs : List MapCall) (map1 : MapT) (m1 : Mem)
    (h : MapReach n ks vs kb ko vb vo cs map1 m1) :
    map1.current_size = distinctKeys (mapRun n [] (cs.map (·.op ks vs))).2 ∧
    distinctKeys (mapRun n [] (cs.map (·.op ks vs))).2 ≤ n := by
  obtain ⟨es, hr, ht⟩ := h.rep
  rw [ht.count]
  exact ⟨hr.size, hr.size_le⟩

/-- C32: a call that reports failure changes nothing, in any state whatsoever; a null map is reported. -/
theorem C32_failure_changes_nothing (map : Option MapT) (k v : Ptr) (m m' : Mem) :
    (∀ map', IMU.Map.insert map k v m = .ok (false, map') m' → map' = map ∧ m' = m) ∧
    (getValue map k v m = .ok false m' → m' = m) ∧
    IMU.Map.insert none k v m = .ok (false, none) m ∧ getValue none k v m = .ok false m := by
  refine ⟨?_, ?_, rfl, rfl⟩
  · intro map' h
    cases map with
    | none => simp [IMU.Map.insert] at h; exact ⟨h.1.symm, h.2.symm⟩
    | some map =>
      simp only [IMU.Map.insert, C.bind_run] at h
      cases h1 : getIndex map k map.current_size m with
      | ub e => rw [h1] at h; simp at h
      | ok i m1 =>
        have hm := getIndex_mem _ _ _ _ _ _ _ h1
        subst hm
        rw [h1] at h; simp only at h
        by_cases hi : i = -1
        · rw [if_pos hi] at h
          by_cases hc : map.current_size ≠ map.max_map_size
          · exfalso
            rw [if_pos hc] at h
            simp only [C.bind_run] at h
            repeat' split at h
            all_goals simp at h
          · rw [if_neg hc] at h
            simp at h
            exact ⟨h.1.symm, h.2.symm⟩
        · exfalso
          rw [if_neg hi] at h
          simp only [C.bind_run] at h
          repeat' split at h
          all_goals simp at h
  · intro h
    cases map with
    | none => simp [getValue] at h; exact h.symm
    | some map =>
      simp only [getValue, C.bind_run] at h
      cases h1 : getIndex map k map.current_size m with
      | ub e => rw [h1] at h; simp at h
      | ok i m1 =>
        have hm := getIndex_mem _ _ _ _ _ _ _ h1
        subst hm
        rw [h1] at h; simp only at h
        by_cases hi : i ≠ -1
        · exfalso
          rw [if_pos hi] at h
          simp only [C.bind_run] at h
          repeat' split at h
          all_goals simp at h
        · rw [if_neg hi] at h
          simp at h; exact h.symm

/-- C33: in every reachable state every valid call is free of undefined behaviour (arrays may be exactly
as long as needed), inserts change only the two arrays, lookups only the caller's value. -/
theorem C33_map_stays_inside (n ks vs kb ko vb vo : Nat) (cs : List MapCall) (map1 : MapT) (m1 : Mem)
    (h : MapReach n ks vs kb ko vb vo cs map1 m1) (c : MapCall) (hc : c.Valid kb vb ks vs) :
    ∃ o map2 m2, c.exec kb vb vs map1 m1 = .ok (o, map2, m2) ∧
      c.Frame kb ko (n * ks) vb vo (n * vs) vs (c.mem kb vb m1) m2 := by
  obtain ⟨es, hr, ht⟩ := h.rep
  obtain ⟨map2, m2, es2, h1, -, -, h4⟩ := map_step hr rfl ht c hc
  exact ⟨_, map2, m2, h1, h4⟩

/-- C34: with a negative `max_map_size` (accepted by `Map_init`) a map whose key array has exactly `n`
places takes `n` distinct keys and then writes out of bounds for one more. -/
theorem C34_negative_capacity (n ks vs kb ko vb vo : Nat) (mx : Int) (hmx : mx < 0) (m : Mem) (map0 : MapT)
    (h : MapSetup n ks vs kb ko vb vo m) (hx : (m.bytes kb).length = ko + n * ks) (hl : n * ks < 2 ^ 31)
    (cs : List MapCall) (c : MapCall) (hv : ∀ d ∈ cs ++ [c], d.Valid kb vb ks vs ∧ d.kind = .ins)
    (hlen : cs.length = n) (hnd : ((cs ++ [c]).map (·.key ks)).Nodup) :
    ∃ map map1 m1, init (some map0) (some (ptr kb ko)) (some (ptr vb vo)) ks vs mx m = .ok (true, some map) m ∧
      mapExecAll kb vb vs map m cs = .ok (List.replicate n (true, none), map1, m1) ∧
      c.exec kb vb vs map1 m1 = .error .oobWrite := by
  have h1 := h.n_pos
  have h2 := h.ks_pos
  have h3 := h.vs_pos
  have hi : init (some map0) (some (ptr kb ko)) (some (ptr vb vo)) ks vs mx m =
      .ok (true, some ⟨ptr kb ko, ptr vb vo, ks, vs, mx, 0⟩) m := by
    simp only [init]
    rw [if_pos (by omega)]; rfl
  obtain ⟨-, hr⟩ := map_init_rep h hi
  rw [List.map_append, List.nodup_append] at hnd
  obtain ⟨map1, m1, es, g1, g2, g3, g4⟩ := map_fill cs hr (fun k _ => by omega)
    (fun d hd => hv d (List.mem_append_left _ hd)) hnd.1 (by simp) (by simp [hlen])
  refine ⟨_, map1, m1, hi, by rw [← hlen]; exact g1, ?_⟩
  obtain ⟨hvc, hkc⟩ := hv c (by simp)
  have hesl : es.length = n := by
    have := congrArg List.length g3
    simpa [hlen] using this
  have hrc := Rep.atCall g2 c
  obtain ⟨ek, -⟩ := call_key (m := m1) c hvc
  have hkl := hvc.kl
  rw [← ek] at hkl
  rcases getIndex_ok hrc c.kblk c.koff hkl with ⟨j, e, he, hek, -⟩ | ⟨-, hidx⟩
  · exfalso
    have hem : e.1 ∈ es.map Prod.fst := List.mem_map.2 ⟨e, List.mem_of_getElem? he, rfl⟩
    rw [g3] at hem
    exact hnd.2.2 e.1 (by simpa using hem) e.1 (by rw [hek, ek]; simp [MapCall.key]) rfl
  · have := insert_oob hrc hesl (by omega) (by rw [call_mem_k, g4, hx]) hl c.kblk c.koff (ptr c.vblk c.voff)
      hkl hvc.k1 hidx
    simp only [MapCall.exec, hkc, this]

/-- Non-vacuity of C34: one place, two keys. -/
example : MapSetup 1 1 1 0 0 0 1 (mem2 [0, 0] []) ∧ (([exMCall .ins 1 10] ++ [exMCall .ins 2 20]).map (·.key 1)).Nodup := by
  constructor
  · constructor <;> decide
  · decide

/-- C34: a negative `key_size` (accepted by `Map_init`) makes the very first insert read at least 2^63
bytes of the key: undefined behaviour for every key object that can exist. -/
theorem C34_negative_key_size (ks vs mx : Int) (hks : -2 ^ 31 ≤ ks ∧ ks < 0) (hvs : vs ≠ 0) (hmx : mx ≠ 0)
    (kp vp : Ptr) (map0 : MapT) (m : Mem) (kb ko : Nat) (p : Ptr) (hne : kp.blk ≠ kb)
    (hobj : (m.bytes kb).length < 2 ^ 63) :
    ∃ map, init (some map0) (some kp) (some vp) ks vs mx m = .ok (true, some map) m ∧
      IMU.Map.insert (some map) (ptr kb ko) p m = .ub .oobRead := by
  refine ⟨⟨kp, vp, ks, vs, mx, 0⟩, ?_, ?_⟩
  · simp only [init]
    rw [if_pos (by omega)]; rfl
  · have hsz : 2 ^ 63 ≤ toSizeT ks := by unfold toSizeT; omega
    have hi := i32_ok (x := 0) (by omega) m
    have hcpy : memcpy kp (ptr kb ko) (toSizeT ks) m = .ub .oobRead := by
      unfold memcpy
      rw [overlaps_blk _ (show kp.blk ≠ (ptr kb ko).blk from hne)]
      simp only [Bool.false_eq_true, if_false, C.bind_run]
      rw [loadN_oob (by omega) (by omega)]
    have hp : kp.addZ 0 = kp := by cases kp; simp [Ptr.addZ]
    simp only [IMU.Map.insert]
    rw [C.bind_ok (show getIndex ⟨kp, vp, ks, vs, mx, 0⟩ (ptr kb ko) 0 m = .ok (-1) m from rfl), if_pos rfl,
      if_pos (by omega), Int.zero_mul, C.bind_ok hi, hp, C.bind_ub hcpy]

end IMU.Props
