import Verif.Props.Map

/-!
# Property C34, continued: what Map_init accepts and where later calls become undefined
-/

namespace IMU.Props
open Spec Utils IMU.Map

/-- C34: `Map_init` accepts exactly non-null arrays and non-zero sizes (of any sign) and then yields the empty map
with these parameters; otherwise it changes nothing. -/
theorem C34_init_exact (map0 : MapT) (keys values : Option Ptr) (ks vs mx : Int) (m : Mem) :
    ∃ r map, init (some map0) keys values ks vs mx m = .ok (r, some map) m ∧
      (r = true ↔ keys ≠ none ∧ values ≠ none ∧ ks ≠ 0 ∧ vs ≠ 0 ∧ mx ≠ 0) ∧
      (r = true → some map.keys = keys ∧ some map.values = values ∧ map.key_size = ks ∧ map.value_size = vs ∧
        map.max_map_size = mx ∧ map.current_size = 0) ∧
      (r = false → map = map0) := by
  cases keys with
  | none => exact ⟨false, map0, by cases values <;> rfl, by simp, by simp, by simp⟩
  | some k =>
    cases values with
    | none => exact ⟨false, map0, rfl, by simp, by simp, by simp⟩
    | some v =>
      by_cases h : ks ≠ 0 ∧ vs ≠ 0 ∧ mx ≠ 0
      · exact ⟨true, ⟨k, v, ks, vs, mx, 0⟩, by simp [init, h], by simp [h], by simp, by simp⟩
      · refine ⟨false, map0, by simp only [init, if_neg h, C.pure_run], ?_, by simp, by simp⟩
        simp only [Bool.false_eq_true, false_iff]
        exact fun hc => h hc.2.2

/-- C34: the structure pointer is not validated: with otherwise acceptable arguments a null pointer is
dereferenced. -/
theorem C34_null_map (k v : Ptr) (ks vs mx : Int) (h : ks ≠ 0 ∧ vs ≠ 0 ∧ mx ≠ 0) (m : Mem) :
    init none (some k) (some v) ks vs mx m = .ub .nullDeref := by
  simp only [init, if_pos h]; rfl

/-- C34: a negative `value_size` (accepted by `Map_init`) makes the very first insert read at least 2^63 bytes of
the value, after it has stored the key. -/
theorem C34_negative_value_size (ks kb ko kb' ko' vb' vo' : Nat) (vs mx : Int) (hks : 0 < ks ∧ ks < 2 ^ 31)
    (hvs : -2 ^ 31 ≤ vs ∧ vs < 0) (hmx : mx ≠ 0) (vp : Ptr) (map0 : MapT) (m : Mem)
    (hk : ko + ks ≤ (m.bytes kb).length) (hk' : ko' + ks ≤ (m.bytes kb').length) (hne : kb ≠ kb')
    (hvne : vp.blk ≠ vb') (hobj : (m.bytes vb').length < 2 ^ 63) :
    ∃ map, init (some map0) (some (ptr kb ko)) (some vp) ks vs mx m = .ok (true, some map) m ∧
      IMU.Map.insert (some map) (ptr kb' ko') (ptr vb' vo') m = .ub .oobRead := by
  refine ⟨⟨ptr kb ko, vp, ks, vs, mx, 0⟩, ?_, ?_⟩
  · simp only [init]
    rw [if_pos (by omega)]; rfl
  · have hsz : 2 ^ 63 ≤ toSizeT vs := by unfold toSizeT; omega
    have hsk := slice_length _ _ _ hk'
    have hcpy := memcpy_ok (b := kb) (o := ko) (b' := kb') (o' := ko') (n := ks) (m := m) hk hk' (.inl hne)
    set m1 := m.upd kb (splice (m.bytes kb) ko (slice (m.bytes kb') ko' ks)) with hm1
    have hlen : (m1.bytes vb').length = (m.bytes vb').length := length_upd_splice (by omega) vb'
    have hcpy2 : memcpy vp (ptr vb' vo') (toSizeT vs) m1 = .ub .oobRead := by
      unfold memcpy
      rw [overlaps_blk _ (show vp.blk ≠ (ptr vb' vo').blk from hvne)]
      simp only [Bool.false_eq_true, if_false, C.bind_run]
      rw [loadN_oob (by omega) (by omega)]
    have hp : vp.addZ 0 = vp := by cases vp; simp [Ptr.addZ]
    have hp' : (ptr kb ko).addZ 0 = ptr kb ko := by simp [Ptr.addZ]
    simp only [IMU.Map.insert]
    rw [C.bind_ok (show getIndex ⟨ptr kb ko, vp, ks, vs, mx, 0⟩ (ptr kb' ko') 0 m = .ok (-1) m from rfl), if_pos rfl,
      if_pos (by omega), Int.zero_mul, C.bind_ok (i32_ok (x := 0) (by omega) m), hp', toSizeT_nat hks.2, C.bind_ok hcpy,
      Int.zero_mul, C.bind_ok (i32_ok (x := 0) (by omega) m1), hp, C.bind_ub hcpy2]

/-- An insert whose offset is not representable. -/
theorem insert_overflow {n ks vs kb ko vb vo : Nat} {mx : Int} {map : MapT} {m : Mem} {es : List (Bytes × Bytes)}
    (h : Rep n ks vs mx kb ko vb vo map m es) (hfull : es.length = n) (hmx : (es.length : Int) ≠ mx)
    (hl : 2 ^ 31 ≤ n * ks ∨ 2 ^ 31 ≤ n * vs) (hx : ko + (n + 1) * ks ≤ (m.bytes kb).length)
    (b o : Nat) (p : Ptr) (hb : o + ks ≤ (m.bytes b).length) (hk : b ≠ kb)
    (hidx : getIndex map (ptr b o) map.current_size m = .ok (-1) m) :
    IMU.Map.insert (some map) (ptr b o) p m = .ub .signedOverflow := by
  have hov : ∀ (x : Nat) (m : Mem), 2 ^ 31 ≤ x → i32 (x : Int) m = .ub .signedOverflow := by
    intro x m hx
    unfold i32
    rw [if_neg (by omega)]; rfl
  simp only [IMU.Map.insert]
  rw [C.bind_ok hidx, if_pos rfl, h.size, h.hmx, if_pos hmx, h.hks, h.hvs, hfull, ← Int.natCast_mul, ← Int.natCast_mul]
  by_cases hk1 : 2 ^ 31 ≤ n * ks
  · rw [C.bind_ub (hov _ m hk1)]
  · have h2 : 2 ^ 31 ≤ n * vs := by omega
    have hi := i32_ok (x := ((n * ks : Nat) : Int)) (by omega) m
    rw [Nat.add_mul, Nat.one_mul] at hx
    have hcpy := memcpy_ok (b := kb) (o := ko + n * ks) (b' := b) (o' := o) (n := ks) (m := m) (by omega) hb
      (.inl (Ne.symm hk))
    rw [C.bind_ok hi, h.hk, ptr_addZ_nat, toSizeT_nat h.ks_lt, C.bind_ok hcpy, C.bind_ub (hov _ _ h2)]

/-- C34: the size limit of C31 is exact.  If entry number `j` is the first whose offset in the key or value array is
2^31 or more, a map with more than `j` places (and arrays large enough for them) takes `j` distinct keys and then
overflows a signed multiplication. -/
theorem C34_offset_overflow (n j ks vs kb ko vb vo : Nat) (m : Mem) (map0 : MapT)
    (h : MapSetup j ks vs kb ko vb vo m) (hj : j < n) (hov : 2 ^ 31 ≤ j * ks ∨ 2 ^ 31 ≤ j * vs)
    (hx : ko + (j + 1) * ks ≤ (m.bytes kb).length)
    (cs : List MapCall) (c : MapCall) (hv : ∀ d ∈ cs ++ [c], d.Valid kb vb ks vs ∧ d.kind = .ins)
    (hlen : cs.length = j) (hnd : ((cs ++ [c]).map (·.key ks)).Nodup) :
    ∃ map map1 m1, init (some map0) (some (ptr kb ko)) (some (ptr vb vo)) ks vs n m = .ok (true, some map) m ∧
      mapExecAll kb vb vs map m cs = .ok (List.replicate j (true, none), map1, m1) ∧
      c.exec kb vb vs map1 m1 = .error .signedOverflow := by
  have h1 := h.n_pos
  have h2 := h.ks_pos
  have h3 := h.vs_pos
  have hi : init (some map0) (some (ptr kb ko)) (some (ptr vb vo)) ks vs n m =
      .ok (true, some ⟨ptr kb ko, ptr vb vo, ks, vs, n, 0⟩) m := by
    simp only [init]
    rw [if_pos (by omega)]; rfl
  obtain ⟨-, hr⟩ := map_init_rep h hi
  rw [List.map_append, List.nodup_append] at hnd
  obtain ⟨map1, m1, es, g1, g2, g3, g4⟩ := map_fill cs hr (fun k hk => by omega)
    (fun d hd => hv d (List.mem_append_left _ hd)) hnd.1 (by simp) (by simp [hlen])
  refine ⟨_, map1, m1, hi, by rw [← hlen]; exact g1, ?_⟩
  obtain ⟨hvc, hkc⟩ := hv c (by simp)
  have hesl : es.length = j := by
    have := congrArg List.length g3
    simpa [hlen] using this
  have hrc := Rep.atCall g2 c
  obtain ⟨ek, -⟩ := call_key (m := m1) c hvc
  have hkl := hvc.kl
  rw [← ek] at hkl
  rcases getIndex_ok hrc c.kblk c.koff hkl with ⟨i, e, he, hek, -⟩ | ⟨-, hidx⟩
  · exfalso
    have hem : e.1 ∈ es.map Prod.fst := List.mem_map.2 ⟨e, List.mem_of_getElem? he, rfl⟩
    rw [g3] at hem
    exact hnd.2.2 e.1 (by simpa using hem) e.1 (by rw [hek, ek]; simp [MapCall.key]) rfl
  · have := insert_overflow hrc hesl (by omega) hov (by rw [call_mem_k, g4]; exact hx) c.kblk c.koff
      (ptr c.vblk c.voff) hkl hvc.k1 hidx
    simp only [MapCall.exec, hkc, this]

/-- Non-vacuity: one-byte keys, values of `N = 2^30` bytes, the third entry. -/
def exBigMem (N : Nat) : Mem :=
  ⟨fun x => if x = 0 then List.replicate 4 0 else if x = 1 then List.replicate (3 * N) 0 else [], fun _ => []⟩
def exBigCall (N : Nat) (k : Byte) : MapCall :=
  ⟨.ins, ⟨fun x => if x = 2 then [k] else if x = 3 then List.replicate N 0 else [], fun _ => []⟩, 2, 0, 3, 0⟩
example (N : Nat) (h : N = 2 ^ 30) : MapSetup 2 1 N 0 0 1 0 (exBigMem N) where
  n_pos := by omega
  ks_pos := by omega
  vs_pos := by omega
  n_lt := by omega
  ks_lt := by omega
  vs_lt := by omega
  limk := by omega
  limv := by omega
  klen := by show 0 + 2 * 1 ≤ (List.replicate 4 (0 : Byte)).length; rw [List.length_replicate]; omega
  vlen := by show 0 + 2 * N ≤ (List.replicate (3 * N) (0 : Byte)).length; rw [List.length_replicate]; omega
  apart := .inl (by omega)
example (N : Nat) (k : Byte) : (exBigCall N k).Valid 0 1 1 N where
  k1 := by show (2 : Nat) ≠ 0; omega
  k2 := by show (2 : Nat) ≠ 1; omega
  v1 := by show (3 : Nat) ≠ 0; omega
  v2 := by show (3 : Nat) ≠ 1; omega
  kl := Nat.le_refl 1
  vl := by show 0 + N ≤ (List.replicate N (0 : Byte)).length; rw [List.length_replicate]; omega
example (N : Nat) (h : N = 2 ^ 30) : 2 ^ 31 ≤ 2 * 1 ∨ 2 ^ 31 ≤ 2 * N := by omega
example (N : Nat) : (([exBigCall N 1, exBigCall N 2] ++ [exBigCall N 3]).map (·.key 1)).Nodup := by
  show [[(1 : Byte)], [2], [3]].Nodup
  decide

end IMU.Props
