import Verif.Proofs.Map

/-! # Map histories simulate the ideal map -/

namespace IMU.Props
open Spec Utils IMU.Map
open IMU.Queue (slot_le)

section
variable {n ks vs kb ko vb vo : Nat} {mx : Int} {map : MapT} {m : Mem} {es : List (Bytes × Bytes)}

theorem call_mem_k (c : MapCall) (m : Mem) : (c.mem kb vb m).bytes kb = m.bytes kb := by simp [MapCall.mem]
theorem call_mem_v (c : MapCall) (m : Mem) : (c.mem kb vb m).bytes vb = m.bytes vb := by simp [MapCall.mem]

theorem Rep.atCall (h : Rep n ks vs mx kb ko vb vo map m es) (c : MapCall) :
    Rep n ks vs mx kb ko vb vo map (c.mem kb vb m) es := h.of_eq (call_mem_k c m) (call_mem_v c m)

theorem call_key (c : MapCall) (hv : c.Valid kb vb ks vs) :
    (c.mem kb vb m).bytes c.kblk = c.w.bytes c.kblk ∧ (c.mem kb vb m).bytes c.vblk = c.w.bytes c.vblk := by
  simp [MapCall.mem, hv.k1, hv.k2, hv.v1, hv.v2]

/-- An insert of a new key with room left. -/
theorem ins_new_step (h : Rep n ks vs mx kb ko vb vo map m es) (c : MapCall) (hv : c.Valid kb vb ks vs)
    (hk : c.kind = .ins) (hnew : ∀ e ∈ es, e.1 ≠ c.key ks) (hroom : es.length < n) (hmx : (es.length : Int) ≠ mx) :
    ∃ map' m', c.exec kb vb vs map m = .ok ((true, none), map', m') ∧
      Rep n ks vs mx kb ko vb vo map' m' (es ++ [(c.key ks, slice (c.w.bytes c.vblk) c.voff vs)]) ∧
      c.Frame kb ko (n * ks) vb vo (n * vs) vs (c.mem kb vb m) m' := by
  have hr := Rep.atCall h c
  obtain ⟨ek, ev⟩ := call_key (m := m) c hv
  have hkl := hv.kl
  have hvl := hv.vl
  rw [← ek] at hkl
  rw [← ev] at hvl
  have hsk := slice_length _ _ _ hkl
  have hsv := slice_length _ _ _ hvl
  have hslk := slot_le ks hroom
  have hslv := slot_le vs hroom
  have hkb := hr.klen
  have hvb := hr.vlen
  rcases getIndex_ok hr c.kblk c.koff hkl with ⟨j, e, he, hek, -⟩ | ⟨-, hidx⟩
  · exact absurd (by rw [hek, ek]; rfl) (hnew e (List.mem_of_getElem? he))
  · have hins := insert_new hr hroom hmx c.kblk c.koff c.vblk c.voff hkl hvl hv.k1 hv.v1 hv.v2 hidx rfl rfl
    have hrep := hr.append hroom _ _ hsk hsv (by rw [ek]; exact hnew) rfl rfl
    set m1 := (c.mem kb vb m).upd kb (splice ((c.mem kb vb m).bytes kb) (ko + es.length * ks)
      (slice ((c.mem kb vb m).bytes c.kblk) c.koff ks)) with hm1
    set m2 := m1.upd vb (splice (m1.bytes vb) (vo + es.length * vs)
      (slice ((c.mem kb vb m).bytes c.vblk) c.voff vs)) with hm2
    have hw1 : ko + es.length * ks + (slice ((c.mem kb vb m).bytes c.kblk) c.koff ks).length ≤
        ((c.mem kb vb m).bytes kb).length := by omega
    have hl1 : ∀ x, (m1.bytes x).length = ((c.mem kb vb m).bytes x).length := fun x => length_upd_splice hw1 x
    have hw2 : vo + es.length * vs + (slice ((c.mem kb vb m).bytes c.vblk) c.voff vs).length ≤
        (m1.bytes vb).length := by rw [hl1]; omega
    refine ⟨{ map with current_size := (es.length : Int) + 1 }, m2, ?_, ?_, ?_⟩
    · simp only [MapCall.exec, hk, hins]
    · rw [ek, ev] at hrep; exact hrep
    · simp only [MapCall.Frame, hk]
      refine ⟨rfl, fun x => by rw [hm2, length_upd_splice hw2, hl1], ?_⟩
      intro x i h1 h2
      rw [hm2, get_upd_splice hw2 (by rw [hsv]; omega), hm1, get_upd_splice hw1 (by rw [hsk]; omega)]

/-- One step of the simulation. -/
theorem map_step (h : Rep n ks vs mx kb ko vb vo map m es) (hmx : mx = (n : Int)) {log : List (Bytes × Bytes)}
    (ht : Tracks log es) (c : MapCall) (hv : c.Valid kb vb ks vs) :
    ∃ map' m' es', c.exec kb vb vs map m = .ok ((mapStep n log (c.op ks vs)).1, map', m') ∧
      Rep n ks vs mx kb ko vb vo map' m' es' ∧ Tracks (mapStep n log (c.op ks vs)).2 es' ∧
      c.Frame kb ko (n * ks) vb vo (n * vs) vs (c.mem kb vb m) m' := by
  have hr := Rep.atCall h c
  obtain ⟨ek, ev⟩ := call_key (m := m) c hv
  have hkl := hv.kl
  have hvl := hv.vl
  rw [← ek] at hkl
  rw [← ev] at hvl
  have hsv := slice_length _ _ _ hvl
  have hkb := hr.klen
  have hvb := hr.vlen
  have hkey : slice ((c.mem kb vb m).bytes c.kblk) c.koff ks = c.key ks := by rw [ek]; rfl
  cases hk : c.kind with
  | ins =>
    have hop : c.op ks vs = .ins (c.key ks) (slice (c.w.bytes c.vblk) c.voff vs) := by
      simp only [MapCall.op, hk]
    rw [hop]
    rcases getIndex_ok hr c.kblk c.koff hkl with ⟨j, e, he, hek, hidx⟩ | ⟨hnone, hidx⟩
    · have hin : c.key ks ∈ log.map Prod.fst := by
        rw [ht.keys, List.mem_map]
        exact ⟨e, List.mem_of_getElem? he, by rw [hek, hkey]⟩
      have hins := insert_update hr c.kblk c.koff c.vblk c.voff hkl hvl hv.v2 he hidx
      have hrep := hr.setValue he _ hsv
      have hstep : mapStep n log (.ins (c.key ks) (slice (c.w.bytes c.vblk) c.voff vs)) =
          ((true, none), log ++ [(c.key ks, slice (c.w.bytes c.vblk) c.voff vs)]) := by
        simp only [mapStep, hin, true_or, if_true]
      rw [hstep]
      have hjn : j < n := by
        have := (List.getElem?_eq_some_iff.1 he).1
        have := h.size_le; omega
      have hsl := slot_le vs hjn
      refine ⟨map, (c.mem kb vb m).upd vb (splice ((c.mem kb vb m).bytes vb) (vo + j * vs)
          (slice ((c.mem kb vb m).bytes c.vblk) c.voff vs)),
        es.set j (e.1, slice (c.w.bytes c.vblk) c.voff vs), ?_, ?_, ?_, ?_⟩
      · simp only [MapCall.exec, hk, hins]
      · rw [ev] at hrep ⊢; exact hrep
      · have := ht.set (v := slice (c.w.bytes c.vblk) c.voff vs) he (by rw [ev] at hrep; exact hrep.nodup)
        rw [hek, hkey] at this
        rw [hek, hkey]; exact this
      · simp only [MapCall.Frame, hk]
        refine ⟨rfl, fun x => length_upd_splice (by omega) x, ?_⟩
        intro x i h1 h2
        rw [get_upd_splice (by omega) (by omega)]
    · rw [hkey] at hnone
      have hnin : c.key ks ∉ log.map Prod.fst := by
        rw [ht.keys, List.mem_map]
        rintro ⟨e, he, hek⟩
        exact hnone e he hek
      by_cases hroom : es.length < n
      · have hstep : mapStep n log (.ins (c.key ks) (slice (c.w.bytes c.vblk) c.voff vs)) =
            ((true, none), log ++ [(c.key ks, slice (c.w.bytes c.vblk) c.voff vs)]) := by
          simp only [mapStep, ht.count, hroom, or_true, if_true]
        obtain ⟨map', m', h1, h2, h3⟩ := ins_new_step h c hv hk hnone hroom (by omega)
        rw [hstep]
        exact ⟨map', m', _, h1, h2, ht.append hnone h2.nodup, h3⟩
      · have hfull : es.length = n := by have := h.size_le; omega
        have hstep : mapStep n log (.ins (c.key ks) (slice (c.w.bytes c.vblk) c.voff vs)) =
            ((false, none), log) := by
          simp only [mapStep, hnin, ht.count, hroom, or_self, if_false]
        have hins := insert_full hr (by omega) c.kblk c.koff (ptr c.vblk c.voff) hidx
        rw [hstep]
        refine ⟨map, c.mem kb vb m, es, ?_, hr, ht, ?_⟩
        · simp only [MapCall.exec, hk, hins]
        · simp only [MapCall.Frame, hk]
          exact ⟨trivial, fun _ => trivial, fun _ _ _ _ => trivial⟩
  | get =>
    have hop : c.op ks vs = .get (c.key ks) := by simp only [MapCall.op, hk]
    rw [hop]
    rcases getIndex_ok hr c.kblk c.koff hkl with ⟨j, e, he, hek, hidx⟩ | ⟨hnone, hidx⟩
    · have hlat : latest log (c.key ks) = some e.2 := by
        rw [ht.mem, ← hkey, ← hek]
        exact List.mem_of_getElem? he
      have hget := getValue_some hr c.kblk c.koff c.vblk c.voff hvl hv.v2 he hidx
      have hjn : j < n := by
        have := (List.getElem?_eq_some_iff.1 he).1
        have := h.size_le; omega
      have hsl := slot_le vs hjn
      have hel : e.2.length = vs := by
        rw [← hr.cv j e he]; exact slice_length _ _ _ (by omega)
      have hw : c.voff + e.2.length ≤ ((c.mem kb vb m).bytes c.vblk).length := by omega
      refine ⟨map, (c.mem kb vb m).upd c.vblk (splice ((c.mem kb vb m).bytes c.vblk) c.voff e.2), es, ?_, ?_, ht, ?_⟩
      · simp only [MapCall.exec, hk, hget, if_true, mapStep, hlat, Option.isSome_some]
        rw [slice_upd_same hw hel]
      · exact hr.of_eq (by simp [Ne.symm hv.v1]) (by simp [Ne.symm hv.v2])
      · simp only [MapCall.Frame, hk]
        have := onlyChanged_splice (c.mem kb vb m) c.vblk c.voff e.2 hw
        rw [hel] at this; exact this
    · rw [hkey] at hnone
      have hlat : latest log (c.key ks) = none := by
        rw [← Option.not_isSome_iff_eq_none, latest_isSome, ht.keys, List.mem_map]
        rintro ⟨e, he, hek⟩
        exact hnone e he hek
      have hget := getValue_none (map := map) c.kblk c.koff (ptr c.vblk c.voff) hidx
      refine ⟨map, c.mem kb vb m, es, ?_, hr, ht, ?_⟩
      · simp only [MapCall.exec, hk, hget, mapStep, hlat, Option.isSome_none, Bool.false_eq_true, if_false]
      · simp only [MapCall.Frame, hk]
        exact ⟨rfl, fun _ _ => rfl, rfl, fun _ _ => rfl⟩

theorem map_all (hmx : mx = (n : Int)) (cs : List MapCall) : ∀ {map : MapT} {m : Mem} {es log : List (Bytes × Bytes)},
    Rep n ks vs mx kb ko vb vo map m es → Tracks log es → (∀ c ∈ cs, c.Valid kb vb ks vs) →
    ∃ map' m' es', mapExecAll kb vb vs map m cs = .ok ((mapRun n log (cs.map (·.op ks vs))).1, map', m') ∧
      Rep n ks vs mx kb ko vb vo map' m' es' ∧ Tracks (mapRun n log (cs.map (·.op ks vs))).2 es' := by
  induction cs with
  | nil => intro map m es log h ht _; exact ⟨map, m, es, rfl, h, ht⟩
  | cons c cs ih =>
    intro map m es log h ht hv
    obtain ⟨map', m', es', h1, h2, h3, _⟩ := map_step h hmx ht c (hv c List.mem_cons_self)
    obtain ⟨map'', m'', es'', g1, g2, g3⟩ := ih h2 h3 (fun c hc => hv c (List.mem_cons_of_mem _ hc))
    exact ⟨map'', m'', es'', by simp [mapExecAll, h1, g1, mapRun], g2, g3⟩

theorem tracks_nil : Tracks [] [] := ⟨by simp [latest], by simp⟩

/-- A run of insertions of distinct new keys. -/
theorem map_fill (cs : List MapCall) : ∀ {map : MapT} {m : Mem} {es : List (Bytes × Bytes)},
    Rep n ks vs mx kb ko vb vo map m es → (∀ k : Nat, k < n → (k : Int) ≠ mx) →
    (∀ c ∈ cs, c.Valid kb vb ks vs ∧ c.kind = .ins) →
    (cs.map (·.key ks)).Nodup → (∀ c ∈ cs, ∀ e ∈ es, e.1 ≠ c.key ks) → es.length + cs.length ≤ n →
    ∃ map' m' es', mapExecAll kb vb vs map m cs = .ok (List.replicate cs.length (true, none), map', m') ∧
      Rep n ks vs mx kb ko vb vo map' m' es' ∧ es'.map Prod.fst = es.map Prod.fst ++ cs.map (·.key ks) ∧
      (m'.bytes kb).length = (m.bytes kb).length := by
  induction cs with
  | nil => intro map m es h _ _ _ _ _; exact ⟨map, m, es, rfl, h, by simp, rfl⟩
  | cons c cs ih =>
    intro map m es h hmx hv hnd hnew hl
    rw [List.length_cons] at hl
    obtain ⟨hvc, hkc⟩ := hv c List.mem_cons_self
    obtain ⟨map', m', h1, h2, h3⟩ := ins_new_step h c hvc hkc (hnew c List.mem_cons_self) (by omega)
      (hmx _ (by omega))
    rw [List.map_cons, List.nodup_cons] at hnd
    obtain ⟨map'', m'', es'', g1, g2, g3, g4⟩ := ih h2 hmx (fun c hc => hv c (List.mem_cons_of_mem _ hc)) hnd.2
      (by
        intro d hd e he
        rw [List.mem_append, List.mem_singleton] at he
        rcases he with he | rfl
        · exact hnew d (List.mem_cons_of_mem _ hd) e he
        · intro hc
          exact hnd.1 (List.mem_map.2 ⟨d, hd, hc.symm⟩))
      (by rw [List.length_append, List.length_singleton]; omega)
    refine ⟨map'', m'', es'', ?_, g2, ?_, ?_⟩
    · simp only [mapExecAll, h1, g1, List.length_cons, List.replicate_succ]
    · rw [g3]; simp
    · simp only [MapCall.Frame, hkc] at h3
      rw [g4, h3.2.1, call_mem_k]

end

theorem memeq_mem (p q : Ptr) (k : Nat) (m m' : Mem) (r : Bool) (h : memeq p q k m = .ok r m') : m' = m := by
  have hl : ∀ (p : Ptr) (s : List Byte) (m m' : Mem), loadN p k m = .ok s m' → m' = m := by
    intro p s m m' h
    unfold loadN at h
    split at h
    · simp at h; exact h.2.symm
    · split at h
      · simp at h; exact h.2.symm
      · simp at h
  simp only [memeq, C.bind_run] at h
  cases h1 : loadN p k m with
  | ub e => rw [h1] at h; simp at h
  | ok s m1 =>
    rw [h1] at h; simp only at h
    cases h2 : loadN q k m1 with
    | ub e => rw [h2] at h; simp at h
    | ok t m2 =>
      rw [h2] at h
      simp only [C.pure_run, Res.ok.injEq] at h
      rw [← h.2, hl _ _ _ _ h2, hl _ _ _ _ h1]

theorem i32_mem (x y : Int) (m m' : Mem) (h : i32 x m = .ok y m') : m' = m := by
  unfold i32 at h
  split at h
  · simp at h; exact h.2.symm
  · simp at h

theorem getIndex_mem (map : MapT) (key : Ptr) (n : Nat) : ∀ (i : Int) (m m' : Mem) (r : Int),
    getIndexLoop map key n i m = .ok r m' → m' = m := by
  induction n with
  | zero => intro i m m' r h; simp [getIndexLoop] at h; exact h.2.symm
  | succ n ih =>
    intro i m m' r h
    simp only [getIndexLoop, C.bind_run] at h
    cases h1 : i32 (i * map.key_size) m with
    | ub e => rw [h1] at h; simp at h
    | ok s m1 =>
      rw [h1] at h; simp only at h
      cases h2 : memeq (map.keys.addZ s) key (toSizeT map.key_size) m1 with
      | ub e => rw [h2] at h; simp at h
      | ok t m2 =>
        rw [h2] at h; simp only at h
        rw [← i32_mem _ _ _ _ h1, ← memeq_mem _ _ _ _ _ _ h2]
        cases t with
        | true => simp at h; exact h.2.symm
        | false => exact ih _ _ _ _ h

end IMU.Props
