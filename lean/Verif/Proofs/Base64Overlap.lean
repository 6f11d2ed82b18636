import Verif.Proofs.Base64
import Verif.Proofs.JsonFind

/-! # `Base64_encode` with data and text in one object -/

namespace IMU.Base64
open Spec Spec.Base64
open IMU.Json (oc_mono oc_trans oc_refl oc_length reads_tail)

/-- The loop and what follows it. -/
def enc (dl mx : SizeT) (fuel b oi bp op : Nat) (ip cur : SizeT) : C Int :=
  encLoop dl mx fuel { inp := ptr b oi, pos := ptr bp op, in_position := ip, current_length := cur, success := 0 } >>=
    encTail dl mx

/-- `r` bytes of data are left, and room for `q` characters. -/
structure At (dl mx ip cur : SizeT) (r q : Nat) : Prop where
  rem : (dl - ip).toNat = r
  room : cur.toNat + q = mx.toNat
  fits : cur.toNat + 4 * ((r + 2) / 3) < 2 ^ 64

theorem add4 {cur : SizeT} (h : cur.toNat + 4 < 2 ^ 64) : (cur + 4#64).toNat = cur.toNat + 4 := by
  rw [BitVec.toNat_add]; simp only [BitVec.toNat_ofNat]; omega

theorem At.next {dl mx ip cur : SizeT} {r q : Nat} (h : At dl mx ip cur r q) (hr : 3 ≤ r) (hq : 4 ≤ q) :
    At dl mx (ip + 3#64) (cur + 4#64) (r - 3) (q - 4) := by
  obtain ⟨h1, h2, h3⟩ := h
  have hsub : dl - (ip + 3#64) = (dl - ip) - 3#64 := by rw [BitVec.sub_sub]
  have h4 := add4 (cur := cur) (by omega)
  refine ⟨?_, ?_, ?_⟩
  · rw [hsub, BitVec.toNat_sub_of_le (by rw [BitVec.le_def, h1]; simpa using hr), h1]; simp
  · rw [h4]; omega
  · rw [h4]; omega

section
variable {dl mx ip cur : SizeT} {r q : Nat} (h : At dl mx ip cur r q) (fuel b oi bp op : Nat)
include h

theorem enc_group (hr : 3 ≤ r) (hq : 4 ≤ q) :
    enc dl mx (fuel + 1) b oi bp op ip cur =
      encGroup (ptr b oi) (ptr bp op) >>= fun _ => enc dl mx fuel b (oi + 3) bp (op + 4) (ip + 3#64) (cur + 4#64) := by
  obtain ⟨h1, h2, h3⟩ := h
  have h4 := add4 (cur := cur) (by omega)
  unfold enc
  rw [encLoop, if_pos (by rw [BitVec.le_def, h1]; simpa using hr)]
  simp only []
  rw [if_neg (by rw [BitVec.lt_def, h4]; omega), C_bind_assoc]
  rfl

theorem enc_stop (hr : 0 < r) (hq : q < 4) :
    enc dl mx (fuel + 1) b oi bp op ip cur = store (ptr bp op) 0#8 >>= fun _ => pure 1 := by
  obtain ⟨h1, h2, h3⟩ := h
  have h4 := add4 (cur := cur) (by omega)
  have hlt : mx < cur + 4#64 := by rw [BitVec.lt_def, h4]; omega
  funext m
  unfold enc
  rw [encLoop]
  by_cases hr3 : 3 ≤ r
  · rw [if_pos (by rw [BitVec.le_def, h1]; simpa using hr3)]
    simp only []
    rw [if_pos hlt, C.bind_ok (C.pure_run _ _), encTail, if_neg (by simp)]
  · have h0 : dl - ip ≠ 0#64 := fun e => by rw [e] at h1; simp at h1; omega
    rw [if_neg (by rw [BitVec.le_def, h1]; simpa using hr3), C.bind_ok (C.pure_run _ _), encTail, if_pos ⟨rfl, h0⟩]
    simp only []
    rw [if_pos hlt]

theorem enc_last (hr : 0 < r) (hr' : r < 3) (hq : 4 ≤ q) :
    enc dl mx (fuel + 1) b oi bp op ip cur =
      encLast dl ip (ptr b oi) (ptr bp op) >>= fun pos => store pos 0#8 >>= fun _ => pure 0 := by
  obtain ⟨h1, h2, h3⟩ := h
  have h4 := add4 (cur := cur) (by omega)
  have h0 : dl - ip ≠ 0#64 := fun e => by rw [e] at h1; simp at h1; omega
  funext m
  unfold enc
  rw [encLoop, if_neg (by rw [BitVec.le_def, h1]; simpa using hr'), C.bind_ok (C.pure_run _ _), encTail, if_pos ⟨rfl, h0⟩]
  simp only []
  rw [if_neg (by rw [BitVec.lt_def, h4]; omega)]

theorem enc_end (hr : r = 0) :
    enc dl mx (fuel + 1) b oi bp op ip cur = store (ptr bp op) 0#8 >>= fun _ => pure 0 := by
  obtain ⟨h1, h2, h3⟩ := h
  have h0 : dl - ip = 0#64 := BitVec.eq_of_toNat_eq (by rw [h1, hr]; rfl)
  funext m
  unfold enc
  rw [encLoop, if_neg (by rw [BitVec.le_def, h1]; simp; omega), C.bind_ok (C.pure_run _ _), encTail, if_neg (by simp [h0])]

end

/-! ### Any position of the two ranges: defined, and only the text is written -/

theorem getD_some {l : List Byte} {i : Nat} (h : i < l.length) : l[i]? = some (l.getD i 0) := by
  simp [List.getD, h]

theorem load_some {m : Mem} {b o : Nat} (h : o < (m.bytes b).length) : ∃ v, (m.bytes b)[o]? = some v ∧ load (ptr b o) m = .ok v m :=
  ⟨_, getD_some h, load_ok (getD_some h)⟩

theorem put_some {m : Mem} {b o v : Nat} {i : U32} (hi : i.toNat = v) (hv : v < 64) (h : o < (m.bytes b).length) :
    ∃ m', putIdx (ptr b o) i m = .ok () m' ∧ OnlyChanged m m' b o 1 ∧ (m'.bytes b)[o]? = some (char v) := by
  obtain ⟨m', h1, h2, h3⟩ := Json.store_frame (m := m) (b := b) (o := o) (v := char v) h
  exact ⟨m', by rw [putIdx_eq m hi hv]; exact h1, h2, h3⟩

theorem group_any {m : Mem} {b oi bp op : Nat} (hi : oi + 3 ≤ (m.bytes b).length) (ho : op + 4 ≤ (m.bytes bp).length) :
    ∃ m' m1 m2 : Mem, ∃ a0 a1 b1 b2 c2 : Byte, encGroup (ptr b oi) (ptr bp op) m = .ok () m' ∧ OnlyChanged m m' bp op 4 ∧
      OnlyChanged m m1 bp op 1 ∧ OnlyChanged m1 m2 bp (op + 1) 1 ∧
      (m.bytes b)[oi]? = some a0 ∧ (m1.bytes b)[oi]? = some a1 ∧ (m1.bytes b)[oi + 1]? = some b1 ∧
      (m2.bytes b)[oi + 1]? = some b2 ∧ (m2.bytes b)[oi + 2]? = some c2 ∧
      (m1.bytes bp)[op]? = some (char (sextet (group a0 0 0) 0)) ∧
      (m'.bytes bp)[op]? = some (char (sextet (group a0 0 0) 0)) ∧
      (m'.bytes bp)[op + 1]? = some (char (sextet (group a1 b1 0) 1)) ∧
      (m'.bytes bp)[op + 2]? = some (char (sextet (group 0 b2 c2) 2)) := by
  unfold encGroup
  simp only [ptr_addN]
  obtain ⟨a, a1, a2⟩ := load_some (m := m) (b := b) (o := oi) (by omega)
  obtain ⟨m1, p1, p2, p3⟩ := put_some (m := m) (b := bp) (o := op) (idx0 a 0 0) (sextet_lt _ _) (by omega)
  rw [C.bind_ok a2, C.bind_ok p1]
  have l1 := oc_length p2
  obtain ⟨a', b1, b2⟩ := load_some (m := m1) (b := b) (o := oi) (by rw [l1]; omega)
  obtain ⟨b', c1, c2⟩ := load_some (m := m1) (b := b) (o := oi + 1) (by rw [l1]; omega)
  obtain ⟨m2, q1, q2, q3⟩ := put_some (m := m1) (b := bp) (o := op + 1) (idx1 a' b' 0) (sextet_lt _ _) (by rw [l1]; omega)
  rw [C.bind_ok b2, C.bind_ok c2, C.bind_ok q1]
  have l2 := oc_length q2
  obtain ⟨b'', d1, d2⟩ := load_some (m := m2) (b := b) (o := oi + 1) (by rw [l2, l1]; omega)
  obtain ⟨c, e1, e2⟩ := load_some (m := m2) (b := b) (o := oi + 2) (by rw [l2, l1]; omega)
  obtain ⟨m3, r1, r2, r3⟩ := put_some (m := m2) (b := bp) (o := op + 2) (idx2 0 b'' c) (sextet_lt _ _) (by rw [l2, l1]; omega)
  rw [C.bind_ok d2, C.bind_ok e2, C.bind_ok r1]
  have l3 := oc_length r2
  obtain ⟨c', _, f2⟩ := load_some (m := m3) (b := b) (o := oi + 2) (by rw [l3, l2, l1]; omega)
  obtain ⟨m4, s1, s2, s3⟩ := put_some (m := m3) (b := bp) (o := op + 3) (idx3 0 0 c') (sextet_lt _ _) (by rw [l3, l2, l1]; omega)
  rw [C.bind_ok f2]
  refine ⟨m4, m1, m2, a, a', b', b'', c, s1, oc_trans (oc_trans (oc_trans (oc_mono p2 (by omega) (by omega))
    (oc_mono q2 (by omega) (by omega))) (oc_mono r2 (by omega) (by omega))) (oc_mono s2 (by omega) (by omega)), p2, q2,
    a1, b1, c1, d1, e1, p3, ?_, ?_, ?_⟩
  · rw [s2.2.2.2 _ (by omega), r2.2.2.2 _ (by omega), q2.2.2.2 _ (by omega), p3]
  · rw [s2.2.2.2 _ (by omega), r2.2.2.2 _ (by omega), q3]
  · rw [s2.2.2.2 _ (by omega), r3]

theorem last_any {m : Mem} {b oi bp op : Nat} {dl ip : SizeT} {r : Nat} (hr : (dl - ip).toNat = r) (h1 : 0 < r) (h2 : r < 3)
    (hi : oi + r ≤ (m.bytes b).length) (ho : op + 4 ≤ (m.bytes bp).length) :
    ∃ m' m1 : Mem, ∃ a0 a1 b1 : Byte, encLast dl ip (ptr b oi) (ptr bp op) m = .ok (ptr bp (op + 4)) m' ∧
      OnlyChanged m m' bp op 4 ∧ OnlyChanged m m1 bp op 1 ∧
      (m.bytes b)[oi]? = some a0 ∧ (m1.bytes b)[oi]? = some a1 ∧ (r = 1 → b1 = 0) ∧
      (r = 2 → (m1.bytes b)[oi + 1]? = some b1) ∧
      (m1.bytes bp)[op]? = some (char (sextet (group a0 0 0) 0)) ∧
      (m'.bytes bp)[op]? = some (char (sextet (group a0 0 0) 0)) ∧
      (m'.bytes bp)[op + 1]? = some (char (sextet (group a1 b1 0) 1)) := by
  unfold encLast
  simp only [ptr_addN]
  obtain ⟨a, a1, a2⟩ := load_some (m := m) (b := b) (o := oi) (by omega)
  obtain ⟨m1, p1, p2, p3⟩ := put_some (m := m) (b := bp) (o := op) (idx0 a 0 0) (sextet_lt _ _) (by omega)
  rw [C.bind_ok a2, C.bind_ok p1]
  have l1 := oc_length p2
  obtain ⟨a', b1, b2⟩ := load_some (m := m1) (b := b) (o := oi) (by rw [l1]; omega)
  have p2' := oc_mono p2 (o2 := op) (n2 := 4) (by omega) (by omega)
  by_cases hone : r = 1
  · have h1' : dl - ip = 1#64 := BitVec.eq_of_toNat_eq (by rw [hr, hone]; rfl)
    rw [if_pos h1']
    obtain ⟨m2, q1, q2, q3⟩ := put_some (m := m1) (b := bp) (o := op + 1) (idx1' a') (sextet_lt _ _) (by rw [l1]; omega)
    have l2 := oc_length q2
    obtain ⟨m3, r1, r2, r3⟩ := Json.store_frame (m := m2) (b := bp) (o := op + 2) (v := 61#8) (by rw [l2, l1]; omega)
    have l3 := oc_length r2
    obtain ⟨m4, s1, s2, s3⟩ := Json.store_frame (m := m3) (b := bp) (o := op + 3) (v := 61#8) (by rw [l3, l2, l1]; omega)
    rw [C.bind_ok b2, C.bind_ok q1, C.bind_ok r1, C.bind_ok s1]
    refine ⟨m4, m1, a, a', 0, rfl, oc_trans (oc_trans (oc_trans p2' (oc_mono q2 (by omega) (by omega)))
      (oc_mono r2 (by omega) (by omega))) (oc_mono s2 (by omega) (by omega)), p2, a1, b1, fun _ => rfl,
      fun h => by omega, p3, ?_, ?_⟩
    · rw [s2.2.2.2 _ (by omega), r2.2.2.2 _ (by omega), q2.2.2.2 _ (by omega), p3]
    · rw [s2.2.2.2 _ (by omega), r2.2.2.2 _ (by omega), q3]
  · have h1' : dl - ip ≠ 1#64 := fun e => by rw [e] at hr; exact hone hr.symm
    rw [if_neg h1']
    obtain ⟨b', c1, c2⟩ := load_some (m := m1) (b := b) (o := oi + 1) (by rw [l1]; omega)
    obtain ⟨m2, q1, q2, q3⟩ := put_some (m := m1) (b := bp) (o := op + 1) (idx1 a' b' 0) (sextet_lt _ _) (by rw [l1]; omega)
    have l2 := oc_length q2
    obtain ⟨b'', _, d2⟩ := load_some (m := m2) (b := b) (o := oi + 1) (by rw [l2, l1]; omega)
    obtain ⟨m3, r1, r2, r3⟩ := put_some (m := m2) (b := bp) (o := op + 2) (idx2' 0 b'') (sextet_lt _ _) (by rw [l2, l1]; omega)
    have l3 := oc_length r2
    obtain ⟨m4, s1, s2, s3⟩ := Json.store_frame (m := m3) (b := bp) (o := op + 3) (v := 61#8) (by rw [l3, l2, l1]; omega)
    rw [C.bind_ok b2, C.bind_ok c2, C.bind_ok q1, C.bind_ok d2, C.bind_ok r1, C.bind_ok s1]
    refine ⟨m4, m1, a, a', b', rfl, oc_trans (oc_trans (oc_trans p2' (oc_mono q2 (by omega) (by omega)))
      (oc_mono r2 (by omega) (by omega))) (oc_mono s2 (by omega) (by omega)), p2, a1, b1, fun h => absurd h hone,
      fun _ => c1, p3, ?_, ?_⟩
    · rw [s2.2.2.2 _ (by omega), r2.2.2.2 _ (by omega), q2.2.2.2 _ (by omega), p3]
    · rw [s2.2.2.2 _ (by omega), r2.2.2.2 _ (by omega), q3]

theorem enc_any {dl mx : SizeT} (fuel : Nat) : ∀ {ip cur : SizeT} {r q b oi bp op : Nat} {m : Mem}, At dl mx ip cur r q →
    r < fuel → oi + r ≤ (m.bytes b).length → op + min (4 * ((r + 2) / 3)) (4 * (q / 4)) + 1 ≤ (m.bytes bp).length →
    ∃ m', enc dl mx fuel b oi bp op ip cur m = .ok (if 4 * ((r + 2) / 3) ≤ q then 0 else 1) m' ∧
      OnlyChanged m m' bp op (min (4 * ((r + 2) / 3)) (4 * (q / 4)) + 1) := by
  induction fuel with
  | zero => intro _ _ r; omega
  | succ fuel ih =>
    intro ip cur r q b oi bp op m h hf hi ho
    by_cases h0 : r = 0
    · rw [enc_end h _ _ _ _ _ h0]
      obtain ⟨m1, a1, a2, _⟩ := Json.store_frame (m := m) (b := bp) (o := op) (v := 0#8) (by omega)
      rw [C.bind_ok a1, if_pos (by omega)]
      exact ⟨m1, rfl, oc_mono a2 (by omega) (by omega)⟩
    · by_cases hq : q < 4
      · rw [enc_stop h _ _ _ _ _ (by omega) hq]
        obtain ⟨m1, a1, a2, _⟩ := Json.store_frame (m := m) (b := bp) (o := op) (v := 0#8) (by omega)
        rw [C.bind_ok a1, if_neg (by omega)]
        exact ⟨m1, rfl, oc_mono a2 (by omega) (by omega)⟩
      · by_cases hr : r < 3
        · rw [enc_last h _ _ _ _ _ (by omega) hr (by omega)]
          obtain ⟨m1, _, _, _, _, a1, a2, _⟩ := last_any (m := m) (b := b) (oi := oi) (bp := bp) (op := op) h.rem (by omega) hr hi
            (by omega)
          obtain ⟨m2, b1, b2, _⟩ := Json.store_frame (m := m1) (b := bp) (o := op + 4) (v := 0#8)
            (by rw [oc_length a2]; omega)
          rw [C.bind_ok a1, C.bind_ok b1, if_pos (by omega)]
          exact ⟨m2, rfl, oc_trans (oc_mono a2 (by omega) (by omega)) (oc_mono b2 (by omega) (by omega))⟩
        · rw [enc_group h _ _ _ _ _ (by omega) (by omega)]
          obtain ⟨m1, _, _, _, _, _, _, _, a1, a2, _⟩ := group_any (m := m) (b := b) (oi := oi) (bp := bp) (op := op) (by omega) (by omega)
          obtain ⟨m2, b1, b2⟩ := ih (m := m1) (b := b) (oi := oi + 3) (bp := bp) (op := op + 4)
            (h.next (by omega) (by omega)) (by omega) (by rw [oc_length a2]; omega) (by rw [oc_length a2]; omega)
          rw [C.bind_ok a1, b1]
          refine ⟨m2, ?_, oc_trans (oc_mono a2 (by omega) (by omega)) (oc_mono b2 (by omega) (by omega))⟩
          congr 1
          by_cases hc : 4 * ((r + 2) / 3) ≤ q
          · rw [if_pos (by omega), if_pos hc]
          · rw [if_neg (by omega), if_neg hc]

/-! ### The data starts far enough behind the text: correct -/

theorem group_near {m : Mem} {bl oi op : Nat} {a b c : Byte} {t : List Byte} (h : Reads m bl oi (a :: b :: c :: t))
    (hd : op + 1 ≤ oi) :
    encGroup (ptr bl oi) (ptr bl op) m = puts (ptr bl op)
      [char (sextet (group a b c) 0), char (sextet (group a b c) 1), char (sextet (group a b c) 2),
        char (sextet (group a b c) 3)] m := by
  unfold encGroup
  simp only [puts, ptr_addN]
  rw [C.bind_ok h.load0, putIdx_bind m _ (idx0 a b c) (sextet_lt _ _)]
  refine bind_congr_ok fun _ m1 h1 => ?_
  replace h := h.store h1 (by omega)
  rw [C.bind_ok h.load0, C.bind_ok (h.load (i := 1) rfl),
    putIdx_bind m1 _ (idx1 a b c) (sextet_lt _ _)]
  refine bind_congr_ok fun _ m2 h2 => ?_
  replace h := (reads_tail h).store h2 (by omega)
  rw [C.bind_ok h.load0, C.bind_ok (h.load (i := 1) rfl),
    putIdx_bind m2 _ (idx2 a b c) (sextet_lt _ _)]
  refine bind_congr_ok fun _ m3 h3 => ?_
  replace h := (reads_tail h).store h3 (by omega)
  rw [C.bind_ok h.load0, putIdx_eq m3 (idx3 a b c) (sextet_lt _ _), C.bind_run]
  cases store _ _ m3 <;> rfl

theorem last_near_one {m : Mem} {bl oi op : Nat} {a : Byte} {dl ip : SizeT} (h : Reads m bl oi [a])
    (hl : (dl - ip).toNat = 1) (hd : op + 1 ≤ oi) :
    encLast dl ip (ptr bl oi) (ptr bl op) m = (puts (ptr bl op)
      [char (sextet (group a 0 0) 0), char (sextet (group a 0 0) 1), pad, pad] >>= fun _ => pure (ptr bl (op + 4))) m := by
  have h1' : dl - ip = 1#64 := BitVec.eq_of_toNat_eq (by rw [hl]; rfl)
  unfold encLast
  simp only [puts, ptr_addN]
  rw [C.bind_ok h.load0, putIdx_bind m _ (idx0 a 0 0) (sextet_lt _ _)]
  simp only [C_bind_assoc]
  refine bind_congr_ok fun _ m1 h1 => ?_
  replace h := h.store h1 (by omega)
  rw [if_pos h1']
  rw [C.bind_ok h.load0, putIdx_bind m1 _ (idx1' a) (sextet_lt _ _)]
  refine bind_congr_ok fun _ m2 h2 => ?_
  refine bind_congr_ok fun _ m3 h3 => ?_
  refine bind_congr_ok fun _ m4 h4 => ?_
  rfl

theorem last_near_two {m : Mem} {bl oi op : Nat} {a b : Byte} {dl ip : SizeT} (h : Reads m bl oi [a, b])
    (hl : (dl - ip).toNat = 2) (hd : op + 1 ≤ oi) :
    encLast dl ip (ptr bl oi) (ptr bl op) m = (puts (ptr bl op)
      [char (sextet (group a b 0) 0), char (sextet (group a b 0) 1), char (sextet (group a b 0) 2), pad] >>=
        fun _ => pure (ptr bl (op + 4))) m := by
  have h1' : dl - ip ≠ 1#64 := fun e => by rw [e] at hl; cases hl
  unfold encLast
  simp only [puts, ptr_addN]
  rw [C.bind_ok h.load0, putIdx_bind m _ (idx0 a b 0) (sextet_lt _ _)]
  simp only [C_bind_assoc]
  refine bind_congr_ok fun _ m1 h1 => ?_
  replace h := h.store h1 (by omega)
  rw [if_neg h1']
  rw [C.bind_ok h.load0, C.bind_ok (h.load (i := 1) rfl),
    putIdx_bind m1 _ (idx1 a b 0) (sextet_lt _ _)]
  refine bind_congr_ok fun _ m2 h2 => ?_
  replace h := (reads_tail h).store h2 (by omega)
  rw [C.bind_ok h.load0, putIdx_bind m2 _ (idx2' a b) (sextet_lt _ _)]
  refine bind_congr_ok fun _ m3 h3 => ?_
  refine bind_congr_ok fun _ m4 h4 => ?_
  rfl

theorem enc_near {dl mx : SizeT} (d : List Byte) : ∀ {fuel : Nat} {ip cur : SizeT} {q bl oi op : Nat} {m : Mem},
    At dl mx ip cur d.length q → d.length < fuel → Reads m bl oi d → op + min ((d.length + 2) / 3) (q / 4) ≤ oi →
    enc dl mx fuel bl oi bl op ip cur m =
      (puts (ptr bl op) ((Spec.Base64.encode d).take (4 * (q / 4)) ++ [0#8]) >>= fun _ =>
        pure (if 4 * ((d.length + 2) / 3) ≤ q then 0 else 1)) m := by
  induction d using Spec.Base64.encode.induct with
  | case1 =>
    intro fuel ip cur q bl oi op m h hf hr hd
    obtain ⟨fuel, rfl⟩ : ∃ k, fuel = k + 1 := ⟨fuel - 1, by omega⟩
    rw [enc_end h _ _ _ _ _ rfl]
    simp only [Spec.Base64.encode, List.take_nil, List.nil_append, puts, C_bind_assoc]
    rfl
  | case2 a =>
    intro fuel ip cur q bl oi op m h hf hr hd
    obtain ⟨fuel, rfl⟩ : ∃ k, fuel = k + 1 := ⟨fuel - 1, by omega⟩
    have hl : ([a] : List Byte).length = 1 := rfl
    rw [hl] at hd hf h
    by_cases hq : q < 4
    · rw [enc_stop h _ _ _ _ _ (by omega) hq, show 4 * (q / 4) = 0 by omega, hl, if_neg (by omega)]
      simp only [List.take_zero, List.nil_append, puts, C_bind_assoc]
      rfl
    · rw [enc_last h _ _ _ _ _ (by omega) (by omega) (by omega), hl, if_pos (by omega),
        List.take_of_length_le (by simp [Spec.Base64.encode]; omega)]
      refine (bind_left (last_near_one hr h.rem (by omega)) _).trans ?_
      simp only [C_bind_assoc, Spec.Base64.encode, puts, List.cons_append, List.nil_append]
      rfl
  | case3 a b =>
    intro fuel ip cur q bl oi op m h hf hr hd
    obtain ⟨fuel, rfl⟩ : ∃ k, fuel = k + 1 := ⟨fuel - 1, by omega⟩
    have hl : ([a, b] : List Byte).length = 2 := rfl
    rw [hl] at hd hf h
    by_cases hq : q < 4
    · rw [enc_stop h _ _ _ _ _ (by omega) hq, show 4 * (q / 4) = 0 by omega, hl, if_neg (by omega)]
      simp only [List.take_zero, List.nil_append, puts, C_bind_assoc]
      rfl
    · rw [enc_last h _ _ _ _ _ (by omega) (by omega) (by omega), hl, if_pos (by omega),
        List.take_of_length_le (by simp [Spec.Base64.encode]; omega)]
      refine (bind_left (last_near_two hr h.rem (by omega)) _).trans ?_
      simp only [C_bind_assoc, Spec.Base64.encode, puts, List.cons_append, List.nil_append]
      rfl
  | case4 a b c t ih =>
    intro fuel ip cur q bl oi op m h hf hr hd
    obtain ⟨fuel, rfl⟩ : ∃ k, fuel = k + 1 := ⟨fuel - 1, by omega⟩
    have hl : (a :: b :: c :: t).length = t.length + 3 := by simp
    rw [hl] at hd hf h
    by_cases hq : q < 4
    · rw [enc_stop h _ _ _ _ _ (by omega) hq, show 4 * (q / 4) = 0 by omega, hl, if_neg (by omega)]
      simp only [List.take_zero, List.nil_append, puts, C_bind_assoc]
      rfl
    · have ht : (Spec.Base64.encode (a :: b :: c :: t)).take (4 * (q / 4)) =
          [char (sextet (group a b c) 0), char (sextet (group a b c) 1), char (sextet (group a b c) 2),
            char (sextet (group a b c) 3)] ++ (Spec.Base64.encode t).take (4 * ((q - 4) / 4)) := by
        rw [show 4 * (q / 4) = 4 + 4 * ((q - 4) / 4) by omega]
        simp only [Spec.Base64.encode]
        exact List.take_length_add_append (l₁ := [_, _, _, _]) _
      rw [enc_group h _ _ _ _ _ (by omega) (by omega), hl, ht, List.append_assoc]
      refine (bind_left (group_near hr (by omega)) _).trans ?_
      refine Eq.trans ?_ (bind_left (puts_append _ _ _ m) _).symm
      rw [C_bind_assoc]
      refine bind_congr_ok fun _ m1 h1 => ?_
      have hr2 : Reads m1 bl (oi + 3) t :=
        (reads_tail (reads_tail (reads_tail hr))).puts h1 (by simp only [List.length_cons, List.length_nil]; omega)
      have hn := h.next (by omega) (by omega)
      rw [show t.length + 3 - 3 = t.length by omega] at hn
      rw [ih hn (by omega) hr2 (by omega)]
      simp only [ptr_addN, List.length_cons, List.length_nil]
      congr 3
      by_cases hc : 4 * ((t.length + 2) / 3) ≤ q - 4
      · rw [if_pos hc, if_pos (by omega)]
      · rw [if_neg hc, if_neg (by omega)]

/-! ### Otherwise: wrong, for instance for data that are all zero -/

theorem char_zero : char (sextet (group 0#8 0 0) 0) = 65#8 := by decide +kernel

theorem hit0 (x y : Byte) : char (sextet (group 65#8 x y) 0) ≠ 65#8 := by
  have : sextet (group 65#8 x y) 0 = 16 := by
    have hx := x.isLt; have hy := y.isLt
    simp only [sextet, group, BitVec.toNat_ofNat]; omega
  rw [this]; decide +kernel

theorem char_ne {v : Nat} (h : v < 64) (h0 : v ≠ 0) : char v ≠ 65#8 := by
  have : ∀ v < 64, v ≠ 0 → char v ≠ 65#8 := by decide +kernel
  exact this v h h0

theorem hit1 (a b : Byte) (h : a = 65#8 ∨ b = 65#8) : char (sextet (group a b 0) 1) ≠ 65#8 := by
  apply char_ne (sextet_lt _ _)
  have ha := a.isLt; have hb := b.isLt
  rcases h with rfl | rfl
  · simp only [sextet, group, BitVec.toNat_ofNat]; omega
  · simp only [sextet, group, BitVec.toNat_ofNat]; omega

theorem hit2 (b : Byte) : char (sextet (group 0 b 65#8) 2) ≠ 65#8 := by
  apply char_ne (sextet_lt _ _)
  have hb := b.isLt
  simp only [sextet, group, BitVec.toNat_ofNat]; omega

/-- Zero data less than the number of groups behind the text. -/
theorem enc_hit {dl mx : SizeT} (D : Nat) : ∀ {fuel : Nat} {ip cur : SizeT} {r q bl oi op : Nat} {m : Mem},
    At dl mx ip cur r q → r < fuel → oi = op + D → D < min ((r + 2) / 3) (q / 4) →
    (∀ i < r, (m.bytes bl)[oi + i]? = some 0#8) → oi + r ≤ (m.bytes bl).length →
    op + min (4 * ((r + 2) / 3)) (4 * (q / 4)) + 1 ≤ (m.bytes bl).length →
    ∃ m' c, enc dl mx fuel bl oi bl op ip cur m = .ok (if 4 * ((r + 2) / 3) ≤ q then 0 else 1) m' ∧
      (m'.bytes bl)[op + 4 * D + 1]? = some c ∧ c ≠ 65#8 := by
  induction D with
  | zero =>
    intro fuel ip cur r q bl oi op m h hf hD hlt hz hi ho
    obtain ⟨fuel, rfl⟩ : ∃ k, fuel = k + 1 := ⟨fuel - 1, by omega⟩
    rw [Nat.add_zero] at hD
    subst hD
    have hz0 := hz 0 (by omega)
    rw [Nat.add_zero] at hz0
    by_cases hr : r < 3
    · rw [enc_last h _ _ _ _ _ (by omega) hr (by omega)]
      obtain ⟨m1, n1, a0, a1, b1, e1, f1, g1, x0, x1, y1, z1, w0, w1, w2⟩ :=
        last_any (m := m) (b := bl) (oi := oi) (bp := bl) (op := oi) h.rem (by omega) hr hi (by omega)
      obtain ⟨m2, s1, s2, _⟩ := Json.store_frame (m := m1) (b := bl) (o := oi + 4) (v := 0#8)
        (by rw [oc_length f1]; omega)
      rw [C.bind_ok e1, C.bind_ok s1, if_pos (by omega)]
      have ha0 : a0 = 0#8 := Option.some.inj (x0.symm.trans hz0)
      have ha1 : a1 = 65#8 := by
        rw [x1, ha0, char_zero] at w0; exact Option.some.inj w0
      exact ⟨m2, _, rfl, by rw [s2.2.2.2 _ (by omega)]; exact w2, hit1 _ _ (.inl ha1)⟩
    · rw [enc_group h _ _ _ _ _ (by omega) (by omega)]
      obtain ⟨m1, n1, n2, a0, a1, b1, b2, c2, e1, f1, g1, g2, x0, x1, x2, x3, x4, w0, w1, w2, w3⟩ :=
        group_any (m := m) (b := bl) (oi := oi) (bp := bl) (op := oi) (by omega) (by omega)
      obtain ⟨m2, s1, s2⟩ := enc_any fuel (m := m1) (b := bl) (oi := oi + 3) (bp := bl) (op := oi + 4)
        (h.next (by omega) (by omega)) (by omega) (by rw [oc_length f1]; omega) (by rw [oc_length f1]; omega)
      have ha0 : a0 = 0#8 := Option.some.inj (x0.symm.trans hz0)
      have ha1 : a1 = 65#8 := by
        rw [x1, ha0, char_zero] at w0; exact Option.some.inj w0
      refine ⟨m2, _, ?_, by rw [s2.2.2.2 _ (by omega)]; exact w2, hit1 _ _ (.inl ha1)⟩
      rw [C.bind_ok e1, s1]
      congr 1
      by_cases hc : 4 * ((r + 2) / 3) ≤ q
      · rw [if_pos (by omega), if_pos hc]
      · rw [if_neg (by omega), if_neg hc]
  | succ D ih =>
    intro fuel ip cur r q bl oi op m h hf hD hlt hz hi ho
    obtain ⟨fuel, rfl⟩ : ∃ k, fuel = k + 1 := ⟨fuel - 1, by omega⟩
    rw [enc_group h _ _ _ _ _ (by omega) (by omega)]
    obtain ⟨m1, _, _, _, _, _, _, _, e1, f1, _⟩ :=
      group_any (m := m) (b := bl) (oi := oi) (bp := bl) (op := op) (by omega) (by omega)
    obtain ⟨m2, c, s1, s2, s3⟩ := ih (fuel := fuel) (m := m1) (bl := bl) (oi := oi + 3) (op := op + 4)
      (h.next (by omega) (by omega)) (by omega) (by omega) (by omega)
      (fun i hi => by
        rw [f1.2.2.2 _ (by omega), show oi + 3 + i = oi + (i + 3) by omega]
        exact hz (i + 3) (by omega))
      (by rw [oc_length f1]; omega) (by rw [oc_length f1]; omega)
    refine ⟨m2, c, ?_, ?_, s3⟩
    · rw [C.bind_ok e1, s1]
      congr 1
      by_cases hc : 4 * ((r + 2) / 3) ≤ q
      · rw [if_pos (by omega), if_pos hc]
      · rw [if_neg (by omega), if_neg hc]
    · rw [← s2]; congr 1; omega

/-- Byte `j` of what is left of the data has become an `A`. -/
theorem enc_later {dl mx : SizeT} (fuel : Nat) : ∀ {ip cur : SizeT} {r q j bl oi op : Nat} {m : Mem},
    At dl mx ip cur r q → r < fuel → j < r → oi + j + 4 ≤ op → 4 * ((r + 2) / 3) ≤ q →
    (m.bytes bl)[oi + j]? = some 65#8 → oi + r ≤ (m.bytes bl).length →
    op + 4 * ((r + 2) / 3) + 1 ≤ (m.bytes bl).length →
    ∃ m' c, enc dl mx fuel bl oi bl op ip cur m = .ok 0 m' ∧
      (m'.bytes bl)[op + 4 * (j / 3) + j % 3]? = some c ∧ c ≠ 65#8 := by
  induction fuel with
  | zero => intro _ _ r; omega
  | succ fuel ih =>
    intro ip cur r q j bl oi op m h hf hj hd hq hA hi ho
    by_cases hr : r < 3
    · rw [enc_last h _ _ _ _ _ (by omega) hr (by omega)]
      obtain ⟨m1, n1, a0, a1, b1, e1, f1, g1, x0, x1, y1, z1, w0, w1, w2⟩ :=
        last_any (m := m) (b := bl) (oi := oi) (bp := bl) (op := op) h.rem (by omega) hr hi (by omega)
      obtain ⟨m2, s1, s2, _⟩ := Json.store_frame (m := m1) (b := bl) (o := op + 4) (v := 0#8)
        (by rw [oc_length f1]; omega)
      rw [C.bind_ok e1, C.bind_ok s1]
      have hj2 : j = 0 ∨ j = 1 := by omega
      rcases hj2 with rfl | rfl
      · have ha0 : a0 = 65#8 := Option.some.inj (x0.symm.trans hA)
        refine ⟨m2, _, rfl, by rw [s2.2.2.2 _ (by omega)]; exact w1, ?_⟩
        rw [ha0]; exact hit0 _ _
      · have hb : b1 = 65#8 := by
          have := z1 (by omega)
          rw [g1.2.2.2 _ (by omega), hA] at this
          exact (Option.some.inj this).symm
        exact ⟨m2, _, rfl, by rw [s2.2.2.2 _ (by omega)]; exact w2, hit1 _ _ (.inr hb)⟩
    · rw [enc_group h _ _ _ _ _ (by omega) (by omega)]
      obtain ⟨m1, n1, n2, a0, a1, b1, b2, c2, e1, f1, g1, g2, x0, x1, x2, x3, x4, w0, w1, w2, w3⟩ :=
        group_any (m := m) (b := bl) (oi := oi) (bp := bl) (op := op) (by omega) (by omega)
      by_cases hj3 : j < 3
      · obtain ⟨m2, s1, s2⟩ := enc_any fuel (m := m1) (b := bl) (oi := oi + 3) (bp := bl) (op := op + 4)
          (h.next (by omega) (by omega)) (by omega) (by rw [oc_length f1]; omega) (by rw [oc_length f1]; omega)
        rw [if_pos (by omega)] at s1
        have hj2 : j = 0 ∨ j = 1 ∨ j = 2 := by omega
        rcases hj2 with rfl | rfl | rfl
        · have ha0 : a0 = 65#8 := Option.some.inj (x0.symm.trans hA)
          refine ⟨m2, _, by rw [C.bind_ok e1, s1], by rw [s2.2.2.2 _ (by omega)]; exact w1, ?_⟩
          rw [ha0]; exact hit0 _ _
        · have hb : b1 = 65#8 := by
            rw [g1.2.2.2 _ (by omega), hA] at x2
            exact (Option.some.inj x2).symm
          exact ⟨m2, _, by rw [C.bind_ok e1, s1], by rw [s2.2.2.2 _ (by omega)]; exact w2, hit1 _ _ (.inr hb)⟩
        · have hc : c2 = 65#8 := by
            rw [g2.2.2.2 _ (by omega), g1.2.2.2 _ (by omega), hA] at x4
            exact (Option.some.inj x4).symm
          refine ⟨m2, _, by rw [C.bind_ok e1, s1], by rw [s2.2.2.2 _ (by omega)]; exact w3, ?_⟩
          rw [hc]; exact hit2 _
      · obtain ⟨m2, c, s1, s2, s3⟩ := ih (m := m1) (bl := bl) (oi := oi + 3) (op := op + 4) (j := j - 3)
          (h.next (by omega) (by omega)) (by omega) (by omega) (by omega) (by omega)
          (by rw [f1.2.2.2 _ (by omega), ← hA]; congr 1; omega)
          (by rw [oc_length f1]; omega) (by rw [oc_length f1]; omega)
        refine ⟨m2, c, by rw [C.bind_ok e1, s1], ?_, s3⟩
        rw [← s2]; congr 1; omega

/-- Zero data in whose middle the text starts. -/
theorem enc_behind {dl mx : SizeT} {fuel : Nat} {ip cur : SizeT} {r q j bl oi op : Nat} {m : Mem}
    (h : At dl mx ip cur r q) (hf : r < fuel) (hop : op = oi + j) (hj0 : 0 < j) (hj : j < r)
    (hq : 4 * ((r + 2) / 3) ≤ q) (hz : ∀ i < r, (m.bytes bl)[oi + i]? = some 0#8) (hi : oi + r ≤ (m.bytes bl).length)
    (ho : op + 4 * ((r + 2) / 3) + 1 ≤ (m.bytes bl).length) :
    ∃ m' c, enc dl mx fuel bl oi bl op ip cur m = .ok 0 m' ∧
      (m'.bytes bl)[op + 4 * (j / 3) + j % 3]? = some c ∧ c ≠ 65#8 := by
  obtain ⟨fuel, rfl⟩ : ∃ k, fuel = k + 1 := ⟨fuel - 1, by omega⟩
  have hz0 := hz 0 (by omega)
  rw [Nat.add_zero] at hz0
  by_cases hr : r < 3
  · rw [enc_last h _ _ _ _ _ (by omega) hr (by omega)]
    obtain ⟨m1, n1, a0, a1, b1, e1, f1, g1, x0, x1, y1, z1, w0, w1, w2⟩ :=
      last_any (m := m) (b := bl) (oi := oi) (bp := bl) (op := op) h.rem (by omega) hr hi (by omega)
    obtain ⟨m2, s1, s2, _⟩ := Json.store_frame (m := m1) (b := bl) (o := op + 4) (v := 0#8)
      (by rw [oc_length f1]; omega)
    rw [C.bind_ok e1, C.bind_ok s1]
    have hj1 : j = 1 := by omega
    subst hj1
    have ha0 : a0 = 0#8 := Option.some.inj (x0.symm.trans hz0)
    have hb : b1 = 65#8 := by
      have := z1 (by omega)
      rw [← hop, w0, ha0, char_zero] at this
      exact (Option.some.inj this).symm
    exact ⟨m2, _, rfl, by rw [s2.2.2.2 _ (by omega)]; exact w2, hit1 _ _ (.inr hb)⟩
  · rw [enc_group h _ _ _ _ _ (by omega) (by omega)]
    obtain ⟨m1, n1, n2, a0, a1, b1, b2, c2, e1, f1, g1, g2, x0, x1, x2, x3, x4, w0, w1, w2, w3⟩ :=
      group_any (m := m) (b := bl) (oi := oi) (bp := bl) (op := op) (by omega) (by omega)
    have ha0 : a0 = 0#8 := Option.some.inj (x0.symm.trans hz0)
    rw [ha0, char_zero] at w0 w1
    by_cases hj3 : j < 3
    · obtain ⟨m2, s1, s2⟩ := enc_any fuel (m := m1) (b := bl) (oi := oi + 3) (bp := bl) (op := op + 4)
        (h.next (by omega) (by omega)) (by omega) (by rw [oc_length f1]; omega) (by rw [oc_length f1]; omega)
      rw [if_pos (by omega)] at s1
      have hj2 : j = 1 ∨ j = 2 := by omega
      rcases hj2 with rfl | rfl
      · have hb : b1 = 65#8 := by
          rw [← hop, w0] at x2
          exact (Option.some.inj x2).symm
        exact ⟨m2, _, by rw [C.bind_ok e1, s1], by rw [s2.2.2.2 _ (by omega)]; exact w2, hit1 _ _ (.inr hb)⟩
      · have hc : c2 = 65#8 := by
          rw [g2.2.2.2 _ (by omega), ← hop, w0] at x4
          exact (Option.some.inj x4).symm
        refine ⟨m2, _, by rw [C.bind_ok e1, s1], by rw [s2.2.2.2 _ (by omega)]; exact w3, ?_⟩
        rw [hc]; exact hit2 _
    · obtain ⟨m2, c, s1, s2, s3⟩ := enc_later fuel (m := m1) (bl := bl) (oi := oi + 3) (op := op + 4) (j := j - 3)
        (h.next (by omega) (by omega)) (by omega) (by omega) (by omega) (by omega)
        (by rw [← w1]; congr 1; omega)
        (by rw [oc_length f1]; omega) (by rw [oc_length f1]; omega)
      refine ⟨m2, c, by rw [C.bind_ok e1, s1], ?_, s3⟩
      rw [← s2]; congr 1; omega

/-- The text of zero data. -/
theorem encode_zeros (n : Nat) : ∀ i, i < (4 * n + 2) / 3 → 0 < n → (Spec.Base64.encode (List.replicate n 0#8))[i]? = some 65#8 := by
  have A : char 0 = 65#8 := by decide +kernel
  have S : ∀ i, sextet (group 0#8 0#8 0#8) i = 0 := by intro i; simp [sextet, group]
  induction n using Nat.strongRecOn with
  | ind n ih =>
    intro i hi hn
    match n, ih, hi, hn with
    | 1, _, hi, _ =>
      have : i = 0 ∨ i = 1 := by omega
      rcases this with rfl | rfl <;> decide +kernel
    | 2, _, hi, _ =>
      have : i = 0 ∨ i = 1 ∨ i = 2 := by omega
      rcases this with rfl | rfl | rfl <;> decide +kernel
    | n + 3, ih, hi, _ =>
      rw [List.replicate_succ, List.replicate_succ, List.replicate_succ, Spec.Base64.encode, S, S, S, S, A]
      by_cases h4 : i < 4
      · have : i = 0 ∨ i = 1 ∨ i = 2 ∨ i = 3 := by omega
        rcases this with rfl | rfl | rfl | rfl <;> rfl
      · rw [List.getElem?_append_right (by simp; omega)]
        by_cases h0 : n = 0
        · omega
        · exact ih n (by omega) _ (by simp; omega) (by omega)

end IMU.Base64
