import Verif.Proofs.Base64

namespace IMU.Base64
open Spec.Base64 (char pad group sextet value quad octet last)

theorem ofNat_toNat {v : Nat} (h : v < 64) : (BitVec.ofNat 32 v).toNat = v := by
  rw [BitVec.toNat_ofNat]; omega

theorem quad_toNat (a b c d : Byte) :
    (BitVec.ofNat 32 (value a) <<< 18 ||| BitVec.ofNat 32 (value b) <<< 12 ||| BitVec.ofNat 32 (value c) <<< 6 |||
      BitVec.ofNat 32 (value d)).toNat = quad a b c d := by
  have ha := value_lt a; have hb := value_lt b; have hc := value_lt c; have hd := value_lt d
  simp only [BitVec.toNat_or, BitVec.toNat_shiftLeft, ofNat_toNat ha, ofNat_toNat hb, ofNat_toNat hc, ofNat_toNat hd]
  rw [Nat.mod_eq_of_lt (b := 2 ^ 32) (a := value a <<< 18) (by rw [Nat.shiftLeft_eq]; omega),
    Nat.mod_eq_of_lt (b := 2 ^ 32) (a := value b <<< 12) (by rw [Nat.shiftLeft_eq]; omega),
    Nat.mod_eq_of_lt (b := 2 ^ 32) (a := value c <<< 6) (by rw [Nat.shiftLeft_eq]; omega)]
  rw [or_add _ (value b <<< 12) 18 (by rw [Nat.shiftLeft_eq]; omega)]
  rw [show value a * 2 ^ 18 + value b <<< 12 = (value a * 64 + value b) <<< 12 by
    rw [Nat.shiftLeft_eq, Nat.shiftLeft_eq]; omega]
  rw [or_add _ (value c <<< 6) 12 (by rw [Nat.shiftLeft_eq]; omega)]
  rw [show (value a * 64 + value b) * 2 ^ 12 + value c <<< 6 = ((value a * 64 + value b) * 64 + value c) <<< 6 by
    rw [Nat.shiftLeft_eq, Nat.shiftLeft_eq]; omega]
  rw [or_add _ _ 6 (by omega)]
  unfold quad
  omega

theorem quad_lt (a b c d : Byte) : quad a b c d < 2 ^ 24 := by
  have ha := value_lt a; have hb := value_lt b; have hc := value_lt c; have hd := value_lt d
  unfold quad; omega

theorem oct0 {n : U32} {v : Nat} (h : n.toNat = v) : (n >>> 16).setWidth 8 = octet v 0 := by
  apply BitVec.eq_of_toNat_eq
  rw [octet, BitVec.toNat_setWidth, BitVec.toNat_ushiftRight, h, Nat.shiftRight_eq_div_pow, BitVec.toNat_ofNat]

theorem lowFF (n : U32) : (n &&& 0xFF#32).toNat = n.toNat % 256 := by
  rw [BitVec.toNat_and, show (0xFF#32).toNat = 2 ^ 8 - 1 from rfl, Nat.and_two_pow_sub_one_eq_mod]

theorem oct1 {n : U32} {v : Nat} (h : n.toNat = v) : ((n >>> 8) &&& 0xFF#32).setWidth 8 = octet v 1 := by
  apply BitVec.eq_of_toNat_eq
  rw [octet, BitVec.toNat_setWidth, lowFF, BitVec.toNat_ushiftRight, h, Nat.shiftRight_eq_div_pow, BitVec.toNat_ofNat]
  omega

theorem oct2 {n : U32} {v : Nat} (h : n.toNat = v) : (n &&& 0xFF#32).setWidth 8 = octet v 2 := by
  apply BitVec.eq_of_toNat_eq
  rw [octet, BitVec.toNat_setWidth, lowFF, h, BitVec.toNat_ofNat]
  omega

theorem index_ok {b o : Nat} {m : Mem} {c : Byte} (h : load (ptr b o) m = .ok c m) :
    index (ptr b o) m = .ok (BitVec.ofNat 32 (value c)) m := by
  unfold index constAt
  rw [C.bind_ok h, index_value c]
  rfl

theorem index_ub {b o : Nat} {m : Mem} (h : (m.bytes b).length ≤ o) : index (ptr b o) m = .ub .oobRead :=
  C.bind_ub (load_oob h)

theorem decGroup_eq {m : Mem} {bi oi bo oo i j : Nat} {a b c d : Byte} {t : List Byte}
    (h : Reads m bi (oi + i) (a :: b :: c :: d :: t)) :
    decGroup (ptr bi oi) (ptr bo oo) i j m = (puts (ptr bo (oo + j))
      [octet (quad a b c d) 0, octet (quad a b c d) 1, octet (quad a b c d) 2] >>= fun _ => pure (j + 3)) m := by
  unfold decGroup
  simp only [puts, ptr_addN, C_bind_assoc, ← Nat.add_assoc]
  rw [C.bind_ok (index_ok h.load0), C.bind_ok (index_ok (h.load (i := 1) rfl)),
    C.bind_ok (index_ok (h.load (i := 2) rfl)), C.bind_ok (index_ok (h.load (i := 3) rfl)),
    oct0 (quad_toNat a b c d), oct1 (quad_toNat a b c d), oct2 (quad_toNat a b c d)]
  rfl

/-- Decoding of complete groups without padding. -/
def full : List Byte → List Byte
  | a :: b :: c :: d :: t => [octet (quad a b c d) 0, octet (quad a b c d) 1, octet (quad a b c d) 2] ++ full t
  | _ => []

theorem full_length : ∀ (q : Nat) (p : List Byte), p.length = 4 * q → (full p).length = 3 * q
  | 0, p, h => by
    have : p = [] := List.length_eq_zero_iff.mp (by omega)
    subst this; rfl
  | q + 1, a :: b :: c :: d :: t, h => by
    have := full_length q t (by simp at h; omega)
    simp only [full, List.length_append, List.length_cons, List.length_nil, this]; omega
  | q + 1, [], h => by simp at h
  | q + 1, [a], h => by simp at h; omega
  | q + 1, [a, b], h => by simp at h; omega
  | q + 1, [a, b, c], h => by simp at h; omega

theorem four {q : Nat} {p : List Byte} (h : p.length = 4 * (q + 1)) : ∃ a b c d t, p = a :: b :: c :: d :: t ∧
    t.length = 4 * q := by
  match p, h with
  | a :: b :: c :: d :: t, h => exact ⟨a, b, c, d, t, rfl, by simp at h; omega⟩
  | [], h => simp at h
  | [a], h => simp at h; omega
  | [a, b], h => simp at h; omega
  | [a, b, c], h => simp at h; omega

theorem dec_loop {bi oi bo oo : Nat} (q : Nat) : ∀ (r : Nat) (p g : List Byte) (m : Mem), p.length = 4 * q →
    Reads m bi (oi + 4 * r) (p ++ g) →
    (bi ≠ bo ∨ oi + 4 * r + (p ++ g).length ≤ oo ∨ oo ≤ oi) →
    forN q r (fun r j => decGroup (ptr bi oi) (ptr bo oo) (4 * r) j) (3 * r) m =
      (puts (ptr bo (oo + 3 * r)) (full p) >>= fun _ => pure (3 * (r + q))) m := by
  induction q with
  | zero =>
    intro r p g m hp hr hd
    have : p = [] := List.length_eq_zero_iff.mp (by omega)
    subst this
    rfl
  | succ q ih =>
    intro r p g m hp hr hd
    obtain ⟨a, b, c, d, t, rfl, ht⟩ := four hp
    simp only [full, forN]
    refine (bind_left (decGroup_eq (t := t ++ g) hr) _).trans ?_
    refine Eq.trans ?_ (bind_left (puts_append _ _ _ m) _).symm
    rw [C_bind_assoc, C_bind_assoc]
    refine bind_congr_ok fun _ m1 h1 => ?_
    have hr1 : Reads m bi (oi + 4 * (r + 1)) (t ++ g) := by
      intro i hi
      have := hr (i + 4) (by simp at hi ⊢; omega)
      rw [show oi + 4 * (r + 1) + i = oi + 4 * r + (i + 4) by omega, this]
      rfl
    have hr2 := hr1.puts h1 (by simp only [List.length_cons, List.length_nil, List.length_append] at hd ⊢; omega)
    have := ih (r + 1) t g m1 ht hr2 (by
      simp only [List.length_cons, List.length_append] at hd ⊢; omega)
    simp only [ptr_addN, List.length_cons, List.length_nil]
    rw [show r + 1 + q = r + (q + 1) by omega] at this
    exact this

theorem decLast_eq {m : Mem} {bi oi bo oo q : Nat} {a b : Byte} {g : List Byte} {n len out_len mx : SizeT}
    (hg : g = [] ∨ (∃ c, g = [c]) ∨ ∃ c, g = [c, pad])
    (hn : n.toNat = 4 * q + 2 + g.length ∨ g = [] ∧ n.toNat = 4 * q + 1) (hn3 : n.toNat + 3 < 2 ^ 64)
    (hlen : len.toNat = 4 * q) (hout : out_len.toNat = 3 * q + 1) (hmx : 3 * q + 1 ≤ mx.toNat)
    (hr : Reads m bi (oi + 4 * q) (a :: b :: g))
    (hd : bi ≠ bo ∨ oi + 4 * q + 2 + g.length ≤ oo ∨ oo ≤ oi) :
    decLast (ptr bi oi) n len out_len (ptr bo oo) mx m =
      (puts (ptr bo (oo + 3 * q)) ((last a b (g.headD pad)).take (mx.toNat - 3 * q)) >>= fun _ =>
        pure (if 3 * q + (last a b (g.headD pad)).length ≤ mx.toNat then 0 else 1)) m := by
  have e1 : (len + 1#64).toNat = 4 * q + 1 := by
    rw [BitVec.toNat_add, hlen]; simp only [BitVec.toNat_ofNat]; omega
  have e2 : (len + 2#64).toNat = 4 * q + 2 := by
    rw [BitVec.toNat_add, hlen]; simp only [BitVec.toNat_ofNat]; omega
  have e3 : (out_len - 1#64).toNat = 3 * q := by
    rw [BitVec.toNat_sub_of_le (by rw [BitVec.le_def]; simp only [BitVec.toNat_ofNat]; omega), hout]; simp
  have e4 : (out_len + 1#64).toNat = 3 * q + 2 := by
    rw [BitVec.toNat_add, hout]; simp only [BitVec.toNat_ofNat]; omega
  have q1 : (BitVec.ofNat 32 (value a) <<< 18 ||| BitVec.ofNat 32 (value b) <<< 12).toNat = quad a b 0 0 := by
    have := quad_toNat a b 0 0
    rw [value_zero] at this
    simpa using this
  have q2 : ∀ c, (BitVec.ofNat 32 (value a) <<< 18 ||| BitVec.ofNat 32 (value b) <<< 12 |||
      BitVec.ofNat 32 (value c) <<< 6).toNat = quad a b c 0 := by
    intro c
    have := quad_toNat a b c 0
    rw [value_zero] at this
    simpa using this
  have q3 : ∀ c, octet (quad a b 0 0) 0 = octet (quad a b c 0) 0 := by
    intro c
    have hc := value_lt c
    have h0 := value_zero
    have e : quad a b 0 0 / 256 ^ (2 - 0) = quad a b c 0 / 256 ^ (2 - 0) := by
      unfold quad; rw [h0]; omega
    exact congrArg (BitVec.ofNat 8) e
  unfold decLast
  rw [hlen, e1, e3]
  simp only [ptr_addN]
  rw [C.bind_ok (index_ok hr.load0)]
  rw [show oi + (4 * q + 1) = oi + 4 * q + 1 by omega, C.bind_ok (index_ok (hr.load (i := 1) rfl)), oct0 q1]
  rcases hg with rfl | ⟨c, rfl⟩ | ⟨c, rfl⟩
  · simp only [List.headD_nil, last, if_true, List.length_cons, List.length_nil]
    rw [List.take_of_length_le (by simp; omega), if_pos (show 3 * q + (0 + 1) ≤ mx.toNat by omega)]
    simp only [puts, C_bind_assoc]
    refine bind_congr_ok fun _ m1 h1 => ?_
    simp only [List.length_nil] at hn
    rw [if_neg (show ¬ len + 2#64 < n by rw [BitVec.lt_def, e2]; omega)]
    rfl
  all_goals
    simp only [List.headD_cons, List.length_cons, List.length_nil] at hn hd ⊢
    have hn' : ¬ n.toNat ≤ 4 * q + 2 := by simp at hn; omega
    have hrc : Reads m bi (oi + 4 * q + 2) [c] := by
      intro i hi
      obtain rfl : i = 0 := by simpa using hi
      exact hr 2 (by simp)
    by_cases hc : c = pad
    · simp only [last, hc, if_true, List.length_cons, List.length_nil]
      rw [List.take_of_length_le (by simp; omega), if_pos (show 3 * q + (0 + 1) ≤ mx.toNat by omega)]
      simp only [puts, C_bind_assoc]
      refine bind_congr_ok fun _ m1 h1 => ?_
      have hr1 := hrc.store h1 (by simp; omega)
      rw [if_pos (show len + 2#64 < n by rw [BitVec.lt_def, e2]; omega), e2, show oi + (4 * q + 2) = oi + 4 * q + 2 by omega,
        C.bind_ok hr1.load0, if_neg (by simp [hc, pad])]
      rfl
    · simp only [last, if_neg hc, List.length_cons, List.length_nil]
      rw [q3 c]
      by_cases hm : 3 * q + 2 ≤ mx.toNat
      · rw [List.take_of_length_le (by simp; omega), if_pos (show 3 * q + (0 + 1 + 1) ≤ mx.toNat by omega)]
        simp only [puts, C_bind_assoc]
        refine bind_congr_ok fun _ m1 h1 => ?_
        have hr1 := hrc.store h1 (by simp; omega)
        rw [if_pos (show len + 2#64 < n by rw [BitVec.lt_def, e2]; omega), e2, show oi + (4 * q + 2) = oi + 4 * q + 2 by omega,
          C.bind_ok hr1.load0, if_pos (show c ≠ 61#8 from hc), if_neg (show ¬ mx < out_len + 1#64 by rw [BitVec.lt_def, e4]; omega),
          C.bind_ok (index_ok hr1.load0), oct1 (q2 c), hout]
        rfl
      · rw [if_neg (show ¬ 3 * q + (0 + 1 + 1) ≤ mx.toNat by omega), show mx.toNat - 3 * q = 1 by omega]
        simp only [List.take_succ_cons, List.take_zero, puts, C_bind_assoc]
        refine bind_congr_ok fun _ m1 h1 => ?_
        have hr1 := hrc.store h1 (by simp; omega)
        rw [if_pos (show len + 2#64 < n by rw [BitVec.lt_def, e2]; omega), e2, show oi + (4 * q + 2) = oi + 4 * q + 2 by omega,
          C.bind_ok hr1.load0, if_pos (show c ≠ 61#8 from hc), if_pos (show mx < out_len + 1#64 by rw [BitVec.lt_def, e4]; omega)]
        rfl

theorem decode_of_pad {m : Mem} {bi oi : Nat} {out : Ptr} {n mx : SizeT} {pb : Bool} {len out_len : SizeT}
    (h : padBool (ptr bi oi) n m = .ok pb m)
    (hlen : (((n + 3#64) / 4#64) - (if pb then 1#64 else 0#64)) * 4#64 = len)
    (hout : (len / 4#64) * 3#64 + (if pb then 1#64 else 0#64) = out_len) :
    decode (ptr bi oi) n out mx m = (if mx < out_len ∨ len = 0#64 then pure 1 else (do
      let _ ← forN ((len.toNat + 3) / 4) 0 (fun r j => decGroup (ptr bi oi) out (4 * r) j) 0
      if pb then decLast (ptr bi oi) n len out_len out mx else return 0) : C Int) m := by
  unfold decode
  rw [C.bind_ok h, ← hout, ← hlen]

theorem padBool_true {m : Mem} {bi oi q : Nat} {a b : Byte} {g : List Byte} {n : SizeT}
    (hg : g = [] ∨ (∃ c, g = [c]) ∨ ∃ c, g = [c, pad])
    (hn : n.toNat = 4 * q + 2 + g.length ∨ g = [] ∧ n.toNat = 4 * q + 1)
    (hr : Reads m bi (oi + 4 * q) (a :: b :: g)) : padBool (ptr bi oi) n m = .ok true m := by
  unfold padBool
  have hmod : (n % 4#64).toNat = n.toNat % 4 := by rw [BitVec.toNat_umod]; rfl
  have hpos : 0#64 < n := by rw [BitVec.lt_def]; simp; omega
  rw [if_pos hpos]
  rcases hg with rfl | ⟨c, rfl⟩ | ⟨c, rfl⟩
  · rw [if_pos (fun e => by rw [e] at hmod; simp at hmod hn; omega)]
    rfl
  · rw [if_pos (fun e => by rw [e] at hmod; simp at hmod hn; omega)]
    rfl
  · simp only [List.length_cons, List.length_nil, reduceCtorEq, false_and, or_false] at hn
    have h0 : ¬ n % 4#64 ≠ 0#64 := by
      intro h; apply h; apply BitVec.eq_of_toNat_eq; rw [hmod]; simp; omega
    have h1 : (n - 1#64).toNat = 4 * q + 3 := by
      rw [BitVec.toNat_sub_of_le (by rw [BitVec.le_def]; simp; omega)]; simp; omega
    rw [if_neg h0, h1, ptr_addN, show oi + (4 * q + 3) = oi + 4 * q + 3 by omega, C.bind_ok (hr.load (i := 3) rfl)]
    rfl

theorem decode_pad {m : Mem} {bi oi bo oo q : Nat} {p : List Byte} {a b : Byte} {g : List Byte} {n mx : SizeT}
    (hp : p.length = 4 * q) (hg : g = [] ∨ (∃ c, g = [c]) ∨ ∃ c, g = [c, pad])
    (hn : n.toNat = 4 * q + 2 + g.length ∨ g = [] ∧ n.toNat = 4 * q + 1) (hn3 : n.toNat + 3 < 2 ^ 64)
    (hr : Reads m bi oi (p ++ a :: b :: g))
    (hd : bi ≠ bo ∨ oi + (p ++ a :: b :: g).length ≤ oo ∨ oo ≤ oi) :
    decode (ptr bi oi) n (ptr bo oo) mx m =
      if q = 0 ∨ mx.toNat < 3 * q + 1 then .ok 1 m else
      (puts (ptr bo oo) ((full p ++ last a b (g.headD pad)).take mx.toNat) >>= fun _ =>
        pure (if (full p ++ last a b (g.headD pad)).length ≤ mx.toNat then 0 else 1)) m := by
  have hgl : g.length ≤ 2 := by rcases hg with rfl | ⟨c, rfl⟩ | ⟨c, rfl⟩ <;> simp
  have hr' : ∀ m, Reads m bi oi (p ++ a :: b :: g) → Reads m bi (oi + 4 * q) (a :: b :: g) := by
    intro m hr i hi
    have := hr (4 * q + i) (by simp at hi ⊢; omega)
    rw [show oi + 4 * q + i = oi + (4 * q + i) by omega, this, List.getElem?_append_right (by omega)]
    congr 1; omega
  have e1 : (((n + 3#64) / 4#64) - 1#64).toNat = q := by
    have : ((n + 3#64) / 4#64).toNat = q + 1 := by
      rw [BitVec.toNat_udiv, BitVec.toNat_add]; simp only [BitVec.toNat_ofNat]
      rw [show (n.toNat + 3 % 2 ^ 64) % 2 ^ 64 = n.toNat + 3 by omega, show 4 % 2 ^ 64 = 4 from rfl]; omega
    rw [BitVec.toNat_sub_of_le (by rw [BitVec.le_def, this]; simp), this]; simp
  have e2 : ((((n + 3#64) / 4#64) - 1#64) * 4#64).toNat = 4 * q := by
    rw [BitVec.toNat_mul, e1]; simp only [BitVec.toNat_ofNat]; omega
  have e3 : (((((n + 3#64) / 4#64) - 1#64) * 4#64) / 4#64 * 3#64 + 1#64).toNat = 3 * q + 1 := by
    rw [BitVec.toNat_add, BitVec.toNat_mul, BitVec.toNat_udiv, e2]; simp only [BitVec.toNat_ofNat]
    rw [show 4 * q / (4 % 2 ^ 64) = q by rw [show 4 % 2 ^ 64 = 4 from rfl]; omega]; omega
  rw [decode_of_pad (padBool_true hg hn (hr' m hr)) rfl rfl]
  simp only [if_true]
  generalize hlen : (((n + 3#64) / 4#64) - 1#64) * 4#64 = len at *
  generalize hout : len / 4#64 * 3#64 + 1#64 = out_len at *
  by_cases hc : q = 0 ∨ mx.toNat < 3 * q + 1
  · rw [if_pos hc, if_pos]
    · rfl
    · rcases hc with hc | hc
      · right; apply BitVec.eq_of_toNat_eq; rw [e2, hc]; rfl
      · left; rw [BitVec.lt_def, e3]; exact hc
  · rw [if_neg hc, if_neg]
    · rw [e2, show (4 * q + 3) / 4 = q by omega]
      have hloop := dec_loop (bi := bi) (oi := oi) (bo := bo) (oo := oo) q 0 p (a :: b :: g) m hp (by simpa using hr)
        (by simpa using hd)
      have hfl := full_length q p hp
      rw [List.take_append, hfl, List.take_of_length_le (by omega)]
      refine (bind_left hloop _).trans ?_
      refine Eq.trans ?_ (bind_left (puts_append _ _ _ m) _).symm
      rw [C_bind_assoc, C_bind_assoc]
      simp only [Nat.mul_zero, Nat.add_zero]
      refine bind_congr_ok fun _ m1 h1 => ?_
      have hr1 := (hr' m hr).puts h1 (by
        rw [hfl]; simp only [List.length_append, List.length_cons] at hd ⊢; omega)
      rw [C.bind_ok (C.pure_run _ _), decLast_eq hg hn hn3 e2 e3 (by omega) hr1 (by
        simp only [List.length_append, List.length_cons] at hd; omega), ptr_addN, List.length_append, hfl]
    · rintro (h | h)
      · rw [BitVec.lt_def, e3] at h; omega
      · rw [h] at e2; simp at e2; omega

theorem decode_nopad {m : Mem} {bi oi bo oo q : Nat} {p : List Byte} {n mx : SizeT}
    (hp : p.length = 4 * q) (hlast : p.getLast? ≠ some pad) (hn : n.toNat = 4 * q) (hn3 : n.toNat + 3 < 2 ^ 64)
    (hr : Reads m bi oi p) (hd : bi ≠ bo ∨ oi + p.length ≤ oo ∨ oo ≤ oi) :
    decode (ptr bi oi) n (ptr bo oo) mx m =
      if q = 0 ∨ mx.toNat < 3 * q then .ok 1 m else (puts (ptr bo oo) (full p) >>= fun _ => pure 0) m := by
  have hmod : (n % 4#64).toNat = n.toNat % 4 := by rw [BitVec.toNat_umod]; rfl
  have hpb : padBool (ptr bi oi) n m = .ok false m := by
    unfold padBool
    by_cases hq : q = 0
    · rw [if_neg (by rw [BitVec.lt_def]; simp; omega)]
      rfl
    · have h0 : ¬ n % 4#64 ≠ 0#64 := by
        intro h; apply h; apply BitVec.eq_of_toNat_eq; rw [hmod]; simp; omega
      have h1 : (n - 1#64).toNat = p.length - 1 := by
        rw [BitVec.toNat_sub_of_le (by rw [BitVec.le_def]; simp; omega)]; simp; omega
      have h2 : p[p.length - 1]? = some p[p.length - 1] := List.getElem?_eq_getElem (by omega)
      rw [if_pos (by rw [BitVec.lt_def]; simp; omega), if_neg h0, h1, ptr_addN, C.bind_ok (hr.load h2)]
      rw [List.getLast?_eq_getElem?, h2] at hlast
      have : (p[p.length - 1] == 61#8) = false := by
        rw [beq_eq_false_iff_ne]; intro e; exact hlast (congrArg some e)
      rw [this]
      rfl
  have e1 : ((n + 3#64) / 4#64).toNat = q := by
    rw [BitVec.toNat_udiv, BitVec.toNat_add]; simp only [BitVec.toNat_ofNat]
    rw [show (n.toNat + 3 % 2 ^ 64) % 2 ^ 64 = n.toNat + 3 by omega, show 4 % 2 ^ 64 = 4 from rfl]; omega
  have e2 : ((((n + 3#64) / 4#64) - 0#64) * 4#64).toNat = 4 * q := by
    rw [BitVec.sub_zero, BitVec.toNat_mul, e1]; simp only [BitVec.toNat_ofNat]; omega
  have e3 : (((((n + 3#64) / 4#64) - 0#64) * 4#64) / 4#64 * 3#64 + 0#64).toNat = 3 * q := by
    rw [BitVec.add_zero, BitVec.toNat_mul, BitVec.toNat_udiv, e2]; simp only [BitVec.toNat_ofNat]
    rw [show 4 * q / (4 % 2 ^ 64) = q by rw [show 4 % 2 ^ 64 = 4 from rfl]; omega]; omega
  rw [decode_of_pad hpb rfl rfl]
  simp only [Bool.false_eq_true, if_false]
  generalize hlen : (((n + 3#64) / 4#64) - 0#64) * 4#64 = len at *
  generalize hout : len / 4#64 * 3#64 + 0#64 = out_len at *
  by_cases hc : q = 0 ∨ mx.toNat < 3 * q
  · rw [if_pos hc, if_pos]
    · rfl
    · rcases hc with hc | hc
      · right; apply BitVec.eq_of_toNat_eq; rw [e2, hc]; rfl
      · left; rw [BitVec.lt_def, e3]; exact hc
  · rw [if_neg hc, if_neg]
    · rw [e2, show (4 * q + 3) / 4 = q by omega]
      have hloop := dec_loop (bi := bi) (oi := oi) (bo := bo) (oo := oo) q 0 p [] m hp (by simpa using hr)
        (by simpa using hd)
      refine (bind_left hloop _).trans ?_
      rw [C_bind_assoc]
      rfl
    · rintro (h | h)
      · rw [BitVec.lt_def, e3] at h; omega
      · rw [h] at e2; simp at e2; omega

/-! ### The specification on complete groups and a rest -/

theorem spec_pad : ∀ (q : Nat) (p : List Byte) (a b : Byte) (g : List Byte), p.length = 4 * q →
    (g = [] ∨ (∃ c, g = [c]) ∨ ∃ c, g = [c, pad]) →
    Spec.Base64.decode (p ++ a :: b :: g) = full p ++ last a b (g.headD pad)
  | 0, p, a, b, g, hp, hg => by
    have : p = [] := List.length_eq_zero_iff.mp (by omega)
    subst this
    rcases hg with rfl | ⟨c, rfl⟩ | ⟨c, rfl⟩ <;> simp [Spec.Base64.decode, full]
  | q + 1, p, a, b, g, hp, hg => by
    obtain ⟨x, y, z, w, t, rfl, ht⟩ := four hp
    simp only [List.cons_append, Spec.Base64.decode, full]
    rw [if_neg (by simp), spec_pad q t a b g ht hg]
    simp

theorem spec_nopad : ∀ (q : Nat) (p : List Byte), p.length = 4 * q → p.getLast? ≠ some pad →
    Spec.Base64.decode p = full p
  | 0, p, hp, h => by
    have : p = [] := List.length_eq_zero_iff.mp (by omega)
    subst this; rfl
  | q + 1, p, hp, h => by
    obtain ⟨x, y, z, w, t, rfl, ht⟩ := four hp
    simp only [Spec.Base64.decode, full]
    by_cases htn : t = []
    · subst htn
      rw [if_neg (by simpa using h)]
      rfl
    · rw [if_neg (by simp [htn]), spec_nopad q t ht]
      intro e
      apply h
      obtain ⟨u, t', rfl⟩ : ∃ u t', t = u :: t' := by cases t with
        | nil => exact absurd rfl htn
        | cons u t' => exact ⟨u, t', rfl⟩
      simpa using e

/-- A text splits into complete groups and a padded or incomplete last one. -/
theorem split_text (s : List Byte) (h1 : s.length % 4 ≠ 1) :
    (∃ q, s.length = 4 * q ∧ s.getLast? ≠ some pad) ∨
    ∃ q p a b g, s = p ++ a :: b :: g ∧ p.length = 4 * q ∧ (g = [] ∨ (∃ c, g = [c]) ∨ ∃ c, g = [c, pad]) := by
  have key : ∀ (q : Nat) (k : Nat), s.length = 4 * q + k → ∃ p t, s = p ++ t ∧ p.length = 4 * q ∧ t.length = k := by
    intro q k h
    exact ⟨s.take (4 * q), s.drop (4 * q), (List.take_append_drop _ _).symm, by simp; omega, by simp; omega⟩
  by_cases h0 : s.length % 4 = 0
  · by_cases hl : s.getLast? = some pad
    · right
      have hpos : 0 < s.length := by
        cases s with
        | nil => simp at hl
        | cons a s => simp
      obtain ⟨p, t, rfl, hp, ht⟩ := key ((s.length - 4) / 4) 4 (by omega)
      match t, ht with
      | [a, b, c, d], _ =>
        simp only [List.getLast?_append, List.getLast?_cons_cons, List.getLast?_singleton, Option.some_or,
          Option.some.injEq] at hl
        subst hl
        exact ⟨_, p, a, b, [c, pad], rfl, hp, .inr (.inr ⟨c, rfl⟩)⟩
    · left; exact ⟨s.length / 4, by omega, hl⟩
  · right
    obtain ⟨p, t, hs, hp, ht⟩ := key (s.length / 4) (s.length % 4) (by omega)
    have h23 : t.length = 2 ∨ t.length = 3 := by omega
    rcases h23 with h23 | h23
    · match t, h23 with
      | [a, b], _ => exact ⟨_, p, a, b, [], hs, hp, .inl rfl⟩
    · match t, h23 with
      | [a, b, c], _ => exact ⟨_, p, a, b, [c], hs, hp, .inr (.inl ⟨c, rfl⟩)⟩

/-! ### Round trip of the specification -/

theorem octet_group (a b c : Byte) : octet (group a b c) 0 = a ∧ octet (group a b c) 1 = b ∧ octet (group a b c) 2 = c := by
  have ha := a.isLt; have hb := b.isLt; have hc := c.isLt
  unfold octet group
  refine ⟨?_, ?_, ?_⟩ <;>
    · apply BitVec.eq_of_toNat_eq
      rw [BitVec.toNat_ofNat]
      omega

theorem group_lt (a b c : Byte) : group a b c < 2 ^ 24 := by
  have ha := a.isLt; have hb := b.isLt; have hc := c.isLt
  unfold group; omega

theorem quad_sextets {v : Nat} (h : v < 2 ^ 24) :
    quad (char (sextet v 0)) (char (sextet v 1)) (char (sextet v 2)) (char (sextet v 3)) = v := by
  unfold quad
  simp only [value_char (sextet_lt _ _)]
  unfold sextet
  omega

theorem last_two (a b : Byte) : last (char (sextet (group a b 0) 0)) (char (sextet (group a b 0) 1))
    (char (sextet (group a b 0) 2)) = [a, b] := by
  unfold last
  rw [if_neg (char_ne_pad (sextet_lt _ _))]
  have hs : value 0 = sextet (group a b 0) 3 := by
    rw [value_zero]; unfold sextet group; simp; omega
  have : quad (char (sextet (group a b 0) 0)) (char (sextet (group a b 0) 1)) (char (sextet (group a b 0) 2)) 0 =
      group a b 0 := by
    have h := quad_sextets (group_lt a b 0)
    unfold quad at h ⊢
    rw [value_char (sextet_lt (group a b 0) 3)] at h
    rw [hs]
    exact h
  rw [this, (octet_group a b 0).1, (octet_group a b 0).2.1]

theorem last_one (a : Byte) : last (char (sextet (group a 0 0) 0)) (char (sextet (group a 0 0) 1)) pad = [a] := by
  unfold last
  rw [if_pos rfl]
  have : quad (char (sextet (group a 0 0) 0)) (char (sextet (group a 0 0) 1)) 0 0 = group a 0 0 := by
    have ha := a.isLt
    unfold quad
    rw [value_zero]
    simp only [value_char (sextet_lt _ _)]
    unfold sextet group
    simp
    omega
  rw [this, (octet_group a 0 0).1]

theorem decode_encode (d : List Byte) : Spec.Base64.decode (Spec.Base64.encode d) = d := by
  induction d using Spec.Base64.encode.induct with
  | case1 => rfl
  | case2 a => simp only [Spec.Base64.encode, Spec.Base64.decode, and_self, if_true, last_one]
  | case3 a b => simp only [Spec.Base64.encode, Spec.Base64.decode, and_self, if_true, last_two]
  | case4 a b c t ih =>
    simp only [Spec.Base64.encode, List.cons_append, List.nil_append, Spec.Base64.decode]
    rw [if_neg (fun h => char_ne_pad (sextet_lt _ _) h.2), ih, quad_sextets (group_lt _ _ _), (octet_group a b c).1,
      (octet_group a b c).2.1, (octet_group a b c).2.2]

end IMU.Base64
