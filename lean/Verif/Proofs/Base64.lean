import Verif.Model.Base64
import Verif.Spec.Base64
import Verif.C.Lemmas
import Verif.Spec.Frame
import Verif.Proofs.Frame

namespace IMU.Base64
open Spec.Base64 (char pad group sextet value quad octet last)

/-! ### The tables -/

theorem table_char {i : Nat} (h : i < 64) : base64_table[i]? = some (char i) := by
  have : ∀ i < 64, base64_table[i]? = some (char i) := by decide +kernel
  exact this i h

theorem value_lt (c : Byte) : value c < 64 := by
  have : ∀ n < 256, value (BitVec.ofNat 8 n) < 64 := by decide +kernel
  have h := this c.toNat c.isLt
  rwa [BitVec.ofNat_toNat, BitVec.setWidth_eq] at h

theorem index_value (c : Byte) : base64_index[c.toNat]? = some (BitVec.ofNat 32 (value c)) := by
  have : ∀ n < 256, base64_index[n]? = some (BitVec.ofNat 32 (value (BitVec.ofNat 8 n))) := by decide +kernel
  have h := this c.toNat c.isLt
  rwa [BitVec.ofNat_toNat, BitVec.setWidth_eq] at h

theorem value_char {v : Nat} (h : v < 64) : value (char v) = v := by
  have : ∀ v < 64, value (char v) = v := by decide +kernel
  exact this v h

theorem char_ne_pad {v : Nat} (h : v < 64) : char v ≠ pad := by
  have : ∀ v < 64, char v ≠ pad := by decide +kernel
  exact this v h

theorem char_ne_zero {v : Nat} (h : v < 64) : char v ≠ 0#8 := by
  have : ∀ v < 64, char v ≠ 0#8 := by decide +kernel
  exact this v h

theorem value_zero : value 0 = 0 := by decide +kernel

theorem sextet_lt (v i : Nat) : sextet v i < 64 := Nat.mod_lt _ (by omega)

/-! ### Bit operations as arithmetic -/

theorem or_add (x y k : Nat) (h : y < 2 ^ k) : x <<< k ||| y = x * 2 ^ k + y := by
  rw [← Nat.shiftLeft_add_eq_or_of_lt h, Nat.shiftLeft_eq]

theorem idx0 (a b c : Byte) : (u32 a >>> 2).toNat = sextet (group a b c) 0 := by
  have ha := a.isLt; have hb := b.isLt; have hc := c.isLt
  simp only [BitVec.toNat_ushiftRight, BitVec.toNat_setWidth, Nat.shiftRight_eq_div_pow, sextet, group]
  omega

theorem low2 (a : Byte) : (u32 a &&& 0x03#32).toNat = a.toNat % 4 := by
  have ha := a.isLt
  rw [BitVec.toNat_and, BitVec.toNat_setWidth]
  rw [show (0x03#32).toNat = 2 ^ 2 - 1 from rfl, Nat.and_two_pow_sub_one_eq_mod]
  omega

theorem low4 (a : Byte) : (u32 a &&& 0x0F#32).toNat = a.toNat % 16 := by
  have ha := a.isLt
  rw [BitVec.toNat_and, BitVec.toNat_setWidth]
  rw [show (0x0F#32).toNat = 2 ^ 4 - 1 from rfl, Nat.and_two_pow_sub_one_eq_mod]
  omega

theorem low6 (a : Byte) : (u32 a &&& 0x3F#32).toNat = a.toNat % 64 := by
  have ha := a.isLt
  rw [BitVec.toNat_and, BitVec.toNat_setWidth]
  rw [show (0x3F#32).toNat = 2 ^ 6 - 1 from rfl, Nat.and_two_pow_sub_one_eq_mod]
  omega

theorem idx1 (a b c : Byte) :
    (((u32 a &&& 0x03#32) <<< 4) ||| (u32 b >>> 4)).toNat = sextet (group a b c) 1 := by
  have ha := a.isLt; have hb := b.isLt; have hc := c.isLt
  rw [BitVec.toNat_or, BitVec.toNat_shiftLeft, low2, BitVec.toNat_ushiftRight, BitVec.toNat_setWidth,
    Nat.mod_eq_of_lt (b := 2 ^ 32) (by rw [Nat.shiftLeft_eq]; omega), Nat.mod_eq_of_lt (b := 2 ^ 32) (by omega),
    Nat.shiftRight_eq_div_pow, or_add _ _ _ (by omega)]
  simp only [sextet, group]
  omega

theorem idx2 (a b c : Byte) :
    (((u32 b &&& 0x0F#32) <<< 2) ||| (u32 c >>> 6)).toNat = sextet (group a b c) 2 := by
  have ha := a.isLt; have hb := b.isLt; have hc := c.isLt
  rw [BitVec.toNat_or, BitVec.toNat_shiftLeft, low4, BitVec.toNat_ushiftRight, BitVec.toNat_setWidth,
    Nat.mod_eq_of_lt (b := 2 ^ 32) (by rw [Nat.shiftLeft_eq]; omega), Nat.mod_eq_of_lt (b := 2 ^ 32) (by omega),
    Nat.shiftRight_eq_div_pow, or_add _ _ _ (by omega)]
  simp only [sextet, group]
  omega

theorem idx3 (a b c : Byte) : (u32 c &&& 0x3F#32).toNat = sextet (group a b c) 3 := by
  have ha := a.isLt; have hb := b.isLt; have hc := c.isLt
  rw [low6]
  simp only [sextet, group]
  omega

theorem idx1' (a : Byte) : ((u32 a &&& 0x03#32) <<< 4).toNat = sextet (group a 0 0) 1 := by
  have ha := a.isLt
  rw [BitVec.toNat_shiftLeft, low2, Nat.mod_eq_of_lt (b := 2 ^ 32) (by rw [Nat.shiftLeft_eq]; omega), Nat.shiftLeft_eq]
  simp only [sextet, group, BitVec.ofNat_eq_ofNat, BitVec.toNat_ofNat]
  omega

theorem idx2' (a b : Byte) : ((u32 b &&& 0x0F#32) <<< 2).toNat = sextet (group a b 0) 2 := by
  have ha := a.isLt; have hb := b.isLt
  rw [BitVec.toNat_shiftLeft, low4, Nat.mod_eq_of_lt (b := 2 ^ 32) (by rw [Nat.shiftLeft_eq]; omega), Nat.shiftLeft_eq]
  simp only [sextet, group, BitVec.ofNat_eq_ofNat, BitVec.toNat_ofNat]
  omega

/-! ### Sequential output -/

/-- Store byte after byte. -/
def puts (p : Ptr) : List Byte → C Unit
  | [] => pure ()
  | x :: s => do
    store p x
    puts (p.addN 1) s

theorem puts_append (p : Ptr) (s t : List Byte) (m : Mem) :
    puts p (s ++ t) m = (puts p s >>= fun _ => puts (p.addN s.length) t) m := by
  induction s generalizing p m with
  | nil => simp [puts, Ptr.addN]
  | cons x s ih =>
    simp only [List.cons_append, puts, C.bind_run]
    cases store p x m with
    | ub e => rfl
    | ok _ m' =>
      simp only [ih, C.bind_run]
      have : (p.addN 1).addN s.length = p.addN (x :: s).length := by
        simp only [Ptr.addN, List.length_cons]; congr 1; omega
      rw [this]

theorem puts_ok {b o : Nat} {m : Mem} {s : List Byte} (h : o + s.length ≤ (m.bytes b).length) :
    puts (ptr b o) s m = .ok () (m.upd b (splice (m.bytes b) o s)) := by
  induction s generalizing o m with
  | nil => simp [puts, splice_nil]
  | cons x s ih =>
    simp only [List.length_cons] at h
    simp only [puts]
    rw [C.bind_ok (store_ok (by omega)), ptr_addN, ih (by simp; omega)]
    rw [Mem.upd_upd]
    refine congrArg (Res.ok ()) (congrArg (Mem.upd m b) ?_)
    rw [Mem.upd_bytes, if_pos rfl]
    apply List.ext_getElem?
    intro i
    rw [getElem?_splice _ _ _ (by simp; omega), getElem?_splice _ _ _ (by simp; omega), List.getElem?_set]
    simp only [List.length_cons]
    by_cases h1 : i < o
    · rw [if_pos (by omega), if_neg (by omega), if_pos h1]
    · by_cases h2 : i = o
      · subst h2
        rw [if_pos (Nat.lt_succ_self i), if_pos rfl, if_pos (show i < (m.bytes b).length by omega),
          if_neg (Nat.lt_irrefl i), if_pos (show i < i + (s.length + 1) by omega)]
        simp
      · rw [if_neg (by omega), if_neg h1]
        by_cases h3 : i < o + 1 + s.length
        · rw [if_pos h3, if_pos (by omega), show i - o = (i - (o + 1)) + 1 by omega, List.getElem?_cons_succ]
        · rw [if_neg h3, if_neg (by omega), if_neg (by omega)]

theorem puts_oob {b o : Nat} {m : Mem} {s : List Byte} (hs : s ≠ []) (h : (m.bytes b).length < o + s.length) :
    puts (ptr b o) s m = .ub .oobWrite := by
  induction s generalizing o m with
  | nil => exact absurd rfl hs
  | cons x s ih =>
    simp only [List.length_cons] at h
    simp only [puts]
    by_cases ho : o < (m.bytes b).length
    · rw [C.bind_ok (store_ok ho), ptr_addN]
      by_cases hs : s = []
      · subst hs; simp at h; omega
      · exact ih hs (by simp; omega)
    · exact C.bind_ub (store_oob (by omega))

theorem C_bind_assoc {α β γ} (x : C α) (f : α → C β) (g : β → C γ) : (x >>= f) >>= g = x >>= fun a => f a >>= g := by
  funext m
  simp only [C.bind_run]
  cases x m <;> rfl

theorem bind_left {α β} {x y : C α} {m : Mem} (h : x m = y m) (f : α → C β) : (x >>= f) m = (y >>= f) m := by
  rw [C.bind_run, C.bind_run, h]

theorem bind_congr_ok {α β} {x : C α} {f g : α → C β} {m : Mem} (h : ∀ a m', x m = .ok a m' → f a m' = g a m') :
    (x >>= f) m = (x >>= g) m := by
  rw [C.bind_run, C.bind_run]
  cases hx : x m with
  | ok a m' => exact h a m' hx
  | ub e => rfl

/-- The bytes `d` are at offset `o` of object `b`. -/
def Reads (m : Mem) (b o : Nat) (d : List Byte) : Prop := ∀ i, i < d.length → (m.bytes b)[o + i]? = d[i]?

theorem Reads.store {m m' : Mem} {b o : Nat} {d : List Byte} (h : Reads m b o d) {bq oq : Nat} {w : Byte}
    (hs : store (ptr bq oq) w m = .ok () m') (hd : b ≠ bq ∨ oq < o ∨ o + d.length ≤ oq) : Reads m' b o d := by
  by_cases hq : oq < (m.bytes bq).length
  · rw [store_ok hq] at hs
    injection hs with _ hs
    subst hs
    intro i hi
    rw [← h i hi, Mem.upd_bytes]
    by_cases hb : b = bq
    · subst hb
      rw [if_pos rfl, List.getElem?_set, if_neg (by omega)]
    · rw [if_neg hb]
  · rw [store_oob (by omega)] at hs
    cases hs

theorem Reads.puts {m m' : Mem} {b o : Nat} {d : List Byte} (h : Reads m b o d) {bq oq : Nat} {s : List Byte}
    (hs : puts (ptr bq oq) s m = .ok () m') (hd : b ≠ bq ∨ oq + s.length ≤ o ∨ o + d.length ≤ oq) :
    Reads m' b o d := by
  by_cases hl : oq + s.length ≤ (m.bytes bq).length
  · rw [puts_ok hl] at hs
    injection hs with _ hs
    subst hs
    intro i hi
    rw [← h i hi, Mem.upd_bytes]
    by_cases hb : b = bq
    · subst hb
      rw [if_pos rfl, getElem?_splice _ _ _ hl]
      by_cases h1 : o + i < oq
      · rw [if_pos h1]
      · rw [if_neg h1, if_neg (by omega)]
    · rw [if_neg hb]
  · by_cases hn : s = []
    · subst hn
      simp only [Base64.puts] at hs
      injection hs with _ hs
      subst hs
      exact h
    · rw [puts_oob hn (by omega)] at hs
      cases hs

theorem Reads.load {m : Mem} {b o : Nat} {d : List Byte} (h : Reads m b o d) {i : Nat} {v : Byte}
    (hv : d[i]? = some v) : IMU.load (ptr b (o + i)) m = .ok v m :=
  load_ok (by rw [h i (List.getElem?_eq_some_iff.mp hv).1, hv])

theorem Reads.load0 {m : Mem} {b o : Nat} {d : List Byte} {v : Byte} (h : Reads m b o (v :: d)) :
    IMU.load (ptr b o) m = .ok v m := h.load (i := 0) rfl

theorem putIdx_eq {p : Ptr} {i : U32} {v : Nat} (m : Mem) (hi : i.toNat = v) (hv : v < 64) :
    putIdx p i m = store p (char v) m := by
  unfold putIdx constAt
  rw [hi, table_char hv]
  rfl

theorem putIdx_bind {β} {p : Ptr} {i : U32} {v : Nat} (m : Mem) (f : Unit → C β) (hi : i.toNat = v) (hv : v < 64) :
    (putIdx p i >>= f) m = (store p (char v) >>= f) m := by
  rw [C.bind_run, C.bind_run, putIdx_eq m hi hv]

theorem encGroup_eq {m : Mem} {bi oi bp op : Nat} {a b c : Byte} {t : List Byte} (h : Reads m bi oi (a :: b :: c :: t))
    (hd : bi ≠ bp ∨ oi + (t.length + 3) ≤ op ∨ op + 4 ≤ oi) :
    encGroup (ptr bi oi) (ptr bp op) m = puts (ptr bp op)
      [char (sextet (group a b c) 0), char (sextet (group a b c) 1), char (sextet (group a b c) 2),
        char (sextet (group a b c) 3)] m := by
  have hlen : (a :: b :: c :: t).length = t.length + 3 := by simp
  unfold encGroup
  simp only [puts, ptr_addN]
  rw [C.bind_ok h.load0, putIdx_bind m _ (idx0 a b c) (sextet_lt _ _)]
  refine bind_congr_ok fun _ m1 h1 => ?_
  replace h := h.store h1 (by omega)
  rw [C.bind_ok h.load0, C.bind_ok (h.load (i := 1) rfl),
    putIdx_bind m1 _ (idx1 a b c) (sextet_lt _ _)]
  refine bind_congr_ok fun _ m2 h2 => ?_
  replace h := h.store h2 (by omega)
  rw [C.bind_ok (h.load (i := 1) rfl), C.bind_ok (h.load (i := 2) rfl),
    putIdx_bind m2 _ (idx2 a b c) (sextet_lt _ _)]
  refine bind_congr_ok fun _ m3 h3 => ?_
  replace h := h.store h3 (by omega)
  rw [C.bind_ok (h.load (i := 2) rfl), putIdx_eq m3 (idx3 a b c) (sextet_lt _ _), C.bind_run]
  cases store _ _ m3 <;> rfl

theorem encLast_one {m : Mem} {bi oi bp op : Nat} {a : Byte} {dl ip : SizeT} (h : Reads m bi oi [a])
    (hl : (dl - ip).toNat = 1) (hd : bi ≠ bp ∨ oi + 1 ≤ op ∨ op + 4 ≤ oi) :
    encLast dl ip (ptr bi oi) (ptr bp op) m = (puts (ptr bp op)
      [char (sextet (group a 0 0) 0), char (sextet (group a 0 0) 1), pad, pad] >>= fun _ => pure (ptr bp (op + 4))) m := by
  have hlen : [a].length = 1 := rfl
  have h1' : dl - ip = 1#64 := BitVec.eq_of_toNat_eq (by rw [hl]; rfl)
  unfold encLast
  simp only [puts, ptr_addN]
  rw [C.bind_ok h.load0, putIdx_bind m _ (idx0 a 0 0) (sextet_lt _ _)]
  simp only [C_bind_assoc]
  refine bind_congr_ok fun _ m1 h1 => ?_
  replace h := h.store h1 (by omega)
  rw [if_pos h1']
  rw [C.bind_ok h.load0, putIdx_bind m1 _ (idx1' a) (sextet_lt _ _)]
  refine bind_congr_ok fun _ m2 h2 => ?_
  refine bind_congr_ok fun _ m3 h3 => ?_
  refine bind_congr_ok fun _ m4 h4 => ?_
  rfl

theorem encLast_two {m : Mem} {bi oi bp op : Nat} {a b : Byte} {dl ip : SizeT} (h : Reads m bi oi [a, b])
    (hl : (dl - ip).toNat = 2) (hd : bi ≠ bp ∨ oi + 2 ≤ op ∨ op + 4 ≤ oi) :
    encLast dl ip (ptr bi oi) (ptr bp op) m = (puts (ptr bp op)
      [char (sextet (group a b 0) 0), char (sextet (group a b 0) 1), char (sextet (group a b 0) 2), pad] >>=
        fun _ => pure (ptr bp (op + 4))) m := by
  have hlen : [a, b].length = 2 := rfl
  have h1' : dl - ip ≠ 1#64 := fun e => by rw [e] at hl; cases hl
  unfold encLast
  simp only [puts, ptr_addN]
  rw [C.bind_ok h.load0, putIdx_bind m _ (idx0 a b 0) (sextet_lt _ _)]
  simp only [C_bind_assoc]
  refine bind_congr_ok fun _ m1 h1 => ?_
  replace h := h.store h1 (by omega)
  rw [if_neg h1']
  rw [C.bind_ok h.load0, C.bind_ok (h.load (i := 1) rfl),
    putIdx_bind m1 _ (idx1 a b 0) (sextet_lt _ _)]
  refine bind_congr_ok fun _ m2 h2 => ?_
  replace h := h.store h2 (by omega)
  rw [C.bind_ok (h.load (i := 1) rfl), putIdx_bind m2 _ (idx2' a b) (sextet_lt _ _)]
  refine bind_congr_ok fun _ m3 h3 => ?_
  refine bind_congr_ok fun _ m4 h4 => ?_
  rfl

theorem encode_length (d : List Byte) : (Spec.Base64.encode d).length = 4 * ((d.length + 2) / 3) := by
  induction d using Spec.Base64.encode.induct with
  | case1 => rfl
  | case2 a => simp [Spec.Base64.encode]
  | case3 a b => simp [Spec.Base64.encode]
  | case4 a b c t ih => simp only [Spec.Base64.encode, List.length_append, List.length_cons, List.length_nil, ih]; omega

/-- What the loop and the code behind it do, from any intermediate state. -/
theorem enc_run (dl mx : SizeT) (d : List Byte) : ∀ (fuel : Nat) (bi oi bp op : Nat) (ip cur : SizeT) (m : Mem),
    d.length < fuel → Reads m bi oi d →
    (bi ≠ bp ∨ oi + d.length ≤ op ∨ op + (Spec.Base64.encode d).length ≤ oi) →
    (dl - ip).toNat = d.length → cur.toNat + (Spec.Base64.encode d).length < 2 ^ 64 → cur.toNat ≤ mx.toNat →
    (encLoop dl mx fuel { inp := ptr bi oi, pos := ptr bp op, in_position := ip, current_length := cur, success := 0 }
      >>= encTail dl mx) m =
    (puts (ptr bp op) ((Spec.Base64.encode d).take (4 * ((mx.toNat - cur.toNat) / 4)) ++ [0#8]) >>= fun _ =>
      pure (if cur.toNat + (Spec.Base64.encode d).length ≤ mx.toNat then 0 else 1)) m := by
  have four : ∀ cur : SizeT, cur.toNat + 4 < 2 ^ 64 → (cur + 4#64).toNat = cur.toNat + 4 := by
    intro cur h; rw [BitVec.toNat_add]; simp only [BitVec.toNat_ofNat]; omega
  induction d using Spec.Base64.encode.induct with
  | case1 =>
    intro fuel bi oi bp op ip cur m hf hr hd hl hc hm
    obtain ⟨fuel, rfl⟩ : ∃ k, fuel = k + 1 := ⟨fuel - 1, by simp at hf; omega⟩
    simp only [List.length_nil] at hl
    have h3 : ¬ 3#64 ≤ dl - ip := by rw [BitVec.le_def, hl]; simp
    have h0 : dl - ip = 0#64 := BitVec.eq_of_toNat_eq (by rw [hl]; rfl)
    rw [encLoop, if_neg h3, C.bind_ok (C.pure_run _ _), encTail, if_neg (by simp [h0])]
    simp only [Spec.Base64.encode, List.take_nil, List.nil_append, puts, List.length_nil, Nat.add_zero, hm, if_true,
      C_bind_assoc]
    rfl
  | case2 a =>
    intro fuel bi oi bp op ip cur m hf hr hd hl hc hm
    obtain ⟨fuel, rfl⟩ : ∃ k, fuel = k + 1 := ⟨fuel - 1, by simp at hf; omega⟩
    simp only [List.length_cons, List.length_nil, Nat.zero_add] at hl
    have h3 : ¬ 3#64 ≤ dl - ip := by rw [BitVec.le_def, hl]; simp
    have h0 : dl - ip ≠ 0#64 := fun e => by rw [e] at hl; cases hl
    have hE : (Spec.Base64.encode [a]).length = 4 := rfl
    rw [hE] at hc hd
    simp only [List.length_cons, List.length_nil, Nat.zero_add] at hd
    rw [encLoop, if_neg h3, C.bind_ok (C.pure_run _ _), encTail, if_pos ⟨rfl, h0⟩]
    simp only
    rw [hE]
    by_cases hlt : mx < cur + 4#64
    · rw [if_pos hlt]
      have hlt' := hlt
      rw [BitVec.lt_def, four cur hc] at hlt'
      rw [show 4 * ((mx.toNat - cur.toNat) / 4) = 0 by omega, if_neg (by omega)]
      simp only [List.take_zero, List.nil_append, puts, C_bind_assoc]
      rfl
    · rw [if_neg hlt]
      have hlt' := hlt
      rw [BitVec.lt_def, four cur hc] at hlt'
      rw [List.take_of_length_le (by rw [hE]; omega), if_pos (by omega)]
      refine (bind_left (encLast_one hr hl (by omega)) _).trans ?_
      simp only [C_bind_assoc, Spec.Base64.encode, puts, List.cons_append, List.nil_append]
      rfl
  | case3 a b =>
    intro fuel bi oi bp op ip cur m hf hr hd hl hc hm
    obtain ⟨fuel, rfl⟩ : ∃ k, fuel = k + 1 := ⟨fuel - 1, by simp at hf; omega⟩
    simp only [List.length_cons, List.length_nil, Nat.zero_add] at hl
    have h3 : ¬ 3#64 ≤ dl - ip := by rw [BitVec.le_def, hl]; simp
    have h0 : dl - ip ≠ 0#64 := fun e => by rw [e] at hl; cases hl
    have hE : (Spec.Base64.encode [a, b]).length = 4 := rfl
    rw [hE] at hc hd
    simp only [List.length_cons, List.length_nil, Nat.zero_add] at hd
    rw [encLoop, if_neg h3, C.bind_ok (C.pure_run _ _), encTail, if_pos ⟨rfl, h0⟩]
    simp only
    rw [hE]
    by_cases hlt : mx < cur + 4#64
    · rw [if_pos hlt]
      have hlt' := hlt
      rw [BitVec.lt_def, four cur hc] at hlt'
      rw [show 4 * ((mx.toNat - cur.toNat) / 4) = 0 by omega, if_neg (by omega)]
      simp only [List.take_zero, List.nil_append, puts, C_bind_assoc]
      rfl
    · rw [if_neg hlt]
      have hlt' := hlt
      rw [BitVec.lt_def, four cur hc] at hlt'
      rw [List.take_of_length_le (by rw [hE]; omega), if_pos (by omega)]
      refine (bind_left (encLast_two hr hl (by omega)) _).trans ?_
      simp only [C_bind_assoc, Spec.Base64.encode, puts, List.cons_append, List.nil_append]
      rfl
  | case4 a b c t ih =>
    intro fuel bi oi bp op ip cur m hf hr hd hl hc hm
    obtain ⟨fuel, rfl⟩ : ∃ k, fuel = k + 1 := ⟨fuel - 1, by simp at hf; omega⟩
    have hE : (Spec.Base64.encode (a :: b :: c :: t)).length = 4 + (Spec.Base64.encode t).length := by
      simp [Spec.Base64.encode]; omega
    have hln : (a :: b :: c :: t).length = t.length + 3 := by simp
    rw [hE] at hc hd
    rw [hln] at hl hd hf
    have h3 : 3#64 ≤ dl - ip := by rw [BitVec.le_def, hl]; simp
    rw [encLoop, if_pos h3]
    simp only
    rw [hE]
    by_cases hlt : mx < cur + 4#64
    · rw [if_pos hlt]
      have hlt' := hlt
      rw [BitVec.lt_def, four cur (by omega)] at hlt'
      rw [show 4 * ((mx.toNat - cur.toNat) / 4) = 0 by omega, if_neg (by omega), C.bind_ok (C.pure_run _ _), encTail,
        if_neg (by simp)]
      simp only [List.take_zero, List.nil_append, puts, C_bind_assoc]
      rfl
    · rw [if_neg hlt]
      have hlt' := hlt
      rw [BitVec.lt_def, four cur (by omega)] at hlt'
      have hsub : dl - (ip + 3#64) = (dl - ip) - 3#64 := by rw [BitVec.sub_sub]
      have ht : (Spec.Base64.encode (a :: b :: c :: t)).take (4 * ((mx.toNat - cur.toNat) / 4)) =
          [char (sextet (group a b c) 0), char (sextet (group a b c) 1), char (sextet (group a b c) 2),
            char (sextet (group a b c) 3)] ++
            (Spec.Base64.encode t).take (4 * ((mx.toNat - (cur.toNat + 4)) / 4)) := by
        rw [show 4 * ((mx.toNat - cur.toNat) / 4) = 4 + 4 * ((mx.toNat - (cur.toNat + 4)) / 4) by omega]
        simp only [Spec.Base64.encode]
        exact List.take_length_add_append (l₁ := [_, _, _, _]) _
      rw [ht, List.append_assoc, C_bind_assoc]
      refine (bind_left (encGroup_eq hr (by omega)) _).trans ?_
      refine Eq.trans ?_ (bind_left (puts_append _ _ _ m) _).symm
      rw [C_bind_assoc]
      refine bind_congr_ok fun _ m1 h1 => ?_
      have hr1 := hr.puts h1 (by simp only [List.length_cons, List.length_nil]; omega)
      have hr2 : Reads m1 bi (oi + 3) t := by
        intro i hi
        have := hr1 (i + 3) (by simp; omega)
        rw [show oi + 3 + i = oi + (i + 3) by omega, this]
        rfl
      have := ih fuel bi (oi + 3) bp (op + 4) (ip + 3#64) (cur + 4#64) m1 (by omega) hr2 (by omega)
        (by rw [hsub, BitVec.toNat_sub_of_le h3, hl]; simp) (by rw [four cur (by omega)]; omega)
        (by rw [four cur (by omega)]; omega)
      rw [four cur (by omega)] at this
      simp only [ptr_addN, List.length_cons, List.length_nil]
      rw [this]
      rw [show cur.toNat + 4 + (Spec.Base64.encode t).length = cur.toNat + (4 + (Spec.Base64.encode t).length) by omega]

/-- `len < data_length` exactly if the length of the text does not fit `size_t`. -/
theorem len_check (n : SizeT) :
    (4#64 * ((n + 2#64) / 3#64) < n) ↔ 2 ^ 64 ≤ 4 * ((n.toNat + 2) / 3) := by
  have hn := n.isLt
  rw [BitVec.lt_def, BitVec.toNat_mul, BitVec.toNat_udiv, BitVec.toNat_add]
  simp only [BitVec.toNat_ofNat]
  by_cases h : n.toNat + 2 < 2 ^ 64
  · rw [show 2 % 2 ^ 64 = 2 from rfl, show 3 % 2 ^ 64 = 3 from rfl, show 4 % 2 ^ 64 = 4 from rfl, Nat.mod_eq_of_lt h]
    generalize hq : (n.toNat + 2) / 3 = q
    by_cases h4 : 4 * q < 2 ^ 64
    · rw [Nat.mod_eq_of_lt h4]; omega
    · rw [Nat.mod_eq_sub_mod (by omega), Nat.mod_eq_of_lt (by omega)]; omega
  · rw [show (n.toNat + 2 % 2 ^ 64) % 2 ^ 64 = n.toNat + 2 - 2 ^ 64 by omega, show 3 % 2 ^ 64 = 3 from rfl,
      show (n.toNat + 2 - 2 ^ 64) / 3 = 0 by omega]
    omega

theorem encode_run {n mx : SizeT} {d : List Byte} {bi oi bp op : Nat} {m : Mem} (hr : Reads m bi oi d)
    (hl : n.toNat = d.length) (hfit : (Spec.Base64.encode d).length < 2 ^ 64)
    (hd : bi ≠ bp ∨ oi + d.length ≤ op ∨ op + (Spec.Base64.encode d).length ≤ oi) :
    encode (ptr bi oi) n (ptr bp op) mx m =
    (puts (ptr bp op) ((Spec.Base64.encode d).take (4 * (mx.toNat / 4)) ++ [0#8]) >>= fun _ =>
      pure (if (Spec.Base64.encode d).length ≤ mx.toNat then 0 else 1)) m := by
  unfold encode
  rw [if_neg (by rw [len_check, hl, ← encode_length]; omega)]
  have := enc_run n mx d (n.toNat + 1) bi oi bp op 0#64 0#64 m (by omega) hr hd (by simpa using hl) (by simpa using hfit)
    (by simp)
  simpa using this

end IMU.Base64
