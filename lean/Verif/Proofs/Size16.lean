import Verif.Model.Size16
import Verif.Proofs.Ilp32

/-!
# Lemmas: 16-bit and 64-bit `size_t`
-/

namespace IMU

theorem up_add16 {a b : U16} (h : a.toNat + b.toNat < 2 ^ 16) : a.setWidth 64 + b.setWidth 64 = (a + b).setWidth 64 := by
  apply BitVec.eq_of_toNat_eq
  simp only [BitVec.toNat_add, BitVec.toNat_setWidth]
  omega

theorem up_sub16 {a b : U16} (h : b.toNat ≤ a.toNat) : a.setWidth 64 - b.setWidth 64 = (a - b).setWidth 64 := by
  apply BitVec.eq_of_toNat_eq
  have := a.isLt
  simp only [BitVec.toNat_sub, BitVec.toNat_setWidth]
  omega

theorem up_le16 {a b : U16} : a.setWidth 64 ≤ b.setWidth 64 ↔ a ≤ b := by
  have := a.isLt; have := b.isLt
  simp only [BitVec.le_def, BitVec.toNat_setWidth]
  omega

theorem up_lt16 {a b : U16} : a.setWidth 64 < b.setWidth 64 ↔ a < b := by
  have := a.isLt; have := b.isLt
  simp only [BitVec.lt_def, BitVec.toNat_setWidth]
  omega

theorem up_inj16 {a b : U16} : a.setWidth 64 = b.setWidth 64 ↔ a = b := by
  constructor
  · intro h
    have := congrArg BitVec.toNat h
    have := a.isLt; have := b.isLt
    simp only [BitVec.toNat_setWidth] at *
    exact BitVec.eq_of_toNat_eq (by omega)
  · rintro rfl; rfl

theorem up_nat16 (a : U16) : (a.setWidth 64).toNat = a.toNat := by
  have := a.isLt
  simp only [BitVec.toNat_setWidth]
  omega

namespace Base64

/-- Lemma support: the same state with 64-bit variables. -/
def EncState16.up (s : EncState16) : EncState :=
  ⟨s.inp, s.pos, s.in_position.setWidth 64, s.current_length.setWidth 64, s.success⟩

theorem put_up (p : Ptr) (i : U16) : putIdx16 p i = putIdx p (i.setWidth 32) := by
  unfold putIdx16 putIdx
  have : (i.setWidth 32).toNat = i.toNat := by
    have := i.isLt
    rw [BitVec.toNat_setWidth]
    omega
  rw [this]

theorem shift_up (a b : Byte) : (u16 a >>> 2).setWidth 32 = u32 a >>> 2 ∧
    ((u16 a &&& 0x03#16) <<< 4).setWidth 32 = (u32 a &&& 0x03#32) <<< 4 ∧
    (((u16 a &&& 0x03#16) <<< 4) ||| (u16 b >>> 4)).setWidth 32 = ((u32 a &&& 0x03#32) <<< 4) ||| (u32 b >>> 4) ∧
    ((u16 a &&& 0x0F#16) <<< 2).setWidth 32 = (u32 a &&& 0x0F#32) <<< 2 ∧
    (((u16 a &&& 0x0F#16) <<< 2) ||| (u16 b >>> 6)).setWidth 32 = ((u32 a &&& 0x0F#32) <<< 2) ||| (u32 b >>> 6) ∧
    (u16 a &&& 0x3F#16).setWidth 32 = u32 a &&& 0x3F#32 := by
  have h1 : ∀ x : Byte, (u16 x >>> 2).setWidth 32 = u32 x >>> 2 := by decide +kernel
  have h2 : ∀ x : Byte, ((u16 x &&& 0x03#16) <<< 4).setWidth 32 = (u32 x &&& 0x03#32) <<< 4 := by decide +kernel
  have h3 : ∀ x : Byte, (u16 x >>> 4).setWidth 32 = u32 x >>> 4 := by decide +kernel
  have h4 : ∀ x : Byte, ((u16 x &&& 0x0F#16) <<< 2).setWidth 32 = (u32 x &&& 0x0F#32) <<< 2 := by decide +kernel
  have h5 : ∀ x : Byte, (u16 x >>> 6).setWidth 32 = u32 x >>> 6 := by decide +kernel
  have h6 : ∀ x : Byte, (u16 x &&& 0x3F#16).setWidth 32 = u32 x &&& 0x3F#32 := by decide +kernel
  exact ⟨h1 a, h2 a, by rw [BitVec.setWidth_or, h2, h3], h4 a, by rw [BitVec.setWidth_or, h4, h5], h6 a⟩

theorem group_up (inp pos : Ptr) : encGroup16 inp pos = encGroup inp pos := by
  unfold encGroup16 encGroup
  simp only [put_up, (shift_up _ 0#8).1, (shift_up _ _).2.2.1, (shift_up _ _).2.2.2.2.1, (shift_up _ 0#8).2.2.2.2.2]

theorem encLast_up16 {dl ip : U16} (h : ip.toNat ≤ dl.toNat) (inp pos : Ptr) :
    encLast16 dl ip inp pos = encLast (dl.setWidth 64) (ip.setWidth 64) inp pos := by
  unfold encLast16 encLast
  rw [up_sub16 h, show (1#64) = (1#16).setWidth 64 from rfl]
  simp only [up_inj16, put_up, (shift_up _ 0#8).1, (shift_up _ 0#8).2.1, (shift_up _ _).2.2.1, (shift_up _ 0#8).2.2.2.1]

theorem encTail_up16 {dl mx : U16} {s : EncState16} (h : s.in_position.toNat ≤ dl.toNat)
    (hc : s.success = 0 → s.in_position.toNat < dl.toNat → s.current_length.toNat + 4 < 2 ^ 16) :
    encTail16 dl mx s = encTail (dl.setWidth 64) (mx.setWidth 64) s.up := by
  unfold encTail16 encTail EncState16.up
  simp only []
  rw [up_sub16 h, encLast_up16 h]
  simp only [ne_eq, show (0#64) = (0#16).setWidth 64 from rfl, up_inj16]
  by_cases hd : s.success = 0 ∧ ¬ dl - s.in_position = 0#16
  · rw [if_pos hd, if_pos hd]
    have hlt : s.in_position.toNat < dl.toNat := by
      rcases Nat.lt_or_eq_of_le h with h | h
      · exact h
      · rw [BitVec.eq_of_toNat_eq h] at hd
        simp at hd
    rw [show (4#64) = (4#16).setWidth 64 from rfl, up_add16 (by have := hc hd.1 hlt; simpa using this)]
    simp only [up_lt16]
  · rw [if_neg hd, if_neg hd]

theorem enc_up16 {dl mx : U16} (hdl : 4 * ((dl.toNat + 2) / 3) < 2 ^ 16) : ∀ (fuel : Nat) (s : EncState16),
    s.in_position.toNat ≤ dl.toNat → 3 * s.current_length.toNat = 4 * s.in_position.toNat →
    (encLoop16 dl mx fuel s >>= encTail16 dl mx) =
      (encLoop (dl.setWidth 64) (mx.setWidth 64) fuel s.up >>= encTail (dl.setWidth 64) (mx.setWidth 64)) := by
  intro fuel
  induction fuel with
  | zero => intro s _ _; rfl
  | succ fuel ih =>
    intro s h hc
    rw [encLoop16, encLoop]
    have hs : s.up.in_position = s.in_position.setWidth 64 := rfl
    have hs2 : s.up.current_length = s.current_length.setWidth 64 := rfl
    rw [hs, hs2, up_sub16 h, show (3#64) = (3#16).setWidth 64 from rfl]
    simp only [up_le16]
    by_cases hd : 3#16 ≤ dl - s.in_position
    · rw [if_pos hd, if_pos hd]
      have h3 : s.in_position.toNat + 3 ≤ dl.toNat := by
        have := BitVec.le_def.mp hd
        rw [BitVec.toNat_sub_of_le (BitVec.le_def.mpr h)] at this
        simp only [BitVec.toNat_ofNat, Nat.reducePow, Nat.reduceMod] at this
        omega
      have hadd : s.current_length.toNat + 4 < 2 ^ 16 := by omega
      have hadd' : (s.current_length + 4#16).toNat = s.current_length.toNat + 4 := by
        rw [BitVec.toNat_add]; simp only [BitVec.toNat_ofNat, Nat.reducePow, Nat.reduceMod]; omega
      have hip : (s.in_position + 3#16).toNat = s.in_position.toNat + 3 := by
        have := dl.isLt
        rw [BitVec.toNat_add]; simp only [BitVec.toNat_ofNat, Nat.reducePow, Nat.reduceMod]; omega
      rw [show (4#64) = (4#16).setWidth 64 from rfl, up_add16 (by simpa using hadd)]
      rw [up_add16 (a := s.in_position) (b := 3#16) (by have := dl.isLt; simp only [BitVec.toNat_ofNat, Nat.reducePow, Nat.reduceMod]; omega)]
      simp only [up_lt16]
      by_cases hm : mx < s.current_length + 4#16
      · rw [if_pos hm, if_pos hm]
        exact encTail_up16 (mx := mx) (s := ⟨s.inp, s.pos, s.in_position, s.current_length + 4#16, 1⟩) h (fun h => absurd (show (1 : Int) = 0 from h) (by decide))
      · rw [if_neg hm, if_neg hm]
        have := ih ⟨s.inp.addN 3, s.pos.addN 4, s.in_position + 3#16, s.current_length + 4#16, s.success⟩
          (by rw [hip]; exact h3) (by simp only [hip, hadd']; omega)
        funext m
        have e : ∀ {α β γ} (x : C α) (f : α → C β) (g : β → C γ), (x >>= f) >>= g = x >>= fun a => f a >>= g := by
          intro α β γ x f g
          funext m
          rw [C.bind_run, C.bind_run, C.bind_run]
          cases x m with
          | ub e => rfl
          | ok a m' => simp only; rw [C.bind_run]
        rw [e, e]
        simp only [this, group_up]
        rfl
    · rw [if_neg hd, if_neg hd]
      show encTail16 dl mx s = encTail _ _ s.up
      exact encTail_up16 h (by omega)

theorem encode_up16 (d : Ptr) (n : U16) (r : Ptr) (mx : U16) : encode16 d n r mx =
    if 4 * ((n.toNat + 2) / 3) < 2 ^ 16 then encode d (n.setWidth 64) r (mx.setWidth 64) else pure 1 := by
  have hn := n.isLt
  unfold encode16 encode
  simp only []
  have e64 : ¬ 4#64 * ((n.setWidth 64 + 2#64) / 3#64) < n.setWidth 64 := by
    rw [BitVec.lt_def]
    simp only [BitVec.toNat_mul, BitVec.toNat_udiv, BitVec.toNat_add, BitVec.toNat_setWidth, BitVec.toNat_ofNat, Nat.reducePow, Nat.reduceMod]
    omega
  by_cases h : 4 * ((n.toNat + 2) / 3) < 2 ^ 16
  · have e32 : ¬ 4#16 * ((n + 2#16) / 3#16) < n := by
      rw [BitVec.lt_def]
      simp only [BitVec.toNat_mul, BitVec.toNat_udiv, BitVec.toNat_add, BitVec.toNat_ofNat, Nat.reducePow, Nat.reduceMod]
      rw [Nat.mod_eq_of_lt (a := n.toNat + 2) (by omega), Nat.mod_eq_of_lt h]
      omega
    rw [if_neg e32, if_pos h, if_neg e64, up_nat16]
    exact enc_up16 h _ ⟨d, r, 0#16, 0#16, 0⟩ (Nat.zero_le _) rfl
  · have e32 : 4#16 * ((n + 2#16) / 3#16) < n := by
      rw [BitVec.lt_def]
      simp only [BitVec.toNat_mul, BitVec.toNat_udiv, BitVec.toNat_add, BitVec.toNat_ofNat, Nat.reducePow, Nat.reduceMod]
      rcases Nat.lt_or_ge (n.toNat + 2) 65536 with h2 | h2
      · rw [Nat.mod_eq_of_lt h2]
        omega
      · rw [Nat.mod_eq_sub_mod h2, Nat.mod_eq_of_lt (a := n.toNat + 2 - 65536) (by omega)]
        omega
    rw [if_pos e32, if_neg h]

theorem padBool_up16 (inp : Ptr) (n : U16) : padBool16 inp n = padBool inp (n.setWidth 64) := by
  unfold padBool16 padBool
  simp only [show (0#64) = (0#16).setWidth 64 from rfl, up_lt16]
  by_cases h : 0#16 < n
  · rw [if_pos h, if_pos h]
    have hm : (n.setWidth 64 % 4#64) = (n % 4#16).setWidth 64 := by
      apply BitVec.eq_of_toNat_eq
      have := n.isLt
      simp only [BitVec.toNat_umod, BitVec.toNat_setWidth, BitVec.toNat_ofNat, Nat.reducePow, Nat.reduceMod]
      omega
    have h1 : n.setWidth 64 - 1#64 = (n - 1#16).setWidth 64 :=
      up_sub16 (b := 1#16) (by have := BitVec.lt_def.mp h; exact this)
    rw [hm, h1, up_nat16]
    simp only [ne_eq, up_inj16]
  · rw [if_neg h, if_neg h]

theorem decLast_up16 {inp : Ptr} {n len ol : U16} {out : Ptr} {mx : U16} (hl : len.toNat + 2 < 2 ^ 16) (h1 : 1 ≤ ol.toNat)
    (ho : ol.toNat + 1 < 2 ^ 16) : decLast16 inp n len ol out mx =
      decLast inp (n.setWidth 64) (len.setWidth 64) (ol.setWidth 64) out (mx.setWidth 64) := by
  unfold decLast16 decLast
  have e1 : len.setWidth 64 + 1#64 = (len + 1#16).setWidth 64 := up_add16 (b := 1#16) (by simp only [BitVec.toNat_ofNat, Nat.reducePow, Nat.reduceMod]; omega)
  have e2 : len.setWidth 64 + 2#64 = (len + 2#16).setWidth 64 := up_add16 (b := 2#16) (by simp only [BitVec.toNat_ofNat, Nat.reducePow, Nat.reduceMod]; omega)
  have e3 : ol.setWidth 64 + 1#64 = (ol + 1#16).setWidth 64 := up_add16 (b := 1#16) (by simp only [BitVec.toNat_ofNat, Nat.reducePow, Nat.reduceMod]; omega)
  have e4 : ol.setWidth 64 - 1#64 = (ol - 1#16).setWidth 64 := up_sub16 (b := 1#16) (by simpa using h1)
  rw [e1, e2, e3, e4, up_nat16, up_nat16, up_nat16, up_nat16, up_nat16]
  simp only [up_lt16]

/-- Lemma support: `Base64_decode` after line 128. -/
def decBody16 (inp : Ptr) (in_len : U16) (out : Ptr) (max_out_len : U16) (pad_bool : Bool) : C Int := do
  let pad_uint := if pad_bool then 1#32 else 0#32
  let len : U16 := ((((in_len + 3#16) / 4#16).setWidth 32 - pad_uint) * 4#32).setWidth 16
  let out_len : U16 := (((len / 4#16) * 3#16).setWidth 32 + pad_uint).setWidth 16
  if max_out_len < out_len ∨ len = 0#16 then return 1
  else
    let _ ← forN ((len.toNat + 3) / 4) 0 (fun r j => decGroup inp out (4 * r) j) 0
    if pad_bool then decLast16 inp in_len len out_len out max_out_len
    else return 0

theorem decode_up16 (inp : Ptr) (n : U16) (out : Ptr) (mx : U16) :
    decode16 inp n out mx = decode inp (n.setWidth 64) out (mx.setWidth 64) := by
  have hn := n.isLt
  show (padBool16 inp n >>= decBody16 inp n out mx) = (padBool inp (n.setWidth 64) >>= decBody inp (n.setWidth 64) out (mx.setWidth 64))
  rw [padBool_up16]
  funext m
  rw [C.bind_run, C.bind_run]
  unfold padBool
  by_cases h0 : 0#64 < n.setWidth 64
  · rw [if_pos h0]
    have key : ∀ pad : Bool, (pad = false → n.toNat % 4 = 0) →
        (((n.setWidth 64 + 3#64) / 4#64 - if pad then 1#64 else 0#64) * 4#64) =
          (((((n + 3#16) / 4#16).setWidth 32 - if pad then 1#32 else 0#32) * 4#32).setWidth 16 : U16).setWidth 64 := by
      intro pad hp
      have h0 : 0 < n.toNat := by have := BitVec.lt_def.mp h0; rw [up_nat16] at this; simpa using this
      apply BitVec.eq_of_toNat_eq
      cases pad with
      | true =>
        simp only [if_true, BitVec.toNat_mul, BitVec.toNat_sub, BitVec.toNat_udiv, BitVec.toNat_add, BitVec.toNat_setWidth,
          BitVec.toNat_ofNat, Nat.reducePow, Nat.reduceMod]
        omega
      | false =>
        have hp := hp rfl
        simp only [Bool.false_eq_true, if_false, BitVec.toNat_mul, BitVec.toNat_sub, BitVec.toNat_udiv, BitVec.toNat_add,
          BitVec.toNat_setWidth, BitVec.toNat_ofNat, Nat.reducePow, Nat.reduceMod]
        omega
    have main : ∀ pad : Bool, (pad = false → n.toNat % 4 = 0) → ∀ m', decBody16 inp n out mx pad m' =
        decBody inp (n.setWidth 64) out (mx.setWidth 64) pad m' := by
      intro pad hp m'
      unfold decBody16 decBody
      rw [key pad hp]
      have hl4 : ∀ x : U32, ((x * 4#32).setWidth 16).toNat % 4 = 0 ∧ ((x * 4#32).setWidth 16).toNat + 4 ≤ 2 ^ 16 := by
        intro x
        rw [BitVec.toNat_setWidth, BitVec.toNat_mul]
        simp only [BitVec.toNat_ofNat, Nat.reducePow, Nat.reduceMod]
        omega
      obtain ⟨hl, hl'⟩ := hl4 (((n + 3#16) / 4#16).setWidth 32 - if pad then 1#32 else 0#32)
      generalize ((((n + 3#16) / 4#16).setWidth 32 - if pad then 1#32 else 0#32) * 4#32).setWidth 16 = len at hl hl' ⊢
      have hb : ((((len / 4#16) * 3#16).setWidth 32 + (if pad then 1#32 else 0#32)).setWidth 16 : U16).toNat =
          len.toNat / 4 * 3 + if pad then 1 else 0 := by
        cases pad <;> simp only [Bool.false_eq_true, if_false, if_true, BitVec.toNat_mul, BitVec.toNat_udiv, BitVec.toNat_add,
          BitVec.toNat_setWidth, BitVec.toNat_ofNat, Nat.reducePow, Nat.reduceMod] <;> omega
      have ho : len.setWidth 64 / 4#64 * 3#64 + (if pad then 1#64 else 0#64) =
          ((((len / 4#16) * 3#16).setWidth 32 + (if pad then 1#32 else 0#32)).setWidth 16 : U16).setWidth 64 := by
        apply BitVec.eq_of_toNat_eq
        rw [up_nat16, hb]
        cases pad <;> simp only [Bool.false_eq_true, if_false, if_true, BitVec.toNat_mul, BitVec.toNat_udiv, BitVec.toNat_add,
          up_nat16, BitVec.toNat_ofNat, Nat.reducePow, Nat.reduceMod] <;> omega
      rw [ho, up_nat16]
      generalize ((((len / 4#16) * 3#16).setWidth 32 + (if pad then 1#32 else 0#32)).setWidth 16 : U16) = ol at hb ⊢
      simp only [up_lt16, show (0#64) = (0#16).setWidth 64 from rfl, up_inj16]
      cases pad with
      | false => rfl
      | true =>
        simp only [if_true] at hb
        simp only [if_true]
        rw [decLast_up16 (by omega) (by omega) (by omega)]
    by_cases h4 : n.setWidth 64 % 4#64 ≠ 0#64
    · rw [if_pos h4]
      exact main true (fun h => by cases h) m
    · rw [if_neg h4]
      rw [C.bind_run]
      cases load (inp.addN (n.setWidth 64 - 1#64).toNat) m with
      | ub e => rfl
      | ok c m' =>
        refine main (c == 61#8) (fun _ => ?_) m'
        have := congrArg BitVec.toNat (Decidable.not_not.mp h4)
        rw [BitVec.toNat_umod, up_nat16] at this
        exact this
  · have : n = 0#16 := by
      apply BitVec.eq_of_toNat_eq
      rw [BitVec.lt_def, up_nat16] at h0
      simp only [BitVec.toNat_ofNat, Nat.reducePow, Nat.reduceMod] at h0 ⊢
      omega
    subst this
    rw [if_neg h0]
    show decBody16 inp 0#16 out mx false m = decBody inp 0#64 out (mx.setWidth 64) false m
    unfold decBody16 decBody
    rw [if_pos (.inr (by decide)), if_pos (.inr (by decide))]

end Base64

namespace Json

/-- Lemma support: every object has less than 2^32 bytes, as on a 16-bit target. -/
def Small16 (m : Mem) : Prop := ∀ b, (m.bytes b).length < 2 ^ 16

theorem startString_up16 (b : Ptr) (n : U16) : startString16 b n = startString b (n.setWidth 64) := by
  unfold startString16 startString
  simp only [show (2#64) = (2#16).setWidth 64 from rfl, up_le16]

theorem low_lt (i : U32) (n : U16) : i < n.setWidth 32 ↔ i.setWidth 64 < n.setWidth 64 := by
  have := i.isLt; have := n.isLt
  simp only [BitVec.lt_def, BitVec.toNat_setWidth]
  omega

theorem skip_up16 (b : Ptr) (n : U16) : ∀ (fuel : Nat) (i : U32), skip16 b n fuel i = skip b (n.setWidth 64) fuel i := by
  intro fuel
  induction fuel with
  | zero => intro i; rfl
  | succ fuel ih =>
    intro i
    rw [skip16, skip]
    simp only [low_lt, ih]

theorem copy_up16 (b : Ptr) (n : U16) (v : Ptr) (mx : U16) : ∀ (fuel : Nat) (i : U32) (vs : U16),
    copy16 b n v mx fuel i vs = copy b (n.setWidth 64) v (mx.setWidth 64) fuel i (vs.setWidth 64) := by
  intro fuel
  induction fuel with
  | zero => intro i vs; rfl
  | succ fuel ih =>
    intro i vs
    rw [copy16, copy]
    simp only [up_lt16, low_lt, ih]
    by_cases h : i.setWidth 64 < n.setWidth 64 ∧ vs < mx
    · rw [if_pos h, if_pos h, up_nat16]
      have e : vs.setWidth 64 + 1#64 = (vs + 1#16).setWidth 64 := up_add16 (b := 1#16) (by
        have := BitVec.lt_def.mp h.2
        have := mx.isLt
        simp only [BitVec.toNat_ofNat, Nat.reducePow, Nat.reduceMod]
        omega)
      rw [e]
    · rw [if_neg h, if_neg h]

theorem search_up16 (b k : Ptr) (ks : U16) (mxs : U32) (h : mxs.toNat + ks.toNat < 2 ^ 32 + 1) : ∀ (fuel : Nat) (i : U32),
    search16 b k ks mxs fuel i = search b k (ks.setWidth 64) mxs fuel i := by
  intro fuel
  induction fuel with
  | zero => intro i; rfl
  | succ fuel ih =>
    intro i
    rw [search16, search]
    simp only [ih]
    by_cases hi : i < mxs
    · have e : (i + ks.setWidth 32).toNat = (i.setWidth 64 + ks.setWidth 64).toNat := by
        have := BitVec.lt_def.mp hi
        have := ks.isLt
        simp only [BitVec.toNat_add, BitVec.toNat_setWidth]
        omega
      rw [if_pos hi, if_pos hi, up_nat16, e]
    · rw [if_neg hi, if_neg hi]

theorem up_ofNat16 {n : Nat} (h : n < 2 ^ 16) : BitVec.ofNat 64 n = (BitVec.ofNat 16 n).setWidth 64 := by
  apply BitVec.eq_of_toNat_eq
  simp only [BitVec.toNat_setWidth, BitVec.toNat_ofNat]
  omega

theorem toNat_of16 {n : Nat} (h : n < 2 ^ 16) : (BitVec.ofNat 16 n).toNat = n := by
  rw [BitVec.toNat_ofNat, Nat.mod_eq_of_lt h]

theorem findByKey_up16 {b : Ptr} {n : U16} {k v : Ptr} {mx : U16} {m : Mem} (hm : Small16 m) :
    findByKey16 b n k v mx m = findByKey b (n.setWidth 64) k v (mx.setWidth 64) m := by
  unfold findByKey16 findByKey
  rw [C.bind_run, C.bind_run]
  cases hk : strlen k m with
  | ub e => rfl
  | ok ks m' =>
    obtain ⟨_, _, hlt⟩ := strlen_up hk
    have hks : ks < 2 ^ 16 := by have := hm k.blk; omega
    simp only []
    rw [up_ofNat16 hks]
    have hn := n.isLt
    have hksn := toNat_of16 hks
    generalize BitVec.ofNat 16 ks = w at hksn ⊢
    have hw1 : w.toNat + 1 < 2 ^ 16 := by have := hm k.blk; omega
    have e1 : (if w.setWidth 64 < n.setWidth 64 then (n.setWidth 64 - w.setWidth 64).setWidth 32 else 0#32) =
        (if w < n then (n - w).setWidth 32 else 0#32) := by
      by_cases h : w < n
      · rw [if_pos h, if_pos (up_lt16.mpr h), up_sub16 (Nat.le_of_lt (BitVec.lt_def.mp h))]
        apply BitVec.eq_of_toNat_eq
        simp only [BitVec.toNat_setWidth]
        have := (n - w).isLt
        omega
      · rw [if_neg h, if_neg (fun h' => h (up_lt16.mp h'))]
    have e2 : ((w.setWidth 64 + 1#64).setWidth 32 : U32) = (w + 1#16).setWidth 32 := by
      apply BitVec.eq_of_toNat_eq
      simp only [BitVec.toNat_setWidth, BitVec.toNat_add, BitVec.toNat_ofNat]
      omega
    rw [e1, e2, up_nat16]
    have hs : ((if w < n then (n - w).setWidth 32 else 0#32) : U32).toNat + w.toNat < 2 ^ 32 + 1 := by
      by_cases h : w < n
      · rw [if_pos h]
        have := (n - w).isLt
        simp only [BitVec.toNat_setWidth]
        omega
      · rw [if_neg h]
        have := w.isLt
        simp only [BitVec.toNat_ofNat, Nat.reducePow, Nat.reduceMod]
        omega
    rw [search_up16 _ _ _ _ hs]
    simp only [skip_up16, copy_up16]
    rfl

theorem endString_up16 {b : Ptr} {n : U16} {m : Mem} (hm : Small16 m) (h : ∀ s m', strlen b m = .ok s m' → s + 2 < 2 ^ 16) :
    endString16 b n m = endString b (n.setWidth 64) m := by
  unfold endString16 endString
  rw [C.bind_run, C.bind_run]
  cases hk : strlen b m with
  | ub e => rfl
  | ok s m' =>
    have hs := h s m' hk
    simp only []
    rw [up_ofNat16 (n := s) (by omega), show (2#64) = (2#16).setWidth 64 from rfl,
      up_add16 (by rw [toNat_of16 (by omega)]; simp only [BitVec.toNat_ofNat, Nat.reducePow, Nat.reduceMod]; omega)]
    simp only [up_le16]

theorem load_far16 {p : Ptr} {m : Mem} (hm : Small16 m) (h : 2 ^ 16 - 1 ≤ p.off) : load p m = .ub .oobRead := by
  unfold load
  rw [if_pos (by omega), List.getElem?_eq_none (by have := hm p.blk; omega)]

theorem addComma_up16 {b : Ptr} {i : Nat} {m : Mem} (hm : Small16 m) (hb : 0 ≤ b.off) (hi : i + 1 < 2 ^ 16) :
    (∃ e, addComma16 b (BitVec.ofNat 16 i) m = .ub e ∧ addComma b (BitVec.ofNat 64 i) m = .ub e) ∨
    ∃ m' j, i ≤ j ∧ j ≤ i + 1 ∧ addComma16 b (BitVec.ofNat 16 i) m = .ok (BitVec.ofNat 16 j) m' ∧
      addComma b (BitVec.ofNat 64 i) m = .ok (BitVec.ofNat 64 j) m' := by
  unfold addComma16 addComma
  by_cases h0 : i = 0
  · subst h0
    left
    refine ⟨.oobRead, C.bind_ub ?_, C.bind_ub ?_⟩
    · show (load _ >>= _) m = _
      refine C.bind_ub (load_far16 hm ?_)
      show _ ≤ b.off + ((65535 : Nat) : Int)
      omega
    · show (load _ >>= _) m = _
      refine C.bind_ub (load_far16 hm ?_)
      show _ ≤ b.off + ((18446744073709551615 : Nat) : Int)
      omega
  · have e1 : (BitVec.ofNat 16 i - 1#16).toNat = i - 1 := by
      simp only [BitVec.toNat_sub, BitVec.toNat_ofNat]; omega
    have e2 : (BitVec.ofNat 64 i - 1#64).toNat = i - 1 := by
      simp only [BitVec.toNat_sub, BitVec.toNat_ofNat]; omega
    have e3 : (BitVec.ofNat 16 i).toNat = i := toNat_of16 (by omega)
    have e4 : (BitVec.ofNat 64 i).toNat = i := by rw [BitVec.toNat_ofNat]; omega
    have e5 : BitVec.ofNat 16 i + 1#16 = BitVec.ofNat 16 (i + 1) := by
      apply BitVec.eq_of_toNat_eq; simp only [BitVec.toNat_add, BitVec.toNat_ofNat]; omega
    have e6 : BitVec.ofNat 64 i + 1#64 = BitVec.ofNat 64 (i + 1) := by
      apply BitVec.eq_of_toNat_eq; simp only [BitVec.toNat_add, BitVec.toNat_ofNat]; omega
    rw [e1, e2, e3, e4, e5, e6, C.bind_run, C.bind_run]
    cases strcmpLit (b.addN (i - 1)) [34#8] m with
    | ub e => exact .inl ⟨e, rfl, rfl⟩
    | ok q m1 =>
      cases q with
      | false => exact .inr ⟨m1, i, Nat.le_refl _, Nat.le_succ _, rfl, rfl⟩
      | true =>
        simp only [if_true]
        rw [C.bind_run, C.bind_run]
        cases strcpyLit (b.addN i) [44#8] m1 with
        | ub e => exact .inl ⟨e, rfl, rfl⟩
        | ok _ m2 => exact .inr ⟨m2, i + 1, Nat.le_succ _, Nat.le_refl _, rfl, rfl⟩

theorem addMember_up16 {b k v : Ptr} {j : Nat} {m : Mem}
    (h : j + (m.bytes k.blk).length + (m.bytes v.blk).length + 3 < 2 ^ 16) :
    addMember16 b (BitVec.ofNat 16 j) k v m = addMember b (BitVec.ofNat 64 j) k v m := by
  have a32 : ∀ x y : Nat, BitVec.ofNat 16 x + BitVec.ofNat 16 y = BitVec.ofNat 16 (x + y) := by
    intro x y; apply BitVec.eq_of_toNat_eq; simp only [BitVec.toNat_add, BitVec.toNat_ofNat]; omega
  have a64 : ∀ x y : Nat, BitVec.ofNat 64 x + BitVec.ofNat 64 y = BitVec.ofNat 64 (x + y) := by
    intro x y; apply BitVec.eq_of_toNat_eq; simp only [BitVec.toNat_add, BitVec.toNat_ofNat]; omega
  have n64 : ∀ x : Nat, x < 2 ^ 16 → (BitVec.ofNat 64 x).toNat = x := by
    intro x hx; rw [BitVec.toNat_ofNat]; omega
  unfold addMember16 addMember
  simp only [a32, a64]
  rw [toNat_of16 (n := j) (by omega), n64 j (by omega), C.bind_run, C.bind_run]
  cases h1 : strcpyLit (b.addN j) [34#8] m with
  | ub e => rfl
  | ok u1 m1 =>
    have l1 := storeN_len h1
    simp only []
    rw [toNat_of16 (n := j + 1) (by omega), n64 (j + 1) (by omega), C.bind_run, C.bind_run]
    cases h2 : strcpy (b.addN (j + 1)) k m1 with
    | ub e => rfl
    | ok u2 m2 =>
      have l2 := strcpy_len h2
      simp only []
      rw [C.bind_run, C.bind_run]
      cases h3 : strlen k m2 with
      | ub e => rfl
      | ok ks m3 =>
        obtain ⟨rfl, _, hk⟩ := strlen_up h3
        rw [l2, l1] at hk
        simp only []
        rw [toNat_of16 (n := j + 1 + ks) (by omega), n64 (j + 1 + ks) (by omega), C.bind_run, C.bind_run]
        cases h4 : strcpyLit (b.addN (j + 1 + ks)) [34#8, 58#8, 34#8] m3 with
        | ub e => rfl
        | ok u4 m4 =>
          have l4 := storeN_len h4
          simp only []
          rw [toNat_of16 (n := j + 1 + ks + 3) (by omega), n64 (j + 1 + ks + 3) (by omega), C.bind_run, C.bind_run]
          cases h5 : strcpy (b.addN (j + 1 + ks + 3)) v m4 with
          | ub e => rfl
          | ok u5 m5 =>
            have l5 := strcpy_len h5
            simp only []
            rw [C.bind_run, C.bind_run]
            cases h6 : strlen v m5 with
            | ub e => rfl
            | ok vs m6 =>
              obtain ⟨rfl, _, hv⟩ := strlen_up h6
              rw [l5, l4, l2, l1] at hv
              simp only []
              rw [toNat_of16 (n := j + 1 + ks + 3 + vs) (by omega), n64 (j + 1 + ks + 3 + vs) (by omega)]

theorem addComma_len16 {b : Ptr} {i j : U16} {m m' : Mem} (h : addComma16 b i m = .ok j m') (x : Nat) :
    (m'.bytes x).length = (m.bytes x).length := by
  have hl : ∀ {p : Ptr} {m : Mem} {c m'}, load p m = .ok c m' → m' = m := by
    intro p m c m' h
    unfold load at h
    by_cases h0 : 0 ≤ p.off
    · rw [if_pos h0] at h
      cases hc : (m.bytes p.blk)[p.off.toNat]? with
      | none => rw [hc] at h; cases h
      | some c => rw [hc] at h; cases h; rfl
    · rw [if_neg h0] at h; cases h
  have hs : ∀ {p : Ptr} {l : List Byte} {m : Mem} {q m'}, strcmpLit p l m = .ok q m' → m' = m := by
    intro p l
    induction l generalizing p with
    | nil =>
      intro m q m' h
      rw [strcmpLit, C.bind_run] at h
      cases hc : load p m with
      | ub e => rw [hc] at h; cases h
      | ok c m1 => rw [hc] at h; cases h; exact hl hc
    | cons y l ih =>
      intro m q m' h
      rw [strcmpLit, C.bind_run] at h
      cases hc : load p m with
      | ub e => rw [hc] at h; cases h
      | ok c m1 =>
        rw [hc] at h
        have := hl hc
        subst this
        simp only [] at h
        by_cases hy : (c == y) = true
        · rw [if_pos hy] at h; exact ih h
        · rw [if_neg hy] at h; cases h; rfl
  unfold addComma16 at h
  rw [C.bind_run] at h
  cases hq : strcmpLit (b.addN (i - 1#16).toNat) [34#8] m with
  | ub e => rw [hq] at h; cases h
  | ok q m1 =>
    rw [hq] at h
    have := hs hq
    subst this
    simp only [] at h
    cases q with
    | false => cases h; rfl
    | true =>
      simp only [if_true] at h
      rw [C.bind_run] at h
      cases h2 : strcpyLit (b.addN i.toNat) [44#8] m1 with
      | ub e => rw [h2] at h; cases h
      | ok u m2 => rw [h2] at h; cases h; exact storeN_len h2 x

theorem addData_up16 {b k v : Ptr} {n : U16} {m : Mem} (hm : Small16 m)
    (h : (m.bytes b.blk).length + (m.bytes k.blk).length + (m.bytes v.blk).length + 4 < 2 ^ 16) :
    addData16 b n k v m = addData b (n.setWidth 64) k v m := by
  unfold addData16 addData
  rw [C.bind_run, C.bind_run]
  cases h1 : strlen b m with
  | ub e => rfl
  | ok i m1 =>
    obtain ⟨rfl, hb, hi⟩ := strlen_up h1
    simp only []
    rw [C.bind_run, C.bind_run]
    cases h2 : strlen k m1 with
    | ub e => rfl
    | ok ks m2 =>
      obtain ⟨rfl, _, hk⟩ := strlen_up h2
      simp only []
      rw [C.bind_run, C.bind_run]
      cases h3 : strlen v m2 with
      | ub e => rfl
      | ok vs m3 =>
        obtain ⟨rfl, _, hv⟩ := strlen_up h3
        simp only []
        rw [C.bind_run, C.bind_run]
        rcases addComma_up16 (b := b) (i := i) hm hb (by omega) with ⟨e, c1, c2⟩ | ⟨m4, j, hj, hj', c1, c2⟩
        · rw [c1, c2]
        · rw [c1, c2]
          simp only []
          have l := addComma_len16 c1
          have e1 : (5#16 + BitVec.ofNat 16 ks + BitVec.ofNat 16 vs + 1#16 + BitVec.ofNat 16 j ≤ n) ↔
              (5#64 + BitVec.ofNat 64 ks + BitVec.ofNat 64 vs + 1#64 + BitVec.ofNat 64 j ≤ n.setWidth 64) := by
            have a : (5#16 + BitVec.ofNat 16 ks + BitVec.ofNat 16 vs + 1#16 + BitVec.ofNat 16 j).toNat = 6 + ks + vs + j := by
              simp only [BitVec.toNat_add, BitVec.toNat_ofNat, Nat.reducePow, Nat.reduceMod]; omega
            have a' : (5#64 + BitVec.ofNat 64 ks + BitVec.ofNat 64 vs + 1#64 + BitVec.ofNat 64 j).toNat = 6 + ks + vs + j := by
              simp only [BitVec.toNat_add, BitVec.toNat_ofNat, Nat.reducePow, Nat.reduceMod]; omega
            rw [BitVec.le_def, BitVec.le_def, a, a', up_nat16]
          by_cases hc : 5#16 + BitVec.ofNat 16 ks + BitVec.ofNat 16 vs + 1#16 + BitVec.ofNat 16 j ≤ n
          · rw [if_pos hc, if_pos (e1.mp hc), C.bind_run, C.bind_run, addMember_up16 (by rw [l, l]; omega)]
          · rw [if_neg hc, if_neg (fun h => hc (e1.mpr h))]

end Json
end IMU
