import Verif.Model.Leak
import Verif.Proofs.SortBase

/-!
# Lemmas on observed computations
-/

namespace IMU
namespace T
variable {α β σ : Type}

/-! ### Without the observer -/

theorem erase_pure (a : α) : erase (pure a : T α) = pure a := rfl

theorem erase_bind (x : T α) (f : α → T β) : erase (x >>= f) = erase x >>= fun a => erase (f a) := by
  funext m
  show (match (match x m with
    | .ok (a, t) m' => (match f a m' with | .ok (b, u) m'' => .ok (b, t ++ u) m'' | .ub e => .ub e)
    | .ub e => .ub e : Res (β × List Leak)) with | .ok (a, _) m' => .ok a m' | .ub e => .ub e : Res β) = _
  rw [C.bind_run]
  unfold erase
  cases x m with
  | ub e => rfl
  | ok at' m' =>
    obtain ⟨a, t⟩ := at'
    show _ = (match f a m' with | .ok (a, _) m' => .ok a m' | .ub e => .ub e : Res β)
    cases hfa : f a m' with
    | ub e => simp only [hfa]
    | ok bu m'' => obtain ⟨b, u⟩ := bu; simp only [hfa]

theorem erase_quiet (x : C α) : erase (quiet x) = x := by
  funext m
  unfold erase quiet
  cases x m with
  | ub e => rfl
  | ok a m' => rfl

theorem erase_emit_bind (t : List Leak) (f : Unit → T β) : erase (emit t >>= f) = erase (f ()) := by
  rw [erase_bind]; rfl

theorem erase_branch_bind (b : Bool) (f : Bool → T β) : erase (branch b >>= f) = erase (f b) := by
  rw [erase_bind]; rfl

theorem erase_branch (b : Bool) : erase (branch b) = pure b := rfl

theorem erase_ite {c : Prop} [Decidable c] (x y : T α) : erase (if c then x else y) = if c then erase x else erase y := by
  split <;> rfl

theorem erase_load (p : Ptr) : erase (loadT p) = load p := by
  unfold loadT; rw [erase_emit_bind, erase_quiet]

theorem erase_store (p : Ptr) (v : Byte) : erase (storeT p v) = store p v := by
  unfold storeT; rw [erase_emit_bind, erase_quiet]

theorem erase_constAt (l : List α) (i : Nat) : erase (constAtT l i) = Base64.constAt l i := by
  unfold constAtT; rw [erase_emit_bind, erase_quiet]; rfl

theorem pure_bind_C (a : α) (f : α → C β) : (pure a >>= f) = f a := rfl

theorem bind_pure_C (x : C α) : (x >>= fun a => pure a) = x := by
  funext m
  rw [C.bind_run]
  cases x m with
  | ub e => rfl
  | ok a m' => rfl

theorem bind_assoc_C {γ : Type} (x : C α) (f : α → C β) (g : β → C γ) :
    (x >>= f) >>= g = x >>= fun a => f a >>= g := by
  funext m
  rw [C.bind_run, C.bind_run, C.bind_run]
  cases x m with
  | ub e => rfl
  | ok a m' => simp only; rw [C.bind_run]

theorem erase_strlen (p : Ptr) : erase (strlenT p) = strlen p := by
  unfold strlenT
  rw [erase_bind]
  simp only [erase_emit_bind, erase_pure, erase_quiet]
  exact bind_pure_C _

theorem erase_forNT (n : Nat) : ∀ (i : Nat) (body : Nat → σ → T σ) (s : σ),
    erase (forNT n i body s) = forN n i (fun i s => erase (body i s)) s := by
  induction n with
  | zero => intro i body s; rfl
  | succ n ih =>
    intro i body s
    simp only [forNT, forN]
    rw [erase_branch_bind, erase_bind]
    simp only [ih]

theorem erase_localArray (b : Nat) (init : List Byte) (x : T α) :
    erase (localArrayT b init x) = localArray b init (erase x) := by
  funext m
  unfold localArrayT localArray erase
  simp only
  generalize x (m.upd b init) = r
  cases r with
  | ub e => rfl
  | ok a m' => rfl

end T

open T

theorem ChaCha.erase_deser (p : Ptr) : erase (ChaCha.deserialize32LET p) = Utils.deserialize32LE p := by
  unfold ChaCha.deserialize32LET Utils.deserialize32LE
  simp only [erase_bind, erase_load, erase_pure]

theorem ChaCha.erase_ser (p : Ptr) (v : U32) : erase (ChaCha.serialize32LET p v) = Utils.serialize32LE p v := by
  unfold ChaCha.serialize32LET Utils.serialize32LE
  simp only [erase_bind, erase_store]

theorem ChaCha.erase_readWords (k : Ptr) (c : U32) (n : Ptr) : erase (ChaCha.readWordsT k c n) = ChaCha.readWords k c n := by
  unfold ChaCha.readWordsT ChaCha.readWords
  simp only [erase_bind, erase_deser, erase_pure]

theorem ChaCha.erase_block (k : Ptr) (c : U32) (n o : Ptr) : erase (ChaCha.blockT k c n o) = ChaCha.block k c n o := by
  unfold ChaCha.blockT ChaCha.block
  simp only [erase_bind, erase_readWords, erase_ser, erase_forNT, erase_quiet]

theorem ChaCha.erase_cryptBlock (ks : Nat) (p k n : Ptr) (inc : U32) (r : Ptr) (j : U32) (l : Nat) :
    erase (ChaCha.cryptBlockT ks p k n inc r j l) = ChaCha.cryptBlock ks p k n inc r j l := by
  unfold ChaCha.cryptBlockT ChaCha.cryptBlock
  simp only [erase_localArray, erase_bind, erase_block, erase_forNT, erase_load, erase_store]

theorem ChaCha.erase_crypt (ks : Nat) (p : Ptr) (len : U32) (k n : Ptr) (inc : U32) (r : Ptr) :
    erase (ChaCha.cryptT ks p len k n inc r) = ChaCha.crypt ks p len k n inc r := by
  unfold ChaCha.cryptT ChaCha.crypt
  simp only [erase_bind, erase_forNT, erase_cryptBlock, erase_branch, pure_bind_C, erase_ite, erase_pure, decide_eq_true_eq]

theorem Crc.erase_reflectLoop (nb : Byte) (n : Nat) : ∀ (bit : Nat) (d r : U32),
    erase (Crc.reflectLoopT nb n bit d r) = match Bits.reflectLoop nb n bit d r with
      | some y => pure y
      | none => C.ub .shiftRange := by
  induction n with
  | zero => intro bit d r; rfl
  | succ n ih =>
    intro bit d r
    simp only [Crc.reflectLoopT, Bits.reflectLoop]
    rw [erase_branch_bind, erase_branch_bind, erase_ite]
    simp only [decide_eq_true_eq]
    split
    · rw [erase_bind, erase_quiet]
      cases Bits.shl 1#32 (0x1F#32 &&& ((nb.setWidth 32 - 1#32) - BitVec.ofNat 32 bit)) with
      | none => rfl
      | some s => exact ih _ _ _
    · exact ih _ _ _

theorem Crc.erase_reflect (d : U32) (nb : Byte) : erase (Crc.reflectT d nb) = Crc.reflect d nb := by
  unfold Crc.reflectT Crc.reflect Bits.reflect
  exact Crc.erase_reflectLoop _ _ _ _ _

theorem Crc.erase_input (p : Ptr) (ri : Bool) (i : Nat) : erase (Crc.inputT p ri i) = (do
    let d ← load (p.addN i)
    if ri then do
      let r ← Crc.reflect (d.setWidth 32) 8#8
      return r.setWidth 8
    else return d) := by
  unfold Crc.inputT
  simp only [erase_branch, pure_bind_C, erase_bind, erase_load, erase_ite, erase_reflect, erase_pure]

theorem Crc.erase_round8 (t : List Byte) (p : Ptr) (ri : Bool) (i : Nat) (c : Byte) :
    erase (Crc.round8T t p ri i c) = Crc.round8 t p ri i c := by
  unfold Crc.round8T Crc.round8
  simp only [erase_bind, erase_input, erase_constAt, bind_assoc_C]

theorem Crc.erase_round16 (t : List U16) (p : Ptr) (ri : Bool) (i : Nat) (c : U16) :
    erase (Crc.round16T t p ri i c) = Crc.round16 t p ri i c := by
  unfold Crc.round16T Crc.round16
  simp only [erase_bind, erase_input, erase_constAt, erase_pure, bind_assoc_C]

theorem Crc.erase_round32 (t : List U32) (p : Ptr) (ri : Bool) (i : Nat) (c : U32) :
    erase (Crc.round32T t p ri i c) = Crc.round32 t p ri i c := by
  unfold Crc.round32T Crc.round32
  simp only [erase_bind, erase_input, erase_constAt, erase_pure, bind_assoc_C]

theorem Crc.erase_finish8 (c x : Byte) (ro fx : Bool) : erase (Crc.finishT 8#8 c x ro fx) = Crc.finish8 c x ro fx := by
  unfold Crc.finishT Crc.finish8
  simp only [erase_branch, pure_bind_C, erase_bind, erase_ite, erase_reflect, erase_pure]

theorem Crc.erase_finish16 (c x : U16) (ro fx : Bool) : erase (Crc.finishT 16#8 c x ro fx) = Crc.finish16 c x ro fx := by
  unfold Crc.finishT Crc.finish16
  simp only [erase_branch, pure_bind_C, erase_bind, erase_ite, erase_reflect, erase_pure]

theorem Crc.erase_finish32 (c x : U32) (ro fx : Bool) : erase (Crc.finishT 32#8 c x ro fx) = Crc.finish32 c x ro fx := by
  unfold Crc.finishT Crc.finish32
  simp only [erase_branch, pure_bind_C, erase_bind, erase_ite, erase_reflect, erase_pure, BitVec.setWidth_eq, bind_pure_C]

theorem Crc.erase_base8 (t : List Byte) (p : Ptr) (l : U32) (i x : Byte) (ro ri fx : Bool) :
    erase (Crc.base8T t p l i x ro ri fx) = Crc.base8 t p l i x ro ri fx := by
  unfold Crc.base8T Crc.base8
  simp only [erase_bind, erase_forNT, erase_round8, erase_finish8]

theorem Crc.erase_base16 (t : List U16) (p : Ptr) (l : U32) (i x : U16) (ro ri fx : Bool) :
    erase (Crc.base16T t p l i x ro ri fx) = Crc.base16 t p l i x ro ri fx := by
  unfold Crc.base16T Crc.base16
  simp only [erase_bind, erase_forNT, erase_round16, erase_finish16]

theorem Crc.erase_base32 (t : List U32) (p : Ptr) (l : U32) (i x : U32) (ro ri fx : Bool) :
    erase (Crc.base32T t p l i x ro ri fx) = Crc.base32 t p l i x ro ri fx := by
  unfold Crc.base32T Crc.base32
  simp only [erase_bind, erase_forNT, erase_round32, erase_finish32]

theorem Base64.erase_putIdx (p : Ptr) (i : U32) : erase (Base64.putIdxT p i) = Base64.putIdx p i := by
  unfold Base64.putIdxT Base64.putIdx
  simp only [erase_bind, erase_constAt, erase_store]

theorem Base64.erase_encGroup (a b : Ptr) : erase (Base64.encGroupT a b) = Base64.encGroup a b := by
  unfold Base64.encGroupT Base64.encGroup
  simp only [erase_bind, erase_load, erase_putIdx]

theorem Base64.erase_encLoop (l x : SizeT) (fuel : Nat) : ∀ s, erase (Base64.encLoopT l x fuel s) = Base64.encLoop l x fuel s := by
  induction fuel with
  | zero => intro s; rfl
  | succ fuel ih =>
    intro s
    simp only [Base64.encLoopT, Base64.encLoop]
    simp only [erase_branch, pure_bind_C, erase_ite, erase_bind, erase_encGroup, ih, erase_pure, decide_eq_true_eq]

theorem Base64.erase_encLast (l i : SizeT) (a b : Ptr) : erase (Base64.encLastT l i a b) = Base64.encLast l i a b := by
  unfold Base64.encLastT Base64.encLast
  simp only [erase_branch, pure_bind_C, erase_ite, erase_bind, erase_load, erase_store, erase_putIdx, erase_pure, decide_eq_true_eq]

theorem Base64.erase_encTail (l x : SizeT) (s : Base64.EncState) : erase (Base64.encTailT l x s) = Base64.encTail l x s := by
  unfold Base64.encTailT Base64.encTail
  simp only [erase_branch, pure_bind_C, erase_ite, erase_bind, erase_encLast, erase_store, erase_pure, decide_eq_true_eq]

theorem Base64.erase_encode (d : Ptr) (l : SizeT) (r : Ptr) (x : SizeT) :
    erase (Base64.encodeT d l r x) = Base64.encode d l r x := by
  unfold Base64.encodeT Base64.encode
  simp only [erase_branch, pure_bind_C, erase_ite, erase_bind, erase_encLoop, erase_encTail, erase_pure, decide_eq_true_eq]

theorem Vernam.erase_isUpper (c : Byte) : erase (Vernam.isUpperCharT c) = pure (Utils.isUpperChar c) := by
  unfold Vernam.isUpperCharT Utils.isUpperChar
  rw [erase_branch_bind, erase_ite]
  by_cases h : 65 ≤ c.toNat
  · rw [if_pos (by simpa using h)]
    simp only [h, true_and]; rfl
  · rw [if_neg (by simpa using h)]
    simp only [h, false_and]; rfl

theorem Vernam.erase_isLower (c : Byte) : erase (Vernam.isLowerCharT c) = pure (Utils.isLowerChar c) := by
  unfold Vernam.isLowerCharT Utils.isLowerChar
  rw [erase_branch_bind, erase_ite]
  by_cases h : 97 ≤ c.toNat
  · rw [if_pos (by simpa using h)]
    simp only [h, true_and]; rfl
  · rw [if_neg (by simpa using h)]
    simp only [h, false_and]; rfl

theorem Vernam.erase_isAlpha (c : Byte) : erase (Vernam.isAlphaT c) = pure (Utils.isAlpha c) := by
  unfold Vernam.isAlphaT Utils.isAlpha
  simp only [erase_bind, erase_isUpper, erase_isLower, erase_branch, pure_bind_C, erase_pure]

theorem Vernam.erase_encrypt (m k : Ptr) (l : U32) : erase (Vernam.encryptT m k l) = Vernam.encrypt m k l := by
  unfold Vernam.encryptT Vernam.encrypt Vernam.encryptRoundT
  simp only [erase_branch, erase_isAlpha, erase_isLower, erase_isUpper, pure_bind_C, erase_ite, erase_bind, erase_strlen,
    erase_load, erase_store, erase_forNT, erase_pure, decide_eq_true_eq]
  rfl

theorem Vernam.erase_decrypt (cs : Bool) (m k : Ptr) (l : U32) : erase (Vernam.decryptT cs m k l) = Vernam.decrypt cs m k l := by
  unfold Vernam.decryptT Vernam.decrypt Vernam.decryptRoundT
  simp only [erase_branch, erase_isAlpha, erase_isLower, erase_isUpper, pure_bind_C, erase_ite, erase_bind, erase_strlen,
    erase_load, erase_store, erase_forNT, erase_pure, decide_eq_true_eq]
  rfl

end IMU
