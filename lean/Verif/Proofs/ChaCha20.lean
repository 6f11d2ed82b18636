import Verif.Model.ChaCha20
import Verif.Spec.ChaCha20
import Verif.Proofs.Bits
import Verif.Proofs.Serialize
import Verif.Proofs.Frame

namespace IMU.ChaCha
open Spec Utils Bits

theorem rotl_ok (x n : U32) (h1 : 1 ≤ n.toNat) (h2 : n.toNat ≤ 31) (m : Mem) :
    rotl x n m = .ok (x.rotateLeft n.toNat) m := by
  unfold rotl
  have hs := rotl32_some x n h1 h2
  have : ((x <<< n.toNat) ^^^ (x >>> (32 - n.toNat))) = x.rotateLeft n.toNat := by
    apply BitVec.eq_of_getLsbD_eq
    intro i hi
    rw [rotl32_bits x n _ h1 h2 hs i hi, BitVec.getLsbD_rotateLeft]
    by_cases h : i < n.toNat % 32
    · simp only [h, decide_true, cond_true]; congr 1; omega
    · simp only [h, hi, decide_true, decide_false, cond_false, Bool.true_and]; congr 1; omega
  rw [hs, this]
  rfl

theorem quarterRound_ok (a b c d : U32) (m : Mem) :
    quarterRound a b c d m = .ok (rfcQuarterRound a b c d) m := by
  unfold quarterRound
  rw [C.bind_ok (rotl_ok _ _ (by decide) (by decide) m), C.bind_ok (rotl_ok _ _ (by decide) (by decide) m),
    C.bind_ok (rotl_ok _ _ (by decide) (by decide) m), C.bind_ok (rotl_ok _ _ (by decide) (by decide) m)]
  rfl

/-- The variables as a list. -/
def Vars.list (x : Vars) : List U32 :=
  [x.x0, x.x1, x.x2, x.x3, x.x4, x.x5, x.x6, x.x7, x.x8, x.x9, x.x10, x.x11, x.x12, x.x13, x.x14, x.x15]

theorem rounds_ok (x : Vars) (m : Mem) : ∃ y, rounds x m = .ok y m ∧ y.list = rfcInnerBlock x.list := by
  unfold rounds
  rw [C.bind_ok (quarterRound_ok ..)]
  generalize h1 : rfcQuarterRound x.x0 x.x4 x.x8 x.x12 = q1
  obtain ⟨a0, a4, a8, a12⟩ := q1
  simp only []
  rw [C.bind_ok (quarterRound_ok ..)]
  generalize h2 : rfcQuarterRound x.x1 x.x5 x.x9 x.x13 = q2
  obtain ⟨a1, a5, a9, a13⟩ := q2
  simp only []
  rw [C.bind_ok (quarterRound_ok ..)]
  generalize h3 : rfcQuarterRound x.x2 x.x6 x.x10 x.x14 = q3
  obtain ⟨a2, a6, a10, a14⟩ := q3
  simp only []
  rw [C.bind_ok (quarterRound_ok ..)]
  generalize h4 : rfcQuarterRound x.x3 x.x7 x.x11 x.x15 = q4
  obtain ⟨a3, a7, a11, a15⟩ := q4
  simp only []
  rw [C.bind_ok (quarterRound_ok ..)]
  generalize h5 : rfcQuarterRound a0 a5 a10 a15 = q5
  obtain ⟨b0, b5, b10, b15⟩ := q5
  simp only []
  rw [C.bind_ok (quarterRound_ok ..)]
  generalize h6 : rfcQuarterRound a1 a6 a11 a12 = q6
  obtain ⟨b1, b6, b11, b12⟩ := q6
  simp only []
  rw [C.bind_ok (quarterRound_ok ..)]
  generalize h7 : rfcQuarterRound a2 a7 a8 a13 = q7
  obtain ⟨b2, b7, b8, b13⟩ := q7
  simp only []
  rw [C.bind_ok (quarterRound_ok ..)]
  generalize h8 : rfcQuarterRound a3 a4 a9 a14 = q8
  obtain ⟨b3, b4, b9, b14⟩ := q8
  refine ⟨_, rfl, ?_⟩
  simp [rfcInnerBlock, Vars.list, rfcQuarter, h1, h2, h3, h4, h5, h6, h7, h8]

theorem forN_rounds (x : Vars) (m : Mem) (n i : Nat) :
    ∃ y, forN n i (fun _ x => rounds x) x m = .ok y m ∧ y.list = Nat.repeat rfcInnerBlock n x.list := by
  induction n generalizing i with
  | zero => exact ⟨x, rfl, rfl⟩
  | succ n ih =>
    obtain ⟨y, h1, h2⟩ := ih i
    obtain ⟨z, h3, h4⟩ := rounds_ok y m
    refine ⟨z, ?_, ?_⟩
    · rw [forN_snoc, h1]; exact h3
    · rw [h4, h2]; rfl

theorem deserialize_word {b o : Nat} {m : Mem} (N k : Nat) (hk : 4 * k + 4 ≤ N) (h : o + N ≤ (m.bytes b).length) :
    deserialize32LE ((ptr b o).addN (4 * k)) m = .ok (leWord (slice (m.bytes b) o N) k) m := by
  rw [ptr_addN]
  obtain ⟨v, h1, h2⟩ := (deserialize32LE_eq b (o + 4 * k) m).1 (by omega)
  rw [h1]
  congr 1
  apply BitVec.eq_of_toNat_eq
  rw [h2]
  have g : ∀ i, i < 4 → (slice (m.bytes b) o N).getD (4 * k + i) 0 = (m.bytes b).getD (o + 4 * k + i) 0 := by
    intro i hi
    rw [List.getD_eq_getElem?_getD, getElem?_slice, if_pos (by omega), List.getD_eq_getElem?_getD, Nat.add_assoc]
  have e : slice (m.bytes b) (o + 4 * k) 4 = [(m.bytes b).getD (o + 4 * k) 0, (m.bytes b).getD (o + 4 * k + 1) 0,
      (m.bytes b).getD (o + 4 * k + 2) 0, (m.bytes b).getD (o + 4 * k + 3) 0] := by
    rw [slice_succ _ _ _ (by omega), slice_succ _ _ _ (by omega), slice_succ _ _ _ (by omega),
      slice_succ _ _ _ (by omega), slice_zero]
    simp [show o + 4 * k < (m.bytes b).length by omega, show o + 4 * k + 1 < (m.bytes b).length by omega,
      show o + 4 * k + 2 < (m.bytes b).length by omega, show o + 4 * k + 3 < (m.bytes b).length by omega]
  unfold leWord
  have g0 := g 0 (by decide)
  simp only [Nat.add_zero] at g0
  rw [e, g0, g 1 (by decide), g 2 (by decide), g 3 (by decide)]
  generalize (m.bytes b).getD (o + 4 * k) 0 = a0
  generalize (m.bytes b).getD (o + 4 * k + 1) 0 = a1
  generalize (m.bytes b).getD (o + 4 * k + 2) 0 = a2
  generalize (m.bytes b).getD (o + 4 * k + 3) 0 = a3
  have := a0.isLt; have := a1.isLt; have := a2.isLt; have := a3.isLt
  simp only [valueLE, BitVec.toNat_ofNat]
  omega

theorem readWords_ok {bk ok bn on : Nat} {m : Mem} (counter : U32) (hk : ok + 32 ≤ (m.bytes bk).length)
    (hn : on + 12 ≤ (m.bytes bn).length) :
    ∃ y, readWords (ptr bk ok) counter (ptr bn on) m = .ok y m ∧
      y.list = rfcState (slice (m.bytes bk) ok 32) counter (slice (m.bytes bn) on 12) := by
  unfold readWords
  have K : ∀ k, k < 8 → deserialize32LE ((ptr bk ok).addN (4 * k)) m = .ok (leWord (slice (m.bytes bk) ok 32) k) m :=
    fun k h => deserialize_word 32 k (by omega) hk
  have N : ∀ k, k < 3 → deserialize32LE ((ptr bn on).addN (4 * k)) m = .ok (leWord (slice (m.bytes bn) on 12) k) m :=
    fun k h => deserialize_word 12 k (by omega) hn
  refine ⟨⟨0x61707865#32, 0x3320646e#32, 0x79622d32#32, 0x6b206574#32, leWord (slice (m.bytes bk) ok 32) 0,
    leWord (slice (m.bytes bk) ok 32) 1, leWord (slice (m.bytes bk) ok 32) 2, leWord (slice (m.bytes bk) ok 32) 3,
    leWord (slice (m.bytes bk) ok 32) 4, leWord (slice (m.bytes bk) ok 32) 5, leWord (slice (m.bytes bk) ok 32) 6,
    leWord (slice (m.bytes bk) ok 32) 7, counter, leWord (slice (m.bytes bn) on 12) 0,
    leWord (slice (m.bytes bn) on 12) 1, leWord (slice (m.bytes bn) on 12) 2⟩, ?_, ?_⟩
  · rw [C.bind_ok (K 0 (by decide)), C.bind_ok (K 1 (by decide)), C.bind_ok (K 2 (by decide)),
      C.bind_ok (K 3 (by decide)), C.bind_ok (K 4 (by decide)), C.bind_ok (K 5 (by decide)),
      C.bind_ok (K 6 (by decide)), C.bind_ok (K 7 (by decide)), C.bind_ok (N 0 (by decide)),
      C.bind_ok (N 1 (by decide)), C.bind_ok (N 2 (by decide))]
    rfl
  · have hc : (List.range 4).map (leWord rfcConstant) = [0x61707865#32, 0x3320646e#32, 0x79622d32#32, 0x6b206574#32] := by
      decide +kernel
    unfold rfcState
    rw [hc]
    rfl

theorem leBytes_dig (w : U32) : [dig w.toNat 0, dig w.toNat 1, dig w.toNat 2, dig w.toNat 3] = leBytes w := by
  simp [leBytes, dig]

theorem serialize_next (ks : Nat) (w : U32) (M : Mem) (P T : List Byte) (o : Nat) (ho : P.length = o) (hT : 4 ≤ T.length) :
    serialize32LE ((ptr ks 0).addN o) w (M.upd ks (P ++ T)) = .ok () (M.upd ks (P ++ leBytes w ++ T.drop 4)) := by
  rw [ptr_addN, Nat.zero_add, serialize32LE_eq, if_pos (by simp; omega), leBytes_dig, Mem.upd_upd]
  simp only [Mem.upd_bytes, if_true]
  congr 2
  have : (leBytes w).length = 4 := rfl
  unfold splice
  rw [this, ← ho, List.take_left, List.drop_append, List.drop_of_length_le (by omega)]
  simp

theorem zipWith_vars (x y : Vars) : List.zipWith (· + ·) y.list x.list =
    [y.x0 + x.x0, y.x1 + x.x1, y.x2 + x.x2, y.x3 + x.x3, y.x4 + x.x4, y.x5 + x.x5, y.x6 + x.x6, y.x7 + x.x7,
     y.x8 + x.x8, y.x9 + x.x9, y.x10 + x.x10, y.x11 + x.x11, y.x12 + x.x12, y.x13 + x.x13, y.x14 + x.x14,
     y.x15 + x.x15] := rfl

/-- The block function writes the RFC block to the local array. -/
theorem block_ok {ks bk ok bn on : Nat} {M : Mem} (counter : U32) (hk : ok + 32 ≤ (M.bytes bk).length)
    (hn : on + 12 ≤ (M.bytes bn).length) (hbk : bk ≠ ks) (hbn : bn ≠ ks) :
    block (ptr bk ok) counter (ptr bn on) (ptr ks 0) (M.upd ks (List.replicate 64 0#8)) =
      .ok () (M.upd ks (rfcBlock (slice (M.bytes bk) ok 32) counter (slice (M.bytes bn) on 12))) := by
  obtain ⟨y, h1, h2⟩ := readWords_ok (m := M.upd ks (List.replicate 64 0#8)) (bk := bk) (ok := ok) (bn := bn)
    (on := on) counter (by simp [hbk]; exact hk) (by simp [hbn]; exact hn)
  obtain ⟨x, h3, h4⟩ := forN_rounds y (M.upd ks (List.replicate 64 0#8)) 10 0
  have e1 : (M.upd ks (List.replicate 64 0#8)).bytes bk = M.bytes bk := by simp [hbk]
  have e2 : (M.upd ks (List.replicate 64 0#8)).bytes bn = M.bytes bn := by simp [hbn]
  rw [e1, e2] at h2
  unfold block rfcBlock
  simp only []
  rw [← h2, ← h4, zipWith_vars]
  rw [C.bind_ok h1, C.bind_ok h3, C.bind_ok h1]
  have e : List.replicate 64 0#8 = [] ++ List.replicate 64 0#8 := rfl
  rw [e]
  refine (C.bind_ok (serialize_next _ _ _ _ _ 0 (by simp [leBytes]) (by simp))).trans ?_
  refine (C.bind_ok (serialize_next _ _ _ _ _ 4 (by simp [leBytes]) (by simp))).trans ?_
  refine (C.bind_ok (serialize_next _ _ _ _ _ 8 (by simp [leBytes]) (by simp))).trans ?_
  refine (C.bind_ok (serialize_next _ _ _ _ _ 12 (by simp [leBytes]) (by simp))).trans ?_
  refine (C.bind_ok (serialize_next _ _ _ _ _ 16 (by simp [leBytes]) (by simp))).trans ?_
  refine (C.bind_ok (serialize_next _ _ _ _ _ 20 (by simp [leBytes]) (by simp))).trans ?_
  refine (C.bind_ok (serialize_next _ _ _ _ _ 24 (by simp [leBytes]) (by simp))).trans ?_
  refine (C.bind_ok (serialize_next _ _ _ _ _ 28 (by simp [leBytes]) (by simp))).trans ?_
  refine (C.bind_ok (serialize_next _ _ _ _ _ 32 (by simp [leBytes]) (by simp))).trans ?_
  refine (C.bind_ok (serialize_next _ _ _ _ _ 36 (by simp [leBytes]) (by simp))).trans ?_
  refine (C.bind_ok (serialize_next _ _ _ _ _ 40 (by simp [leBytes]) (by simp))).trans ?_
  refine (C.bind_ok (serialize_next _ _ _ _ _ 44 (by simp [leBytes]) (by simp))).trans ?_
  refine (C.bind_ok (serialize_next _ _ _ _ _ 48 (by simp [leBytes]) (by simp))).trans ?_
  refine (C.bind_ok (serialize_next _ _ _ _ _ 52 (by simp [leBytes]) (by simp))).trans ?_
  refine (C.bind_ok (serialize_next _ _ _ _ _ 56 (by simp [leBytes]) (by simp))).trans ?_
  refine (serialize_next _ _ _ _ _ 60 (by simp [leBytes]) (by simp)).trans ?_
  refine congrArg (fun l => Res.ok () (Mem.upd M ks l)) ?_
  simp only [List.flatMap_cons, List.flatMap_nil, List.append_assoc, List.nil_append, List.append_nil, List.drop_drop,
    List.drop_replicate]
  simp only [BitVec.add_comm (Vars.x0 x), BitVec.add_comm (Vars.x1 x), BitVec.add_comm (Vars.x2 x),
    BitVec.add_comm (Vars.x3 x), BitVec.add_comm (Vars.x4 x), BitVec.add_comm (Vars.x5 x),
    BitVec.add_comm (Vars.x6 x), BitVec.add_comm (Vars.x7 x), BitVec.add_comm (Vars.x8 x),
    BitVec.add_comm (Vars.x9 x), BitVec.add_comm (Vars.x10 x), BitVec.add_comm (Vars.x11 x),
    BitVec.add_comm (Vars.x12 x), BitVec.add_comm (Vars.x13 x), BitVec.add_comm (Vars.x14 x),
    BitVec.add_comm (Vars.x15 x)]
  simp only [Nat.reduceAdd, Nat.sub_self, List.replicate_zero, List.append_nil]

theorem rfcBlock_length (key : List Byte) (c : U32) (nonce : List Byte) : (rfcBlock key c nonce).length = 64 := by
  have hq : ∀ s i j k l, (rfcQuarter s i j k l).length = s.length := by
    intro s i j k l; simp [rfcQuarter]
  have hi : ∀ s, (rfcInnerBlock s).length = s.length := by
    intro s; simp [rfcInnerBlock, hq]
  have hr : ∀ n s, (Nat.repeat rfcInnerBlock n s).length = s.length := by
    intro n s
    induction n with
    | zero => rfl
    | succ n ih => show (rfcInnerBlock (Nat.repeat rfcInnerBlock n s)).length = _; rw [hi, ih]
  have hf : ∀ l : List U32, (l.flatMap leBytes).length = 4 * l.length := by
    intro l
    induction l with
    | nil => rfl
    | cons a l ih => rw [List.flatMap_cons, List.length_append, ih, List.length_cons]; simp [leBytes]; omega
  unfold rfcBlock
  simp only []
  rw [hf, List.length_zipWith, hr]
  simp [rfcState]

/-- Where the arguments of `Chacha20_crypt` are: the message may be the result itself, behind it, or
elsewhere; key and nonce are not overwritten; `ks` is the local array. -/
structure Args (m : Mem) (ks bp po bk ok bn on br ro len : Nat) : Prop where
  msg : po + len ≤ (m.bytes bp).length
  key : ok + 32 ≤ (m.bytes bk).length
  nonce : on + 12 ≤ (m.bytes bn).length
  res : ro + len ≤ (m.bytes br).length
  msg_dis : bp ≠ br ∨ ro ≤ po ∨ po + len ≤ ro
  key_dis : bk ≠ br ∨ ok + 32 ≤ ro ∨ ro + len ≤ ok
  nonce_dis : bn ≠ br ∨ on + 12 ≤ ro ∨ ro + len ≤ on
  ks_p : bp ≠ ks
  ks_k : bk ≠ ks
  ks_n : bn ≠ ks
  ks_r : br ≠ ks

/-- The first `K` bytes of the output. -/
def out (m : Mem) (bp po bk ok bn on : Nat) (inc : U32) (K : Nat) : List Byte :=
  (List.range K).map (fun i => (m.bytes bp).getD (po + i) 0 ^^^
    keyStream (slice (m.bytes bk) ok 32) inc (slice (m.bytes bn) on 12) i)

theorem out_length (m : Mem) (bp po bk ok bn on : Nat) (inc : U32) (K : Nat) :
    (out m bp po bk ok bn on inc K).length = K := by simp [out]

theorem out_succ (m : Mem) (bp po bk ok bn on : Nat) (inc : U32) (K : Nat) :
    out m bp po bk ok bn on inc (K + 1) = out m bp po bk ok bn on inc K ++ [(m.bytes bp).getD (po + K) 0 ^^^
      keyStream (slice (m.bytes bk) ok 32) inc (slice (m.bytes bn) on 12) K] := by
  simp [out, List.range_succ]

/-- Memory after the first `K` output bytes. -/
def memAt (m : Mem) (bp po bk ok bn on br ro : Nat) (inc : U32) (K : Nat) : Mem :=
  m.upd br (splice (m.bytes br) ro (out m bp po bk ok bn on inc K))

theorem set_splice_snoc {α} (l : List α) (o : Nat) (s : List α) (a : α) (h : o + s.length + 1 ≤ l.length) :
    (splice l o s).set (o + s.length) a = splice l o (s ++ [a]) := by
  apply List.ext_getElem?
  intro k
  rw [List.getElem?_set, getElem?_splice _ _ _ (by omega), getElem?_splice _ _ _ (by simp; omega), splice_length _ _ _ (by omega)]
  simp only [List.length_append, List.length_singleton]
  by_cases h1 : o + s.length = k
  · subst h1
    rw [if_pos rfl, if_pos (by omega), if_neg (by omega), if_pos (by omega)]
    simp
  · rw [if_neg h1]
    by_cases h2 : k < o
    · rw [if_pos h2, if_pos h2]
    · rw [if_neg h2, if_neg h2]
      by_cases h3 : k < o + s.length
      · rw [if_pos h3, if_pos (by omega), List.getElem?_append_left (by omega)]
      · rw [if_neg h3, if_neg (by omega)]

section
variable {m : Mem} {ks bp po bk ok bn on br ro len : Nat} (h : Args m ks bp po bk ok bn on br ro len) (inc : U32)
include h

theorem memAt_length (K : Nat) (hK : K ≤ len) (b : Nat) :
    ((memAt m bp po bk ok bn on br ro inc K).bytes b).length = (m.bytes b).length := by
  have := h.res
  unfold memAt
  rw [Mem.upd_bytes]
  split
  · subst b; rw [splice_length _ _ _ (by rw [out_length]; omega)]
  · rfl

theorem memAt_slice (K : Nat) (hK : K ≤ len) (b o n : Nat) (hd : b ≠ br ∨ o + n ≤ ro ∨ ro + len ≤ o) :
    slice ((memAt m bp po bk ok bn on br ro inc K).bytes b) o n = slice (m.bytes b) o n := by
  have := h.res
  unfold memAt
  rw [Mem.upd_bytes]
  split
  · subst b
    rw [slice_splice_disj _ _ _ _ _ (by rw [out_length]; omega) (by rw [out_length]; omega)]
  · rfl

theorem memAt_msg (K : Nat) (hK : K < len) :
    ((memAt m bp po bk ok bn on br ro inc K).bytes bp)[po + K]? = some ((m.bytes bp).getD (po + K) 0) := by
  have h1 := h.res
  have h2 := h.msg
  have h3 := h.msg_dis
  have h4 : (m.bytes bp)[po + K]? = some ((m.bytes bp).getD (po + K) 0) := by
    simp [show po + K < (m.bytes bp).length by omega]
  rw [← h4]
  unfold memAt
  rw [Mem.upd_bytes]
  split
  · rename_i hb
    subst hb
    rw [getElem?_splice _ _ _ (by rw [out_length]; omega), out_length]
    by_cases h5 : po + K < ro
    · rw [if_pos h5]
    · rw [if_neg h5, if_neg (by omega)]
  · rfl

theorem memAt_bytes_ks (K : Nat) : (memAt m bp po bk ok bn on br ro inc K).bytes ks = m.bytes ks := by
  unfold memAt
  rw [Mem.upd_bytes, if_neg (Ne.symm h.ks_r)]

theorem cryptBlock_ok (j n : Nat) (hn : n ≤ 64) (hj : 64 * j + n ≤ len) (hlen : len < 2 ^ 32) :
    cryptBlock ks (ptr bp po) (ptr bk ok) (ptr bn on) inc (ptr br ro) (BitVec.ofNat 32 j) n
      (memAt m bp po bk ok bn on br ro inc (64 * j)) = .ok () (memAt m bp po bk ok bn on br ro inc (64 * j + n)) := by
  unfold cryptBlock localArray
  have hb := block_ok (ks := ks) (bk := bk) (ok := ok) (bn := bn) (on := on)
    (M := memAt m bp po bk ok bn on br ro inc (64 * j)) (BitVec.ofNat 32 j + inc)
    (by rw [memAt_length h inc _ (by omega)]; exact h.key) (by rw [memAt_length h inc _ (by omega)]; exact h.nonce)
    h.ks_k h.ks_n
  rw [memAt_slice h inc _ (by omega) _ _ _ h.key_dis, memAt_slice h inc _ (by omega) _ _ _ h.nonce_dis] at hb
  generalize hB : rfcBlock (slice (m.bytes bk) ok 32) (BitVec.ofNat 32 j + inc) (slice (m.bytes bn) on 12) = B at hb
  have hBl : B.length = 64 := by rw [← hB, rfcBlock_length]
  rw [C.bind_ok hb]
  obtain ⟨s, m', h1, h2⟩ := forN_inv
    (fun i (_ : Unit) M => M = (memAt m bp po bk ok bn on br ro inc (64 * j + i)).upd ks B) n 0
    (fun i _ => do
      let p ← load ((ptr bp po).addN (BitVec.ofNat 32 j * 64#32 + BitVec.ofNat 32 i).toNat)
      let k ← load ((ptr ks 0).addN i)
      store ((ptr br ro).addN (BitVec.ofNat 32 j * 64#32 + BitVec.ofNat 32 i).toNat) (p ^^^ k)) ()
    ((memAt m bp po bk ok bn on br ro inc (64 * j)).upd ks B) rfl (by
      intro i _ M _ hi hM
      refine ⟨(), _, ?_, rfl⟩
      have hidx : (BitVec.ofNat 32 j * 64#32 + BitVec.ofNat 32 i).toNat = 64 * j + i := by
        simp only [BitVec.toNat_add, BitVec.toNat_mul, BitVec.toNat_ofNat]
        omega
      subst hM
      have l1 : load ((ptr bp po).addN (64 * j + i)) ((memAt m bp po bk ok bn on br ro inc (64 * j + i)).upd ks B) =
          .ok ((m.bytes bp).getD (po + (64 * j + i)) 0) ((memAt m bp po bk ok bn on br ro inc (64 * j + i)).upd ks B) := by
        rw [ptr_addN]
        apply load_ok
        rw [Mem.upd_bytes, if_neg h.ks_p]
        exact memAt_msg h inc _ (by omega)
      have l2 : load ((ptr ks 0).addN i) ((memAt m bp po bk ok bn on br ro inc (64 * j + i)).upd ks B) =
          .ok (B.getD i 0) ((memAt m bp po bk ok bn on br ro inc (64 * j + i)).upd ks B) := by
        rw [ptr_addN]
        apply load_ok
        rw [Mem.upd_bytes, if_pos rfl]
        simp [show i < B.length by omega]
      rw [hidx, C.bind_ok l1, C.bind_ok l2, ptr_addN]
      have hlen' := memAt_length h inc (64 * j + i) (by omega) br
      have hr := h.res
      rw [store_ok (by rw [Mem.upd_bytes, if_neg h.ks_r, hlen']; omega), Mem.upd_bytes, if_neg h.ks_r,
        Mem.upd_comm _ (Ne.symm h.ks_r)]
      refine congrArg (fun M => Res.ok () (Mem.upd M ks B)) ?_
      unfold memAt
      rw [Mem.upd_upd, Mem.upd_bytes, if_pos rfl, show 64 * j + (i + 1) = 64 * j + i + 1 by omega, out_succ]
      refine congrArg (Mem.upd m br) ?_
      have hs := set_splice_snoc (m.bytes br) ro (out m bp po bk ok bn on inc (64 * j + i))
        ((m.bytes bp).getD (po + (64 * j + i)) 0 ^^^ B.getD i 0) (by rw [out_length]; omega)
      rw [out_length] at hs
      rw [hs]
      unfold keyStream
      rw [← hB, show (64 * j + i) / 64 = j by omega, show (64 * j + i) % 64 = i by omega, BitVec.add_comm (BitVec.ofNat 32 j)])
  simp only [Nat.zero_add] at h2
  rw [h1]
  simp only []
  rw [h2, Mem.upd_upd, memAt_bytes_ks h]
  refine congrArg (Res.ok ()) (Mem.upd_of_eq ?_)
  rw [memAt_bytes_ks h]

/-- The whole call. -/
theorem crypt_ok (L : U32) (hL : L.toNat = len) :
    crypt ks (ptr bp po) L (ptr bk ok) (ptr bn on) inc (ptr br ro) m =
      .ok () (memAt m bp po bk ok bn on br ro inc len) := by
  unfold crypt
  have hlt := L.isLt
  have hq : (L / 64#32).toNat = len / 64 := by rw [BitVec.toNat_udiv, hL]; rfl
  have hr : (L % 64#32).toNat = len % 64 := by rw [BitVec.toNat_umod, hL]; rfl
  have h0 : memAt m bp po bk ok bn on br ro inc 0 = m := by
    unfold memAt
    apply Mem.upd_of_eq
    simp [out, splice_nil]
  obtain ⟨s, m', h1, h2⟩ := forN_inv
    (fun j (_ : Unit) M => M = memAt m bp po bk ok bn on br ro inc (64 * j)) (len / 64) 0
    (fun j _ => cryptBlock ks (ptr bp po) (ptr bk ok) (ptr bn on) inc (ptr br ro) (BitVec.ofNat 32 j) 64) () m
    h0.symm (by
      intro j _ M _ hj hM
      subst hM
      exact ⟨(), _, cryptBlock_ok h inc j 64 (by omega) (by omega) (by omega), rfl⟩)
  rw [hq, C.bind_ok h1, h2, Nat.zero_add]
  have hqe : L / 64#32 = BitVec.ofNat 32 (len / 64) := by
    apply BitVec.eq_of_toNat_eq
    rw [hq, BitVec.toNat_ofNat]; omega
  by_cases hz : len % 64 = 0
  · have : ¬ (0#32 ≠ L % 64#32) := by
      rw [ne_eq, Classical.not_not]; apply BitVec.eq_of_toNat_eq; rw [hr, hz]; rfl
    rw [if_neg this, show 64 * (len / 64) = len by omega]
    rfl
  · have : 0#32 ≠ L % 64#32 := by
      intro e; rw [← e] at hr; simp at hr; omega
    rw [if_pos this, hr, hqe, cryptBlock_ok h inc _ _ (by omega) (by omega) (by omega)]
    congr 2
    omega

end

theorem out_eq_spec (m : Mem) (bp po bk ok bn on : Nat) (inc : U32) (len : Nat) (h : po + len ≤ (m.bytes bp).length) :
    out m bp po bk ok bn on inc len =
      chacha20 (slice (m.bytes bk) ok 32) inc (slice (m.bytes bn) on 12) (slice (m.bytes bp) po len) := by
  apply List.ext_getElem?
  intro k
  unfold out chacha20
  rw [List.getElem?_map, List.getElem?_mapIdx, getElem?_slice]
  by_cases hk : k < len
  · rw [List.getElem?_range hk, if_pos hk]
    simp [show po + k < (m.bytes bp).length by omega]
  · rw [if_neg hk]
    simp; omega

/-! ### What a defined call needs -/

theorem bind_eq_ok {α β} {x : C α} {f : α → C β} {m m' : Mem} {b : β} (h : (x >>= f) m = .ok b m') :
    ∃ a m1, x m = .ok a m1 ∧ f a m1 = .ok b m' := by
  rw [C.bind_run] at h
  cases hx : x m with
  | ok a m1 => rw [hx] at h; exact ⟨a, m1, rfl, h⟩
  | ub e => rw [hx] at h; simp at h

theorem forN_ok_each {σ} (J : Mem → Prop) (body : Nat → σ → C σ)
    (hp : ∀ k s m s' m', J m → body k s m = .ok s' m' → J m') :
    ∀ (n i : Nat) (s : σ) (m : Mem) (s' : σ) (m' : Mem), J m → forN n i body s m = .ok s' m' →
      J m' ∧ ∀ k, i ≤ k → k < i + n → ∃ s1 m1 s2 m2, J m1 ∧ body k s1 m1 = .ok s2 m2 := by
  intro n
  induction n with
  | zero =>
    intro i s m s' m' hJ h
    rw [forN_zero] at h
    cases h
    exact ⟨hJ, fun k h1 h2 => by omega⟩
  | succ n ih =>
    intro i s m s' m' hJ h
    obtain ⟨s1, m1, h1, h2⟩ := bind_eq_ok (x := body i s) (f := fun s => forN n (i + 1) body s) h
    obtain ⟨h3, h4⟩ := ih (i + 1) s1 m1 s' m' (hp i s m s1 m1 hJ h1) h2
    refine ⟨h3, fun k hk1 hk2 => ?_⟩
    by_cases hk : k = i
    · subst hk; exact ⟨s, m, s1, m1, hJ, h1⟩
    · exact h4 k (by omega) (by omega)

theorem deserialize_inv {b o : Nat} {m m' : Mem} {v : U32} (h : deserialize32LE (ptr b o) m = .ok v m') :
    m' = m ∧ o + 4 ≤ (m.bytes b).length := by
  by_cases hl : o + 4 ≤ (m.bytes b).length
  · obtain ⟨v', h1, -⟩ := (deserialize32LE_eq b o m).1 hl
    rw [h1] at h
    cases h
    exact ⟨rfl, hl⟩
  · rw [(deserialize32LE_eq b o m).2 (by omega)] at h
    simp at h

theorem readWords_inv {bk ok bn on : Nat} {m m' : Mem} {counter : U32} {y : Vars}
    (h : readWords (ptr bk ok) counter (ptr bn on) m = .ok y m') :
    m' = m ∧ ok + 32 ≤ (m.bytes bk).length ∧ on + 12 ≤ (m.bytes bn).length := by
  unfold readWords at h
  rw [ptr_addN, ptr_addN, ptr_addN, ptr_addN, ptr_addN, ptr_addN, ptr_addN, ptr_addN, ptr_addN, ptr_addN, ptr_addN] at h
  obtain ⟨_, m1, a1, g1⟩ := bind_eq_ok h
  obtain ⟨rfl, -⟩ := deserialize_inv a1
  obtain ⟨_, m2, a2, g2⟩ := bind_eq_ok g1
  obtain ⟨rfl, -⟩ := deserialize_inv a2
  obtain ⟨_, m3, a3, g3⟩ := bind_eq_ok g2
  obtain ⟨rfl, -⟩ := deserialize_inv a3
  obtain ⟨_, m4, a4, g4⟩ := bind_eq_ok g3
  obtain ⟨rfl, -⟩ := deserialize_inv a4
  obtain ⟨_, m5, a5, g5⟩ := bind_eq_ok g4
  obtain ⟨rfl, -⟩ := deserialize_inv a5
  obtain ⟨_, m6, a6, g6⟩ := bind_eq_ok g5
  obtain ⟨rfl, -⟩ := deserialize_inv a6
  obtain ⟨_, m7, a7, g7⟩ := bind_eq_ok g6
  obtain ⟨rfl, -⟩ := deserialize_inv a7
  obtain ⟨_, m8, a8, g8⟩ := bind_eq_ok g7
  obtain ⟨rfl, h1⟩ := deserialize_inv a8
  obtain ⟨_, m9, a9, g9⟩ := bind_eq_ok g8
  obtain ⟨rfl, -⟩ := deserialize_inv a9
  obtain ⟨_, m10, a10, g10⟩ := bind_eq_ok g9
  obtain ⟨rfl, -⟩ := deserialize_inv a10
  obtain ⟨_, m11, a11, g11⟩ := bind_eq_ok g10
  obtain ⟨rfl, h2⟩ := deserialize_inv a11
  cases g11
  exact ⟨rfl, by omega, by omega⟩

/-- Same object lengths. -/
def SameLen (m m' : Mem) : Prop := ∀ b, (m'.bytes b).length = (m.bytes b).length

theorem load_inv {b o : Nat} {m m' : Mem} {v : Byte} (h : load (ptr b o) m = .ok v m') :
    m' = m ∧ o < (m.bytes b).length := by
  by_cases hl : o < (m.bytes b).length
  · rw [load_lt hl] at h; cases h; exact ⟨rfl, hl⟩
  · rw [load_oob (by omega)] at h; simp at h

theorem store_inv {b o : Nat} {m m' : Mem} {v : Byte} {u : Unit} (h : store (ptr b o) v m = .ok u m') :
    SameLen m m' ∧ o < (m.bytes b).length := by
  by_cases hl : o < (m.bytes b).length
  · rw [store_ok hl] at h; cases h
    refine ⟨fun b' => ?_, hl⟩
    rw [Mem.upd_bytes]
    split
    · subst b'; simp
    · rfl
  · rw [store_oob (by omega)] at h; simp at h

theorem cryptBlock_inv {ks bp po bk ok bn on br ro : Nat} {inc j : U32} {n : Nat} {m m' : Mem} {u : Unit}
    (hk : bk ≠ ks) (hn : bn ≠ ks) (hp : bp ≠ ks) (hr : br ≠ ks)
    (h : cryptBlock ks (ptr bp po) (ptr bk ok) (ptr bn on) inc (ptr br ro) j n m = .ok u m') :
    SameLen m m' ∧ ok + 32 ≤ (m.bytes bk).length ∧ on + 12 ≤ (m.bytes bn).length ∧
      ∀ i, i < n → po + (j * 64#32 + BitVec.ofNat 32 i).toNat < (m.bytes bp).length ∧
        ro + (j * 64#32 + BitVec.ofNat 32 i).toNat < (m.bytes br).length := by
  unfold cryptBlock localArray at h
  cases hbody : (do
    block (ptr bk ok) (j + inc) (ptr bn on) (ptr ks 0)
    forN n 0 (fun i _ => do
      let p ← load ((ptr bp po).addN (j * 64#32 + BitVec.ofNat 32 i).toNat)
      let k ← load ((ptr ks 0).addN i)
      store ((ptr br ro).addN (j * 64#32 + BitVec.ofNat 32 i).toNat) (p ^^^ k)) () : C Unit)
      (m.upd ks (List.replicate 64 0#8)) with
  | ub e => rw [hbody] at h; simp at h
  | ok a m1 =>
    rw [hbody] at h
    simp only [Res.ok.injEq] at h
    obtain ⟨-, rfl⟩ := h
    obtain ⟨_, m2, h1, h2⟩ := bind_eq_ok hbody
    have hfit : ok + 32 ≤ (m.bytes bk).length ∧ on + 12 ≤ (m.bytes bn).length := by
      have h1' := h1
      unfold block at h1'
      obtain ⟨y, m3, h3, -⟩ := bind_eq_ok h1'
      have := readWords_inv h3
      rw [Mem.upd_bytes, Mem.upd_bytes, if_neg hk, if_neg hn] at this
      exact this.2
    rw [block_ok _ hfit.1 hfit.2 hk hn] at h1
    simp only [Res.ok.injEq] at h1
    obtain ⟨-, rfl⟩ := h1
    have key := forN_ok_each
      (fun M => ∀ b, b ≠ ks → (M.bytes b).length = (m.bytes b).length) _ (by
        intro k s M s' M' hM hb
        obtain ⟨_, M1, a1, hb1⟩ := bind_eq_ok hb
        rw [ptr_addN] at a1
        obtain ⟨rfl, -⟩ := load_inv a1
        obtain ⟨_, M2, a2, hb2⟩ := bind_eq_ok hb1
        rw [ptr_addN] at a2
        obtain ⟨rfl, -⟩ := load_inv a2
        rw [ptr_addN] at hb2
        obtain ⟨a3, -⟩ := store_inv hb2
        intro b hbk
        rw [a3 b, hM b hbk]) n 0 _ _ _ _ (by intro b hb; rw [Mem.upd_bytes, if_neg hb]) h2
    refine ⟨?_, hfit.1, hfit.2, ?_⟩
    · intro b
      rw [Mem.upd_bytes]
      split
      · subst b; rfl
      · rename_i hb; exact key.1 b hb
    · intro i hi
      obtain ⟨s1, M, s2, M', hM, hb⟩ := key.2 i (by omega) (by omega)
      obtain ⟨_, M1, a1, hb1⟩ := bind_eq_ok hb
      rw [ptr_addN] at a1
      obtain ⟨rfl, c1⟩ := load_inv a1
      obtain ⟨_, M2, a2, hb2⟩ := bind_eq_ok hb1
      rw [ptr_addN] at a2
      obtain ⟨rfl, -⟩ := load_inv a2
      rw [ptr_addN] at hb2
      obtain ⟨-, c3⟩ := store_inv hb2
      rw [hM _ hp] at c1
      rw [hM _ hr] at c3
      exact ⟨c1, c3⟩

theorem crypt_inv {ks bp po bk ok bn on br ro : Nat} {inc L : U32} {m m' : Mem} {u : Unit}
    (hk : bk ≠ ks) (hn : bn ≠ ks) (hp : bp ≠ ks) (hr : br ≠ ks) (hL : 0 < L.toNat)
    (h : crypt ks (ptr bp po) L (ptr bk ok) (ptr bn on) inc (ptr br ro) m = .ok u m') :
    ok + 32 ≤ (m.bytes bk).length ∧ on + 12 ≤ (m.bytes bn).length ∧
      po + L.toNat ≤ (m.bytes bp).length ∧ ro + L.toNat ≤ (m.bytes br).length := by
  have hlt := L.isLt
  have hqq : (L / 64#32).toNat = L.toNat / 64 := by rw [BitVec.toNat_udiv]; rfl
  have hrr : (L % 64#32).toNat = L.toNat % 64 := by rw [BitVec.toNat_umod]; rfl
  unfold crypt at h
  obtain ⟨_, m1, h1, h2⟩ := bind_eq_ok h
  rw [hqq] at h1
  have key := forN_ok_each (SameLen m) _ (by
    intro k s M s' M' hM hb
    obtain ⟨a, -⟩ := cryptBlock_inv hk hn hp hr hb
    intro b; rw [a b, hM b]) (L.toNat / 64) 0 _ _ _ _ (fun b => rfl) h1
  by_cases hz : L.toNat % 64 = 0
  · obtain ⟨_, M, _, M', hM, hb⟩ := key.2 (L.toNat / 64 - 1) (by omega) (by omega)
    obtain ⟨-, a1, a2, a3⟩ := cryptBlock_inv hk hn hp hr hb
    obtain ⟨a4, a5⟩ := a3 63 (by omega)
    have hidx : (BitVec.ofNat 32 (L.toNat / 64 - 1) * 64#32 + BitVec.ofNat 32 63).toNat = L.toNat - 1 := by
      simp only [BitVec.toNat_add, BitVec.toNat_mul, BitVec.toNat_ofNat]
      omega
    rw [hidx] at a4 a5
    rw [hM] at a1 a2 a4 a5
    exact ⟨a1, a2, by omega, by omega⟩
  · have : 0#32 ≠ L % 64#32 := by
      intro e; rw [← e] at hrr; simp at hrr; omega
    rw [if_pos this] at h2
    obtain ⟨-, a1, a2, a3⟩ := cryptBlock_inv hk hn hp hr h2
    obtain ⟨a4, a5⟩ := a3 (L.toNat % 64 - 1) (by rw [hrr]; omega)
    have hidx : (L / 64#32 * 64#32 + BitVec.ofNat 32 (L.toNat % 64 - 1)).toNat = L.toNat - 1 := by
      simp only [BitVec.toNat_add, BitVec.toNat_mul, BitVec.toNat_ofNat, hqq]
      omega
    rw [hidx] at a4 a5
    have hM := key.1
    rw [hM] at a1 a2 a4 a5
    exact ⟨a1, a2, by omega, by omega⟩

end IMU.ChaCha
