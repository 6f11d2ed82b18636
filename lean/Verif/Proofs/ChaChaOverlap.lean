import Verif.Proofs.ChaCha20
import Verif.Proofs.Midway

/-! # ChaCha20 with overlapping arguments -/

namespace IMU.ChaCha
open Spec Utils
open IMU.Json (oc_mono oc_trans oc_refl oc_length)

/-- What has been established when `K` bytes of the result are written. -/
def Sofar (m : Mem) (bp po bk ok bn on br ro : Nat) (inc : U32) (K : Nat) (M : Mem) : Prop :=
  OnlyChanged m M br ro K ∧ ∀ i < K, (M.bytes br).getD (ro + i) 0 = midByte m M br ro i bp (po + i) ^^^
    keyStream (midRange m M br ro (64 * (i / 64)) bk ok 32) inc (midRange m M br ro (64 * (i / 64)) bn on 12) i

section
variable {m : Mem} {ks bp po bk ok bn on br ro len : Nat} (inc : U32)
  (hp : po + len ≤ (m.bytes bp).length) (hk : ok + 32 ≤ (m.bytes bk).length) (hn : on + 12 ≤ (m.bytes bn).length)
  (hr : ro + len ≤ (m.bytes br).length) (kp : bp ≠ ks) (kk : bk ≠ ks) (kn : bn ≠ ks) (kr : br ≠ ks)
include hp hk hn hr kp kk kn kr

theorem cryptBlock_any (j n : Nat) (hn64 : n ≤ 64) (hj : 64 * j + n ≤ len) (hlen : len < 2 ^ 32) {M0 : Mem}
    (h0 : Sofar m bp po bk ok bn on br ro inc (64 * j) M0) :
    ∃ M, cryptBlock ks (ptr bp po) (ptr bk ok) (ptr bn on) inc (ptr br ro) (BitVec.ofNat 32 j) n M0 = .ok () M ∧
      Sofar m bp po bk ok bn on br ro inc (64 * j + n) M := by
  have hl0 := oc_length h0.1
  have hb := block_ok (ks := ks) (bk := bk) (ok := ok) (bn := bn) (on := on) (M := M0) (BitVec.ofNat 32 j + inc)
    (by rw [hl0]; exact hk) (by rw [hl0]; exact hn) kk kn
  rw [← midRange_now h0.1 hk, ← midRange_now h0.1 hn] at hb
  generalize hB : rfcBlock (midRange m M0 br ro (64 * j) bk ok 32) (BitVec.ofNat 32 j + inc)
    (midRange m M0 br ro (64 * j) bn on 12) = B at hb
  have hBl : B.length = 64 := by rw [← hB, rfcBlock_length]
  obtain ⟨s, m', h1, M, hM, hM1, hM2⟩ := forN_inv
    (fun i (_ : Unit) X => ∃ M, X = M.upd ks B ∧ Sofar m bp po bk ok bn on br ro inc (64 * j + i) M ∧
      OnlyChanged M0 M br (ro + 64 * j) i) n 0
    (fun i _ => do
      let p ← load ((ptr bp po).addN (BitVec.ofNat 32 j * 64#32 + BitVec.ofNat 32 i).toNat)
      let k ← load ((ptr ks 0).addN i)
      store ((ptr br ro).addN (BitVec.ofNat 32 j * 64#32 + BitVec.ofNat 32 i).toNat) (p ^^^ k)) ()
    (M0.upd ks B) ⟨M0, rfl, h0, oc_refl ..⟩ (by
      rintro i _ _ _ hi ⟨M, rfl, hS, hO⟩
      have hlM := oc_length hS.1
      have hidx : (BitVec.ofNat 32 j * 64#32 + BitVec.ofNat 32 i).toNat = 64 * j + i := by
        simp only [BitVec.toNat_add, BitVec.toNat_mul, BitVec.toNat_ofNat]
        omega
      have l1 : load ((ptr bp po).addN (64 * j + i)) (M.upd ks B) =
          .ok ((M.bytes bp).getD (po + (64 * j + i)) 0) (M.upd ks B) := by
        rw [ptr_addN]
        apply load_ok
        rw [Mem.upd_bytes, if_neg kp, List.getD_eq_getElem?_getD,
          List.getElem?_eq_getElem (show po + (64 * j + i) < (M.bytes bp).length by rw [hlM]; omega)]
        rfl
      have l2 : load ((ptr ks 0).addN i) (M.upd ks B) = .ok (B.getD i 0) (M.upd ks B) := by
        rw [ptr_addN]
        apply load_ok
        rw [Mem.upd_bytes, if_pos rfl]
        simp [show i < B.length by omega]
      have hbr : (M.upd ks B).bytes br = M.bytes br := by rw [Mem.upd_bytes, if_neg kr]
      generalize hv : (M.bytes bp).getD (po + (64 * j + i)) 0 ^^^ B.getD i 0 = v at *
      have hst : store ((ptr br ro).addN (64 * j + i)) v (M.upd ks B) =
          .ok () ((M.upd br ((M.bytes br).set (ro + (64 * j + i)) v)).upd ks B) := by
        rw [ptr_addN, store_ok (by rw [hbr, hlM]; omega), hbr, Mem.upd_comm _ (Ne.symm kr)]
      have hget : ∀ x, x ≠ ro + (64 * j + i) →
          ((M.upd br ((M.bytes br).set (ro + (64 * j + i)) v)).bytes br)[x]? = (M.bytes br)[x]? := by
        intro x hx
        rw [Mem.upd_bytes, if_pos rfl, List.getElem?_set_ne (Ne.symm hx)]
      have hoc : OnlyChanged M (M.upd br ((M.bytes br).set (ro + (64 * j + i)) v)) br (ro + (64 * j + i)) 1 := by
        refine ⟨rfl, fun x hx => by rw [Mem.upd_bytes, if_neg hx], by simp, fun x hx => hget x (by omega)⟩
      refine ⟨(), _, ?_, M.upd br ((M.bytes br).set (ro + (64 * j + i)) v), rfl, ⟨?_, ?_⟩, ?_⟩
      · rw [hidx, C.bind_ok l1, C.bind_ok l2, hv, hst]
      · exact oc_trans (oc_mono hS.1 (by omega) (by omega)) (oc_mono hoc (by omega) (by omega))
      · intro k hk'
        rw [mid_later (M := M) (fun x _ hx => hget x (by omega)),
          midRange_later (M := M) (fun x _ hx => hget x (by omega)),
          midRange_later (M := M) (fun x _ hx => hget x (by omega))]
        by_cases hkk : k < 64 * j + i
        · rw [getD_congr (hget _ (by omega))]
          exact hS.2 k hkk
        · have hke : k = 64 * j + i := by omega
          subst hke
          have e1 : ((M.upd br ((M.bytes br).set (ro + (64 * j + i)) v)).bytes br).getD (ro + (64 * j + i)) 0 = v := by
            rw [Mem.upd_bytes, if_pos rfl, List.getD_eq_getElem?_getD,
              List.getElem?_set_self (by rw [hlM]; omega)]; rfl
          have hear : ∀ x, ro ≤ x → x < ro + 64 * j → (M.bytes br)[x]? = (M0.bytes br)[x]? :=
            fun x _ hx => hO.2.2.2 x (by omega)
          rw [e1, ← hv, mid_now hS.1, show (64 * j + i) / 64 = j by omega,
            midRange_later (M := M0) hear, midRange_later (M := M0) hear]
          unfold keyStream
          rw [← hB, show (64 * j + i) / 64 = j by omega, show (64 * j + i) % 64 = i by omega,
            BitVec.add_comm (BitVec.ofNat 32 j)]
      · exact oc_trans (oc_mono hO (by omega) (by omega)) (oc_mono hoc (by omega) (by omega)))
  subst hM
  refine ⟨M, ?_, by rw [Nat.zero_add] at hM1; exact hM1⟩
  have hks : M0.bytes ks = M.bytes ks := by
    rw [h0.1.2.1 ks (Ne.symm kr), hM1.1.2.1 ks (Ne.symm kr)]
  unfold cryptBlock localArray
  rw [C.bind_ok hb, h1]
  simp only [Mem.upd_upd]
  exact congrArg (Res.ok ()) (Mem.upd_of_eq hks)

/-- The whole call, whatever overlaps. -/
theorem crypt_any (L : U32) (hL : L.toNat = len) :
    ∃ M, crypt ks (ptr bp po) L (ptr bk ok) (ptr bn on) inc (ptr br ro) m = .ok () M ∧
      Sofar m bp po bk ok bn on br ro inc len M := by
  have hlt := L.isLt
  have hq : (L / 64#32).toNat = len / 64 := by rw [BitVec.toNat_udiv, hL]; rfl
  have hrm : (L % 64#32).toNat = len % 64 := by rw [BitVec.toNat_umod, hL]; rfl
  obtain ⟨s, M1, h1, h2⟩ := forN_inv
    (fun j (_ : Unit) M => Sofar m bp po bk ok bn on br ro inc (64 * j) M) (len / 64) 0
    (fun j _ => cryptBlock ks (ptr bp po) (ptr bk ok) (ptr bn on) inc (ptr br ro) (BitVec.ofNat 32 j) 64) () m
    ⟨oc_refl .., fun i hi => by omega⟩ (by
      intro j _ M _ hj hM
      obtain ⟨M', g1, g2⟩ := cryptBlock_any inc hp hk hn hr kp kk kn kr j 64 (by omega) (by omega) (by omega) hM
      exact ⟨(), M', g1, g2⟩)
  rw [Nat.zero_add] at h2
  unfold crypt
  rw [hq, C.bind_ok h1]
  have hqe : L / 64#32 = BitVec.ofNat 32 (len / 64) := by
    apply BitVec.eq_of_toNat_eq
    rw [hq, BitVec.toNat_ofNat]; omega
  by_cases hz : len % 64 = 0
  · have : ¬ (0#32 ≠ L % 64#32) := by
      rw [ne_eq, Classical.not_not]; apply BitVec.eq_of_toNat_eq; rw [hrm, hz]; rfl
    rw [if_neg this]
    rw [show 64 * (len / 64) = len by omega] at h2
    exact ⟨M1, rfl, h2⟩
  · have : 0#32 ≠ L % 64#32 := by
      intro e; rw [← e] at hrm; simp at hrm; omega
    rw [if_pos this, hrm, hqe]
    obtain ⟨M', g1, g2⟩ := cryptBlock_any inc hp hk hn hr kp kk kn kr (len / 64) (len % 64) (by omega) (by omega)
      (by omega) h2
    rw [show 64 * (len / 64) + len % 64 = len by omega] at g2
    exact ⟨M', g1, g2⟩

end
end IMU.ChaCha
