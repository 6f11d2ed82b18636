import Verif.Proofs.Cipher
import Verif.Proofs.Midway

/-! # The Vernam cipher with a key anywhere -/

namespace IMU.Vernam
open Spec Utils
open IMU.Json (oc_mono oc_trans oc_refl oc_length)

theorem loop_any {bm om bk ok n : Nat} {m : Mem} (f : Byte → Byte → Byte) (hm : om + n ≤ (m.bytes bm).length)
    (hk : ok + n ≤ (m.bytes bk).length) :
    ∃ M, forN n 0 (fun i _ => do
        let c ← load ((ptr bm om).addN i)
        if isAlpha c then
          let k ← load ((ptr bk ok).addN i)
          store ((ptr bm om).addN i) (f c k)
        else pure ()) () m = .ok () M ∧ OnlyChanged m M bm om n ∧
      ∀ i < n, (M.bytes bm).getD (om + i) 0 = if Letter ((m.bytes bm).getD (om + i) 0) then
        f ((m.bytes bm).getD (om + i) 0) (midByte m M bm om i bk (ok + i)) else (m.bytes bm).getD (om + i) 0 := by
  obtain ⟨_, M, h1, h2, h3⟩ := forN_inv
    (fun K (_ : Unit) M => OnlyChanged m M bm om K ∧
      ∀ i < K, (M.bytes bm).getD (om + i) 0 = if Letter ((m.bytes bm).getD (om + i) 0) then
        f ((m.bytes bm).getD (om + i) 0) (midByte m M bm om i bk (ok + i)) else (m.bytes bm).getD (om + i) 0) n 0
    (fun i _ => do
        let c ← load ((ptr bm om).addN i)
        if isAlpha c then
          let k ← load ((ptr bk ok).addN i)
          store ((ptr bm om).addN i) (f c k)
        else pure ()) () m ⟨oc_refl .., fun i hi => by omega⟩ (by
      rintro K _ M _ hK ⟨hO, hV⟩
      have hl := oc_length hO
      have e1 : (M.bytes bm).getD (om + K) 0 = (m.bytes bm).getD (om + K) 0 := getD_congr (hO.2.2.2 _ (by omega))
      have l1 : load ((ptr bm om).addN K) M = .ok ((m.bytes bm).getD (om + K) 0) M := by
        rw [ptr_addN]
        apply load_ok
        rw [← e1, List.getD_eq_getElem?_getD, List.getElem?_eq_getElem (by rw [hl]; omega)]; rfl
      have l2 : load ((ptr bk ok).addN K) M = .ok (midByte m M bm om K bk (ok + K)) M := by
        rw [ptr_addN]
        apply load_ok
        rw [mid_now hO, List.getD_eq_getElem?_getD, List.getElem?_eq_getElem (by rw [hl]; omega)]; rfl
      rw [C.bind_ok l1]
      generalize hc : (m.bytes bm).getD (om + K) 0 = c at *
      by_cases hL : Letter c
      · rw [if_pos ((isAlpha_iff c).mpr hL), C.bind_ok l2, ptr_addN, store_ok (by rw [hl]; omega)]
        generalize hv : f c (midByte m M bm om K bk (ok + K)) = v
        have hget : ∀ x, x ≠ om + K → ((M.upd bm ((M.bytes bm).set (om + K) v)).bytes bm)[x]? = (M.bytes bm)[x]? := by
          intro x hx
          rw [Mem.upd_bytes, if_pos rfl, List.getElem?_set_ne (Ne.symm hx)]
        have hoc : OnlyChanged M (M.upd bm ((M.bytes bm).set (om + K) v)) bm (om + K) 1 :=
          ⟨rfl, fun x hx => by rw [Mem.upd_bytes, if_neg hx], by simp, fun x hx => hget x (by omega)⟩
        refine ⟨(), _, rfl, oc_trans (oc_mono hO (by omega) (by omega)) (oc_mono hoc (by omega) (by omega)), ?_⟩
        intro i hi
        rw [mid_later (M := M) (fun x _ hx => hget x (by omega))]
        by_cases hiK : i < K
        · rw [getD_congr (hget _ (by omega))]; exact hV i hiK
        · have : i = K := by omega
          subst this
          rw [hc, if_pos hL, hv, Mem.upd_bytes, if_pos rfl, List.getD_eq_getElem?_getD,
            List.getElem?_set_self (by rw [hl]; omega)]
          rfl
      · rw [if_neg (by rw [isAlpha_iff]; exact hL)]
        refine ⟨(), M, rfl, oc_mono hO (by omega) (by omega), ?_⟩
        intro i hi
        by_cases hiK : i < K
        · exact hV i hiK
        · have : i = K := by omega
          subst this
          rw [hc, if_neg hL, e1])
  rw [Nat.zero_add] at h2 h3
  exact ⟨M, h1, h2, h3⟩

section
variable {bm om bk ok : Nat} {m : Mem} {s : List Byte} {len : U32} (hs : CStr (m.bytes bm) om s)
  (hk : ok + s.length ≤ (m.bytes bk).length) (hlen : len.toNat = s.length) (hsm : s.length < 2 ^ 31)
include hs hk hlen hsm

theorem encrypt_any : ∃ M, encrypt (ptr bm om) (ptr bk ok) len m = .ok true M ∧ OnlyChanged m M bm om s.length ∧
    ∀ i < s.length, (M.bytes bm).getD (om + i) 0 = if Letter (s.getD i 0) then
      encryptChar (s.getD i 0) (midByte m M bm om i bk (ok + i)) else s.getD i 0 := by
  have hlt := hs.lt
  obtain ⟨M, h1, h2, h3⟩ := loop_any (bm := bm) (om := om) (bk := bk) (ok := ok) encryptChar
    (show om + s.length ≤ (m.bytes bm).length by omega) hk
  refine ⟨M, ?_, h2, ?_⟩
  · unfold encrypt
    rw [C.bind_ok (strlen_ok hs), if_pos (by apply BitVec.eq_of_toNat_eq; rw [BitVec.toNat_ofNat]; omega)]
    have : len.toInt.toNat = s.length := by
      rw [BitVec.toInt_eq_toNat_cond, if_pos (by omega)]; omega
    rw [this, C.bind_ok h1]
    rfl
  · intro i hi
    have e : (m.bytes bm).getD (om + i) 0 = s.getD i 0 := by
      rw [List.getD_eq_getElem?_getD, List.getD_eq_getElem?_getD, hs.get hi]
    have := h3 i hi
    rwa [e] at this

theorem decrypt_any (cs : Bool) : ∃ M, decrypt cs (ptr bm om) (ptr bk ok) len m = .ok true M ∧
    OnlyChanged m M bm om s.length ∧ ∀ i < s.length, (M.bytes bm).getD (om + i) 0 = if Letter (s.getD i 0) then
      decryptChar cs (s.getD i 0) (midByte m M bm om i bk (ok + i)) else s.getD i 0 := by
  have hlt := hs.lt
  obtain ⟨M, h1, h2, h3⟩ := loop_any (bm := bm) (om := om) (bk := bk) (ok := ok) (decryptChar cs)
    (show om + s.length ≤ (m.bytes bm).length by omega) hk
  refine ⟨M, ?_, h2, ?_⟩
  · unfold decrypt
    rw [C.bind_ok (strlen_ok hs), if_pos (by apply BitVec.eq_of_toNat_eq; rw [BitVec.toNat_ofNat]; omega)]
    have : len.toInt.toNat = s.length := by
      rw [BitVec.toInt_eq_toNat_cond, if_pos (by omega)]; omega
    rw [this, C.bind_ok h1]
    rfl
  · intro i hi
    have e : (m.bytes bm).getD (om + i) 0 = s.getD i 0 := by
      rw [List.getD_eq_getElem?_getD, List.getD_eq_getElem?_getD, hs.get hi]
    have := h3 i hi
    rwa [e] at this

end

/-- A string after a call that changed only its characters. -/
theorem cstr_after {b o : Nat} {m m' : Mem} {s s' : List Byte} (hs : CStr (m.bytes b) o s)
    (h : OnlyChanged m m' b o s.length) (hsl : slice (m'.bytes b) o s.length = s') (h0 : 0#8 ∉ s') :
    CStr (m'.bytes b) o s' := by
  have hlt := hs.lt
  have hl : s'.length = s.length := by
    rw [← hsl, slice_length _ _ _ (by rw [oc_length h]; omega)]
  have hm : m' = m.upd b (splice (m.bytes b) o s') := by
    have e : (m'.bytes b) = splice (m.bytes b) o s' := by
      apply List.ext_getElem?; intro i
      rw [getElem?_splice _ _ _ (by omega)]
      by_cases h1 : i < o
      · rw [if_pos h1]; exact h.2.2.2 i (by omega)
      · rw [if_neg h1]
        by_cases h2 : i < o + s'.length
        · rw [if_pos h2, ← hsl, getElem?_slice, if_pos (by omega), show o + (i - o) = i by omega]
        · rw [if_neg h2]; exact h.2.2.2 i (by omega)
    apply Mem.ext'
    · intro x
      by_cases hx : x = b
      · subst hx; rw [Mem.upd_bytes, if_pos rfl, e]
      · rw [Mem.upd_bytes, if_neg hx, h.2.1 x hx]
    · intro x; rw [h.1]; rfl
  rw [hm]
  exact (cstr_map hs hl h0).1

end IMU.Vernam
