import Verif.Model.LeakBase64
import Verif.Proofs.Base64Decode
import Verif.Proofs.LeakTell
import Verif.Proofs.LeakVernam
import Verif.Spec.LeakBase64

/-!
# What `Base64_decode` shows
-/

namespace IMU.Base64
open Spec.Leak T
open Vernam (loadT_exact storeT_exact branch_exact load_some)

theorem erase_index (p : Ptr) : erase (indexT p) = index p := by
  unfold indexT index
  simp only [erase_bind, erase_load, erase_constAt]

theorem erase_decGroup (inp out : Ptr) (i j : Nat) : erase (decGroupT inp out i j) = decGroup inp out i j := by
  unfold decGroupT decGroup
  simp only [erase_bind, erase_index, erase_store, erase_pure]

theorem erase_decLast (inp : Ptr) (n len ol : SizeT) (out : Ptr) (mx : SizeT) :
    erase (decLastT inp n len ol out mx) = decLast inp n len ol out mx := by
  unfold decLastT decLast
  simp only [erase_branch, pure_bind_C, erase_ite, erase_bind, erase_index, erase_load, erase_store, erase_pure, decide_eq_true_eq]

theorem erase_padBool (inp : Ptr) (n : SizeT) : erase (padBoolT inp n) = padBool inp n := by
  unfold padBoolT padBool
  simp only [erase_branch, pure_bind_C, erase_ite, erase_bind, erase_load, erase_pure, decide_eq_true_eq]

theorem erase_decode (inp : Ptr) (n : SizeT) (out : Ptr) (mx : SizeT) : erase (decodeT inp n out mx) = decode inp n out mx := by
  unfold decodeT decode
  simp only [erase_branch, pure_bind_C, erase_ite, erase_bind, erase_padBool, erase_decLast, erase_forNT, erase_decGroup, erase_pure]
  congr 1
  funext pb
  by_cases h1 : mx < (((n + 3#64) / 4#64) - (if pb = true then 1#64 else 0#64)) * 4#64 / 4#64 * 3#64 + (if pb = true then 1#64 else 0#64) <;>
    by_cases h2 : (((n + 3#64) / 4#64) - (if pb = true then 1#64 else 0#64)) * 4#64 = 0#64 <;>
    simp only [h1, h2, decide_true, decide_false, Bool.or_true, Bool.or_false, Bool.or_self, Bool.not_true, Bool.not_false, Bool.false_eq_true,
      if_true, if_false, or_true, true_or, or_self, or_false, false_or]

theorem indexT_exact {b o : Nat} {m : Mem} {v : U32} {t : List Leak} {m' : Mem} {c : Byte} (h : indexT (ptr b o) m = .ok (v, t) m')
    (hc : (m.bytes b)[o]? = some c) : m' = m ∧ t = charShown (ptr b o) c := by
  obtain ⟨a, u1, m1, u2, h1, h2, rfl⟩ := bind_cases h
  obtain ⟨h3, rfl, rfl⟩ := loadT_exact h1
  have := load_some h3
  rw [hc] at this
  cases this
  obtain ⟨_, w1, m2, w2, h4, h5, rfl⟩ := bind_cases h2
  cases h4
  obtain ⟨h6, rfl⟩ := quiet_cases h5
  cases hl : base64_index[c.toNat]? with
  | none => rw [hl] at h6; cases h6
  | some w => rw [hl] at h6; cases h6; exact ⟨rfl, rfl⟩

theorem storeT_reads {b o : Nat} {w : Byte} {m : Mem} {v : Unit} {t : List Leak} {m' : Mem} (h : storeT (ptr b o) w m = .ok (v, t) m') :
    store (ptr b o) w m = .ok () m' ∧ t = [.write (ptr b o)] :=
  ⟨(storeT_cases h).1, (storeT_exact h).2⟩

theorem decGroupT_exact {bi oi bo oo r : Nat} {a b c d : Byte} {g : List Byte} {m m' : Mem} {j : Nat} {t : List Leak}
    (hr : Reads m bi (oi + 4 * r) (a :: b :: c :: d :: g))
    (hd : bi ≠ bo ∨ oi + 4 * r + (a :: b :: c :: d :: g).length ≤ oo ∨ oo ≤ oi)
    (h : decGroupT (ptr bi oi) (ptr bo oo) (4 * r) (3 * r) m = .ok (j, t) m') :
    j = 3 * (r + 1) ∧ Reads m' bi (oi + 4 * (r + 1)) g ∧
      t = charShown ((ptr bi oi).addN (4 * r)) a ++ charShown ((ptr bi oi).addN (4 * r + 1)) b ++ charShown ((ptr bi oi).addN (4 * r + 2)) c ++
      charShown ((ptr bi oi).addN (4 * r + 3)) d ++
        [.write ((ptr bo oo).addN (3 * r)), .write ((ptr bo oo).addN (3 * r + 1)), .write ((ptr bo oo).addN (3 * r + 2))] := by
  unfold decGroupT at h
  simp only [ptr_addN] at h ⊢
  simp only [List.length_cons] at hd
  obtain ⟨_, t1, m1, r1, h1, x1, rfl⟩ := bind_cases h
  obtain ⟨rfl, rfl⟩ := indexT_exact h1 (hr 0 (by simp))
  obtain ⟨_, t2, m2, r2, h2, x2, rfl⟩ := bind_cases x1
  obtain ⟨rfl, rfl⟩ := indexT_exact h2 (by rw [← Nat.add_assoc]; exact hr 1 (by simp))
  obtain ⟨_, t3, m3, r3, h3, x3, rfl⟩ := bind_cases x2
  obtain ⟨rfl, rfl⟩ := indexT_exact h3 (by rw [← Nat.add_assoc]; exact hr 2 (by simp))
  obtain ⟨_, t4, m4, r4, h4, x4, rfl⟩ := bind_cases x3
  obtain ⟨rfl, rfl⟩ := indexT_exact h4 (by rw [← Nat.add_assoc]; exact hr 3 (by simp))
  obtain ⟨_, t5, m5, r5, h5, x5, rfl⟩ := bind_cases x4
  obtain ⟨y5, rfl⟩ := storeT_reads h5
  obtain ⟨_, t6, m6, r6, h6, x6, rfl⟩ := bind_cases x5
  obtain ⟨y6, rfl⟩ := storeT_reads h6
  obtain ⟨_, t7, m7, r7, h7, x7, rfl⟩ := bind_cases x6
  obtain ⟨y7, rfl⟩ := storeT_reads h7
  obtain ⟨rfl, rfl, rfl⟩ := pure_cases x7
  refine ⟨by omega, ?_, by simp⟩
  have hr1 : Reads m4 bi (oi + 4 * (r + 1)) g := by
    intro i hi
    have := hr (i + 4) (by simp; omega)
    rw [show oi + 4 * (r + 1) + i = oi + 4 * r + (i + 4) by omega, this]
    rfl
  exact ((hr1.store y5 (by omega)).store y6 (by omega)).store y7 (by omega)

theorem groups_exact {bi oi bo oo : Nat} (q : Nat) : ∀ (r : Nat) (p g : List Byte) (m m' : Mem) (j : Nat) (t : List Leak),
    p.length = 4 * q → Reads m bi (oi + 4 * r) (p ++ g) → (bi ≠ bo ∨ oi + 4 * r + (p ++ g).length ≤ oo ∨ oo ≤ oi) →
    forNT q r (fun r j => decGroupT (ptr bi oi) (ptr bo oo) (4 * r) j) (3 * r) m = .ok (j, t) m' →
    t = groupsShown (ptr bi oi) (ptr bo oo) r p ∧ Reads m' bi (oi + 4 * (r + q)) g := by
  induction q with
  | zero =>
    intro r p g m m' j t hp hr hd h
    have : p = [] := List.length_eq_zero_iff.mp (by omega)
    subst this
    obtain ⟨u, x, rfl⟩ := branch_exact h
    obtain ⟨rfl, rfl, rfl⟩ := pure_cases x
    exact ⟨rfl, hr⟩
  | succ q ih =>
    intro r p g m m' j t hp hr hd h
    obtain ⟨a, b, c, d, s, rfl, ht⟩ := four hp
    obtain ⟨u, x, rfl⟩ := branch_exact h
    obtain ⟨k, t1, m1, r1, h1, x1, rfl⟩ := bind_cases x
    obtain ⟨rfl, hr1, rfl⟩ := decGroupT_exact (g := s ++ g) hr hd h1
    obtain ⟨rfl, hr2⟩ := ih (r + 1) s g m1 m' j r1 ht hr1 (by simp only [List.length_cons, List.length_append] at hd ⊢; omega) x1
    refine ⟨?_, by rw [show r + (q + 1) = r + 1 + q by omega]; exact hr2⟩
    rw [groupsShown]
    simp only [List.cons_append]

theorem lastT_exact {bi oi bo oo q : Nat} {a b : Byte} {g : List Byte} {n len out_len mx : SizeT} {m m' : Mem} {v : Int} {t : List Leak}
    (hg : g.length ≤ 2) (hn : n.toNat = 4 * q + 2 + g.length ∨ g = [] ∧ n.toNat = 4 * q + 1) (hn3 : n.toNat + 3 < 2 ^ 64)
    (hlen : len.toNat = 4 * q) (hout : out_len.toNat = 3 * q + 1) (hr : Reads m bi (oi + 4 * q) (a :: b :: g))
    (hd : bi ≠ bo ∨ oi + 4 * q + 2 + g.length ≤ oo ∨ oo ≤ oi)
    (h : decLastT (ptr bi oi) n len out_len (ptr bo oo) mx m = .ok (v, t) m') :
    t = lastShown (ptr bi oi) (ptr bo oo) q mx.toNat (a :: b :: g) ∧
      (v = 0 → ∀ c, g[0]? = some c → c ≠ 61#8 → 3 * q + 2 ≤ mx.toNat) := by
  have e1 : (len + 1#64).toNat = 4 * q + 1 := by
    rw [BitVec.toNat_add, hlen]; simp only [BitVec.toNat_ofNat]; omega
  have e2 : (len + 2#64).toNat = 4 * q + 2 := by
    rw [BitVec.toNat_add, hlen]; simp only [BitVec.toNat_ofNat]; omega
  have e3 : (out_len - 1#64).toNat = 3 * q := by
    rw [BitVec.toNat_sub_of_le (by rw [BitVec.le_def]; simp only [BitVec.toNat_ofNat]; omega), hout]; simp
  have e4 : (out_len + 1#64).toNat = 3 * q + 2 := by
    rw [BitVec.toNat_add, hout]; simp only [BitVec.toNat_ofNat]; omega
  unfold decLastT at h
  rw [hlen, e1, e2, e3, hout] at h
  simp only [lastShown]
  simp only [ptr_addN] at h ⊢
  obtain ⟨_, t1, m1, r1, h1, x1, rfl⟩ := bind_cases h
  obtain ⟨rfl, rfl⟩ := indexT_exact h1 (hr 0 (by simp))
  obtain ⟨_, t2, m2, r2, h2, x2, rfl⟩ := bind_cases x1
  obtain ⟨rfl, rfl⟩ := indexT_exact h2 (by rw [← Nat.add_assoc]; exact hr 1 (by simp))
  obtain ⟨_, t3, m3, r3, h3, x3, rfl⟩ := bind_cases x2
  obtain ⟨y3, rfl⟩ := storeT_reads h3
  obtain ⟨r4, x4, rfl⟩ := branch_exact x3
  have hmore : decide (len + 2#64 < n) = decide (g ≠ []) := by
    apply decide_eq_decide.mpr
    rw [BitVec.lt_def, e2]
    cases g with
    | nil =>
      simp only [List.length_nil, true_and] at hn
      simp only [ne_eq, not_true_eq_false, iff_false]
      omega
    | cons c g =>
      simp only [List.length_cons, reduceCtorEq, false_and, or_false] at hn
      simp only [ne_eq, reduceCtorEq, not_false_eq_true, iff_true]
      omega
  rw [hmore] at x4 ⊢
  cases g with
  | nil =>
    rw [if_neg (by simp)] at x4
    obtain ⟨rfl, rfl, rfl⟩ := pure_cases x4
    exact ⟨by simp, fun _ c h => absurd h (by simp)⟩
  | cons c e =>
    have hrc : Reads m2 bi (oi + (4 * q + 2)) [c] := by
      intro i hi
      obtain rfl : i = 0 := by simpa using hi
      rw [Nat.add_zero, ← Nat.add_assoc]
      exact hr 2 (by simp)
    have hr1 := hrc.store y3 (by simp at hd ⊢; omega)
    rw [if_pos (by simp)] at x4
    obtain ⟨c', t5, m5, r5, h5, x5, rfl⟩ := bind_cases x4
    obtain ⟨y5, rfl, rfl⟩ := loadT_exact h5
    have hc := load_some y5
    rw [show oi + (4 * q + 2) = oi + (4 * q + 2) + 0 by rfl, hr1 0 (by simp)] at hc
    cases hc
    obtain ⟨r6, x6, rfl⟩ := branch_exact x5
    simp only [thirdShown, ptr_addN]
    by_cases hp : c = 61#8
    · rw [if_neg (by simp [hp])] at x6
      obtain ⟨rfl, rfl, rfl⟩ := pure_cases x6
      rw [if_pos hp]
      exact ⟨by simp, fun _ c' h h' => absurd ((Option.some.inj h).symm.trans hp) h'⟩
    · rw [if_pos (by simp [hp])] at x6
      obtain ⟨r7, x7, rfl⟩ := branch_exact x6
      have hs : decide (mx < out_len + 1#64) = decide (mx.toNat < 3 * q + 2) := by
        apply decide_eq_decide.mpr
        rw [BitVec.lt_def, e4]
      rw [hs] at x7 ⊢
      rw [if_neg hp]
      by_cases hm : mx.toNat < 3 * q + 2
      · rw [if_pos (by simpa using hm)] at x7
        obtain ⟨rfl, rfl, rfl⟩ := pure_cases x7
        rw [if_pos hm]
        exact ⟨by simp, fun h => absurd h (by decide)⟩
      · rw [if_neg (by simpa using hm)] at x7
        obtain ⟨_, t8, m8, r8, h8, x8, rfl⟩ := bind_cases x7
        obtain ⟨rfl, rfl⟩ := indexT_exact h8 (hr1 0 (by simp))
        obtain ⟨_, t9, m9, r9, h9, x9, rfl⟩ := bind_cases x8
        obtain ⟨y9, rfl⟩ := storeT_reads h9
        obtain ⟨rfl, rfl, rfl⟩ := pure_cases x9
        rw [if_neg hm]
        exact ⟨by simp, fun _ _ _ _ => by omega⟩

theorem padBoolT_exact {bi oi : Nat} {n : SizeT} {s : List Byte} {m m' : Mem} {v : Bool} {t : List Leak}
    (hs : n.toNat ≤ s.length) (hr : Reads m bi oi s) (h : padBoolT (ptr bi oi) n m = .ok (v, t) m') :
    v = cut n.toNat s ∧ m' = m ∧ t = cutShown (ptr bi oi) n.toNat s := by
  unfold padBoolT at h
  have e0 : decide (0#64 < n) = decide (0 < n.toNat) := by
    apply decide_eq_decide.mpr
    rw [BitVec.lt_def]; rfl
  have e4 : decide (n % 4#64 ≠ 0#64) = decide (n.toNat % 4 ≠ 0) := by
    apply decide_eq_decide.mpr
    rw [not_iff_not, ← BitVec.toNat_inj, BitVec.toNat_umod]; rfl
  rw [e0, e4] at h
  obtain ⟨u, x, rfl⟩ := branch_exact h
  unfold cut cutShown
  by_cases h0 : 0 < n.toNat
  · rw [if_pos (by simpa using h0)] at x
    obtain ⟨u2, x2, rfl⟩ := branch_exact x
    by_cases h4 : n.toNat % 4 ≠ 0
    · rw [if_pos (by simpa using h4)] at x2
      obtain ⟨rfl, rfl, rfl⟩ := pure_cases x2
      refine ⟨by rw [decide_eq_true h0, decide_eq_true h4]; rfl, rfl, ?_⟩
      rw [if_pos h0, if_pos h4]
    · rw [if_neg (by simpa using h4)] at x2
      have e1 : (n - 1#64).toNat = n.toNat - 1 := by
        rw [BitVec.toNat_sub_of_le (by rw [BitVec.le_def]; simp only [BitVec.toNat_ofNat]; omega)]; simp
      rw [e1, ptr_addN] at x2
      obtain ⟨c, t3, m3, u3, h3, x3, rfl⟩ := bind_cases x2
      obtain ⟨y3, rfl, rfl⟩ := loadT_exact h3
      have hc := load_some y3
      rw [hr (n.toNat - 1) (by omega)] at hc
      cases x3
      rw [hc, decide_eq_true h0, decide_eq_false h4, if_pos h0, if_neg h4, ptr_addN]
      refine ⟨?_, rfl, ?_⟩
      · simp
      · simp
  · rw [if_neg (by simpa using h0)] at x
    obtain ⟨rfl, rfl, rfl⟩ := pure_cases x
    refine ⟨by rw [decide_eq_false h0]; rfl, rfl, ?_⟩
    rw [if_neg h0]

/-- The lengths of the parts of a text whose last group is not a whole one. -/
theorem cut_parts {n : Nat} {s : List Byte} (hs : s.length = if n % 4 = 1 then n + 1 else n) (hc : cut n s = true) :
    ∃ q p a b g, s = p ++ a :: b :: g ∧ p.length = 4 * q ∧ whole n s = q ∧ g.length ≤ 2 ∧
      (n = 4 * q + 2 + g.length ∨ g = [] ∧ n = 4 * q + 1) ∧ (g.length = 2 → g[1]? = some 61#8) := by
  have hw : whole n s = (n + 3) / 4 - 1 := by unfold whole; rw [if_pos hc]
  unfold cut at hc
  rw [Bool.and_eq_true, decide_eq_true_eq, Bool.or_eq_true, decide_eq_true_eq, beq_iff_eq] at hc
  obtain ⟨h0, hc⟩ := hc
  have hl : 4 * ((n + 3) / 4 - 1) + 2 ≤ s.length := by split at hs <;> omega
  obtain ⟨a, b, g, hg⟩ : ∃ a b g, s.drop (4 * ((n + 3) / 4 - 1)) = a :: b :: g := by
    cases h1 : s.drop (4 * ((n + 3) / 4 - 1)) with
    | nil => have := congrArg List.length h1; simp at this; omega
    | cons a t =>
      cases t with
      | nil => have := congrArg List.length h1; simp at this; omega
      | cons b g => exact ⟨a, b, g, rfl⟩
  have hgl := congrArg List.length hg
  simp only [List.length_drop, List.length_cons] at hgl
  refine ⟨(n + 3) / 4 - 1, s.take (4 * ((n + 3) / 4 - 1)), a, b, g, ?_, ?_, hw, ?_, ?_, ?_⟩
  · rw [← hg, List.take_append_drop]
  · rw [List.length_take]; omega
  · split at hs <;> omega
  · by_cases h1 : n % 4 = 1
    · rw [if_pos h1] at hs
      exact .inr ⟨List.length_eq_zero_iff.mp (by omega), by omega⟩
    · rw [if_neg h1] at hs
      left; omega
  · intro h2
    have h4 : n % 4 = 0 := by split at hs <;> omega
    rw [if_neg (by omega)] at hs
    rcases hc with hc | hc
    · omega
    · have e : (a :: b :: g)[3]? = s[n - 1]? := by rw [← hg, List.getElem?_drop]; congr 1; omega
      rw [hc] at e
      exact e

theorem whole_plain {n : Nat} {s : List Byte} (hs : s.length = if n % 4 = 1 then n + 1 else n) (hc : cut n s = false) :
    whole n s = n / 4 ∧ n % 4 = 0 ∧ s.length = n := by
  have hw : whole n s = (n + 3) / 4 := by unfold whole; rw [if_neg (by rw [hc]; simp)]; rfl
  have h4 : n % 4 = 0 := by
    by_contra h4
    unfold cut at hc
    rw [decide_eq_true h4, decide_eq_true (show 0 < n by omega)] at hc
    simp at hc
  exact ⟨by omega, h4, by rw [if_neg (by omega)] at hs; exact hs⟩

/-- The call succeeds: it is not refused, and there is room for the second byte of a last group of three characters. -/
def Fits (n mx : Nat) (s : List Byte) : Prop :=
  refused n mx s = false ∧ (cut n s = true → ∀ c, s[4 * whole n s + 2]? = some c → c ≠ 61#8 → 3 * whole n s + 2 ≤ mx)

theorem decodeT_exact {bi oi bo oo : Nat} {n mx : SizeT} {s : List Byte} {m m' : Mem} {v : Int} {t : List Leak}
    (hn3 : n.toNat + 3 < 2 ^ 64) (hs : s.length = if n.toNat % 4 = 1 then n.toNat + 1 else n.toNat) (hr : Reads m bi oi s)
    (hd : bi ≠ bo ∨ oi + s.length ≤ oo ∨ oo ≤ oi) (h : decodeT (ptr bi oi) n (ptr bo oo) mx m = .ok (v, t) m') :
    t = decodeShown (ptr bi oi) (ptr bo oo) n.toNat mx.toNat s ∧ (v = 0 → Fits n.toNat mx.toNat s) := by
  unfold decodeT at h
  obtain ⟨pb, t1, m1, u1, h1, x1, rfl⟩ := bind_cases h
  obtain ⟨rfl, rfl, rfl⟩ := padBoolT_exact (by split at hs <;> omega) hr h1
  obtain ⟨u2, x2, rfl⟩ := branch_exact x1
  dsimp only at x2
  have hlen : ((((n + 3#64) / 4#64) - (if cut n.toNat s = true then 1#64 else 0#64)) * 4#64).toNat = 4 * whole n.toNat s := by
    have h3 : (n + 3#64).toNat = n.toNat + 3 := by
      rw [BitVec.toNat_add]; simp only [BitVec.toNat_ofNat]; omega
    have h4 : ((n + 3#64) / 4#64).toNat = (n.toNat + 3) / 4 := by
      rw [BitVec.toNat_udiv, h3]; rfl
    have h5 : (((n + 3#64) / 4#64) - (if cut n.toNat s = true then 1#64 else 0#64)).toNat = whole n.toNat s := by
      unfold whole
      by_cases hc : cut n.toNat s = true
      · have h0 : 0 < n.toNat := by
          unfold cut at hc
          rw [Bool.and_eq_true, decide_eq_true_eq] at hc
          exact hc.1
        rw [if_pos hc, if_pos hc, BitVec.toNat_sub_of_le (by rw [BitVec.le_def, h4]; simp only [BitVec.toNat_ofNat]; omega), h4]
        rfl
      · rw [if_neg hc, if_neg hc, BitVec.sub_zero, h4]; rfl
    have h6 : whole n.toNat s ≤ (n.toNat + 3) / 4 := Nat.sub_le _ _
    rw [BitVec.toNat_mul, h5]
    simp only [BitVec.toNat_ofNat]
    omega
  generalize hL : ((((n + 3#64) / 4#64) - (if cut n.toNat s = true then 1#64 else 0#64)) * 4#64) = len at hlen x2
  have h6 : whole n.toNat s ≤ (n.toNat + 3) / 4 := Nat.sub_le _ _
  have hout : (len / 4#64 * 3#64 + (if cut n.toNat s = true then 1#64 else 0#64)).toNat =
      3 * whole n.toNat s + if cut n.toNat s = true then 1 else 0 := by
    have h7 : (len / 4#64).toNat = whole n.toNat s := by
      rw [BitVec.toNat_udiv, hlen]
      show 4 * whole n.toNat s / 4 = whole n.toNat s
      omega
    have h8 : (len / 4#64 * 3#64).toNat = 3 * whole n.toNat s := by
      rw [BitVec.toNat_mul, h7]; simp only [BitVec.toNat_ofNat]; omega
    rw [BitVec.toNat_add, h8]
    split <;> simp only [BitVec.toNat_ofNat] <;> omega
  generalize hO : (len / 4#64 * 3#64 + (if cut n.toNat s = true then 1#64 else 0#64)) = out_len at hout x2
  obtain ⟨u3, x3, rfl⟩ := branch_exact x2
  obtain ⟨u4, x4, rfl⟩ := branch_exact x3
  obtain ⟨u5, x5, rfl⟩ := branch_exact x4
  have d1 : decide (mx < out_len) = decide (mx.toNat < 3 * whole n.toNat s + if cut n.toNat s = true then 1 else 0) := by
    apply decide_eq_decide.mpr
    rw [BitVec.lt_def, hout]
  have d2 : decide (len = 0#64) = decide (whole n.toNat s = 0) := by
    apply decide_eq_decide.mpr
    rw [← BitVec.toNat_inj, hlen]
    simp only [BitVec.toNat_ofNat]
    omega
  rw [d1, d2] at x5 ⊢
  change (if (!refused n.toNat mx.toNat s) = true then _ else _ : T Int) _ = _ at x5
  unfold decodeShown Fits
  change _ ++ _ :: _ :: _ :: Leak.branch (!refused n.toNat mx.toNat s) :: u5 = _ ∧ _
  by_cases hf : refused n.toNat mx.toNat s = true
  · rw [if_neg (by rw [hf]; simp)] at x5
    obtain ⟨rfl, rfl, rfl⟩ := pure_cases x5
    rw [if_pos hf]
    exact ⟨by simp, fun h => absurd h (by decide)⟩
  · rw [if_pos (by simpa using hf)] at x5
    rw [if_neg hf]
    rw [hlen] at x5
    obtain ⟨j, t6, m6, u6, h6, x6, rfl⟩ := bind_cases x5
    obtain ⟨u7, x7, rfl⟩ := branch_exact x6
    rw [show (4 * whole n.toNat s + 3) / 4 = whole n.toNat s by omega] at h6
    by_cases hc : cut n.toNat s = true
    · obtain ⟨q, p, a, b, g, hsp, hp, hq, hg, hn, -⟩ := cut_parts hs hc
      rw [hq] at h6 hlen hout
      simp only [hq, if_pos hc]
      obtain ⟨rfl, hr2⟩ := groups_exact (bo := bo) (oo := oo) q 0 p (a :: b :: g) m1 m6 j t6 hp (by rw [← hsp]; exact hr)
        (by rw [← hsp]; exact hd) h6
      rw [if_pos hc] at x7
      obtain ⟨rfl, hv⟩ := lastT_exact hg hn hn3 hlen (by rw [hout, if_pos hc]) (by rw [Nat.zero_add] at hr2; exact hr2)
        (by rw [hsp] at hd; simp only [List.length_append, List.length_cons] at hd; omega) x7
      refine ⟨?_, fun hv0 => ⟨by simpa using hf, fun _ c hcc hc61 => ?_⟩⟩
      · have k1 : s.take (4 * q) = p := by rw [hsp, List.take_append_of_le_length (by omega), List.take_of_length_le (by omega)]
        have k2 : s.drop (4 * q) = a :: b :: g := by
          rw [hsp, List.drop_append_of_le_length (by omega), List.drop_of_length_le (by omega)]; rfl
        rw [k1, k2]
        simp
      · rw [hsp, List.getElem?_append_right (by omega), show 4 * q + 2 - p.length = 2 by omega] at hcc
        exact hv hv0 c hcc hc61
    · have hc' : cut n.toNat s = false := by simpa using hc
      obtain ⟨w1, w2, w3⟩ := whole_plain hs hc'
      obtain ⟨rfl, hr2⟩ := groups_exact (bo := bo) (oo := oo) (whole n.toNat s) 0 s [] m1 m6 j t6 (by omega)
        (by rw [List.append_nil]; exact hr) (by rw [List.append_nil]; exact hd) h6
      rw [if_neg hc] at x7
      simp only [if_neg hc]
      obtain ⟨rfl, rfl, rfl⟩ := pure_cases x7
      rw [List.take_of_length_le (by omega)]
      exact ⟨by simp, fun _ => ⟨by simpa using hf, fun h => absurd h hc⟩⟩

end IMU.Base64
