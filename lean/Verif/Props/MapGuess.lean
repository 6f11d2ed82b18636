import Verif.Props.LeakContainers
import Verif.Props.Cost
import Mathlib.Tactic.ByContra

/-!
# Property C133, continued: finding out a stored key from what lookups show
-/

namespace IMU.Props
open Spec Spec.Leak IMU

/-- What an attacker does who can ask how many leading bytes of a guess agree with a secret of `n` bytes: the first `i` bytes
of the secret, by at most 256 guesses for each. -/
def recover (ask : List Byte → Nat) (n : Nat) : Nat → List Byte
  | 0 => []
  | i + 1 => recover ask n i ++
      [(((List.range 256).map (BitVec.ofNat 8)).find? fun c =>
        decide (i < ask (recover ask n i ++ c :: List.replicate (n - i - 1) 0#8))).getD 0#8]

theorem agree_append (p : List Byte) : ∀ (s t : List Byte), agree (p ++ s) (p ++ t) = p.length + agree s t := by
  induction p with
  | nil => intro s t; simp
  | cons a p ih => intro s t; simp only [List.cons_append, agree, if_true, ih, List.length_cons]; omega

theorem recover_ok {K : List Byte} {n : Nat} (hn : K.length = n) {ask : List Byte → Nat}
    (hask : ∀ g, g.length = n → ask g = agree K g) : ∀ i, i ≤ n → recover ask n i = K.take i := by
  intro i
  induction i with
  | zero => intro _; rfl
  | succ i ih =>
    intro hi
    have ih := ih (by omega)
    have hlt : i < K.length := by omega
    have hK : K = K.take i ++ K[i] :: K.drop (i + 1) := by simp
    have hgood : ∀ c : Byte, (i < ask (K.take i ++ c :: List.replicate (n - i - 1) 0#8)) ↔ c = K[i] := by
      intro c
      rw [hask _ (by simp only [List.length_append, List.length_take, List.length_cons, List.length_replicate]; omega)]
      rw [show agree K (K.take i ++ c :: List.replicate (n - i - 1) 0#8) = _ from
        congrArg (fun z => agree z (K.take i ++ c :: List.replicate (n - i - 1) 0#8)) hK]
      have hp : (K.take i).length = i := by simp; omega
      generalize K.take i = P at hp
      generalize K[i] = x
      generalize K.drop (i + 1) = R
      by_cases hc : c = x
      · subst hc
        simp only [iff_true]
        rw [agree_append, hp]
        simp only [agree, if_true]
        omega
      · have hz : agree (P ++ x :: R) (P ++ c :: List.replicate (n - i - 1) 0#8) = i := by
          rw [agree_append, hp]
          simp only [agree, if_neg (Ne.symm hc)]
          omega
        constructor
        · intro h; omega
        · intro h; exact absurd h hc
    have hmem : K[i] ∈ (List.range 256).map (BitVec.ofNat 8) :=
      List.mem_map.mpr ⟨K[i].toNat, List.mem_range.mpr K[i].isLt, BitVec.ofNat_toNat ..⟩
    have hf : ((List.range 256).map (BitVec.ofNat 8)).find? (fun c =>
        decide (i < ask (K.take i ++ c :: List.replicate (n - i - 1) 0#8))) = some K[i] := by
      cases h : ((List.range 256).map (BitVec.ofNat 8)).find? (fun c =>
          decide (i < ask (K.take i ++ c :: List.replicate (n - i - 1) 0#8))) with
      | none =>
        have := List.find?_eq_none.mp h _ hmem
        exact absurd (decide_eq_true ((hgood _).mpr rfl)) this
      | some c =>
        have := List.find?_some h
        rw [(hgood c).mp (of_decide_eq_true this)]
    rw [recover, ih, hf]
    simp

/-- The guesses the attacker makes. -/
def guesses (ask : List Byte → Nat) (n : Nat) : List (List Byte) :=
  (List.range n).flatMap fun i => (List.range 256).map fun c =>
    recover ask n i ++ BitVec.ofNat 8 c :: List.replicate (n - i - 1) 0#8

theorem guesses_length (ask : List Byte → Nat) (n : Nat) : (guesses ask n).length = 256 * n := by
  unfold guesses
  simp [List.length_flatMap, List.map_const', Nat.mul_comm]

/-- What is recovered depends on the answers to these guesses only. -/
theorem recover_guesses {ask ask' : List Byte → Nat} {n : Nat} (h : ∀ g ∈ guesses ask n, ask g = ask' g) :
    ∀ i, i ≤ n → recover ask n i = recover ask' n i := by
  intro i
  induction i with
  | zero => intro _; rfl
  | succ i ih =>
    intro hi
    have ih := ih (by omega)
    rw [recover, recover, ← ih]
    have hc : ∀ (l : List Byte) (p p' : Byte → Bool), (∀ c ∈ l, p c = p' c) → l.find? p = l.find? p' := by
      intro l p p' hp
      induction l with
      | nil => rfl
      | cons a l ihl =>
        rw [List.find?_cons, List.find?_cons, hp a (List.mem_cons_self ..), ihl (fun c hc => hp c (List.mem_cons_of_mem _ hc))]
    rw [hc _ _ (fun c => decide (i < ask' (recover ask n i ++ c :: List.replicate (n - i - 1) 0#8)))]
    intro c hc
    obtain ⟨k, hk, rfl⟩ := List.mem_map.mp hc
    rw [h]
    exact List.mem_flatMap.mpr ⟨i, List.mem_range.mpr (by omega), List.mem_map.mpr ⟨k, hk, rfl⟩⟩

/-- C133: who sees what lookups show and may choose the keys looked for finds out the first stored key, with 256 guesses for
each of its bytes (`guesses_length`, `recover_guesses`). -/
theorem C133_attack {map : Map.MapT} {kb ko ks b o : Nat} {value : Ptr} (hkeys : map.keys = ptr kb ko)
    (hks : map.key_size = ks) (h0 : 0 < ks) (hlt : ks < 2 ^ 31) (hsz : 0 < map.current_size.toNat) :
    ∃ D : List Leak → Nat, ∀ (m : Mem) (view : List Byte → List Leak),
      ko + map.current_size.toNat * ks ≤ (m.bytes kb).length →
      (∀ g, g.length = ks → ∃ (n : Mem) (r : Bool) (n' : Mem), n.bytes kb = m.bytes kb ∧ o + ks ≤ (n.bytes b).length ∧
        slice (n.bytes b) o ks = g ∧ Map.getValueT (some map) (ptr b o) value n = .ok (r, view g) n') →
      recover (fun g => D (view g)) ks ks = slice (m.bytes kb) ko ks := by
  classical
  let P : List Leak → List Nat → Prop := fun t l => ∃ (n : Mem) (r : Bool) (n' : Mem),
    ko + map.current_size.toNat * ks ≤ (n.bytes kb).length ∧ o + ks ≤ (n.bytes b).length ∧
    Map.getValueT (some map) (ptr b o) value n = .ok (r, t) n' ∧
    l = compared (slice (n.bytes b) o ks) (keysOf map n kb ko ks)
  refine ⟨fun t => if h : ∃ l, P t l then (h.choose).headD 0 else 0, ?_⟩
  intro m view hroom hview
  have hkl : (slice (m.bytes kb) ko ks).length = ks := by
    have : ks ≤ map.current_size.toNat * ks := Nat.le_mul_of_pos_left _ hsz
    simp only [slice, List.length_take, List.length_drop]; omega
  rw [recover_ok hkl ?_ ks (Nat.le_refl _), List.take_of_length_le (by omega)]
  intro g hg
  obtain ⟨n, r, n', hn, hob, hgn, hrun⟩ := hview g hg
  have hroomn : ko + map.current_size.toNat * ks ≤ (n.bytes kb).length := by rw [hn]; exact hroom
  have hP : ∃ l, P (view g) l := ⟨_, n, r, n', hroomn, hob, hrun, rfl⟩
  have hs := hP.choose_spec
  obtain ⟨n2, r2, n2', hroom2, hob2, hrun2, hl⟩ := hs
  have he := (C133_lookup hkeys hks h0 hlt hroom2 hroomn hob2 hob hrun2 hrun).mp rfl
  simp only [dif_pos hP]
  rw [hl, he, hgn]
  have hk : keysOf map n kb ko ks = slice (m.bytes kb) ko ks ::
      (List.range' 1 (map.current_size.toNat - 1)).map fun j => slice (n.bytes kb) (ko + j * ks) ks := by
    unfold keysOf
    conv_lhs => rw [show map.current_size.toNat = (map.current_size.toNat - 1) + 1 by omega, List.range'_succ]
    simp [hn]
  rw [hk]
  rfl

theorem compared_reveals {ks : Nat} : ∀ (K K2 : List (List Byte)), (∀ k ∈ K, k.length = ks) → (∀ k ∈ K2, k.length = ks) →
    K.Nodup → K.length = K2.length → (∀ g, g ∈ K → compared g K = compared g K2) → K = K2
  | [], K2, _, _, _, hl, _ => (List.length_eq_zero_iff.mp hl.symm).symm
  | a :: K, [], _, _, _, hl, _ => by cases hl
  | a :: K, c :: K2, h1, h2, hnd, hl, h => by
    have full : ∀ s t : List Byte, s.length = t.length → agree s t = t.length → s = t := by
      intro s
      induction s with
      | nil => intro t ht _; exact (List.length_eq_zero_iff.mp ht.symm).symm
      | cons x s ih =>
        intro t ht ha
        cases t with
        | nil => cases ht
        | cons y t =>
          simp only [agree] at ha
          by_cases hxy : x = y
          · rw [if_pos hxy] at ha
            rw [hxy, ih t (by simpa using ht) (by simpa using ha)]
          · rw [if_neg hxy] at ha; simp at ha
    have self : ∀ s : List Byte, agree s s = s.length := by
      intro s
      have := agree_append s [] []
      simpa [agree] using this
    have hac : a = c := by
      have := h a (List.mem_cons_self ..)
      simp only [compared] at this
      injection this with h3
      rw [self] at h3
      exact (full c a ((h2 c (List.mem_cons_self ..)).trans (h1 a (List.mem_cons_self ..)).symm) h3.symm).symm
    subst hac
    rw [compared_reveals K K2 (fun k hk => h1 k (List.mem_cons_of_mem _ hk)) (fun k hk => h2 k (List.mem_cons_of_mem _ hk))
      (List.nodup_cons.mp hnd).2 (by simpa using hl) ?_]
    intro g hg
    have hne : a ≠ g := fun e => (List.nodup_cons.mp hnd).1 (e ▸ hg)
    have := h g (List.mem_cons_of_mem _ hg)
    simp only [compared, if_neg hne] at this
    injection this

/-- C133: what the lookups of all guesses show together determines all stored keys and their order: two maps of equally many
(different) keys that show the same for every guess hold the same keys. -/
theorem C133_reveals {map : Map.MapT} {kb ko ks b o : Nat} {value : Ptr} (hkeys : map.keys = ptr kb ko)
    (hks : map.key_size = ks) (h0 : 0 < ks) (hlt : ks < 2 ^ 31) {m m2 : Mem}
    (hm : ko + map.current_size.toNat * ks ≤ (m.bytes kb).length)
    (hm2 : ko + map.current_size.toNat * ks ≤ (m2.bytes kb).length)
    (hnd : (keysOf map m kb ko ks).Nodup)
    (hview : ∀ g, g.length = ks → ∃ (n n2 : Mem) (r r2 : Bool) (t : List Leak) (n' n2' : Mem),
      n.bytes kb = m.bytes kb ∧ n2.bytes kb = m2.bytes kb ∧ o + ks ≤ (n.bytes b).length ∧ o + ks ≤ (n2.bytes b).length ∧
      slice (n.bytes b) o ks = g ∧ slice (n2.bytes b) o ks = g ∧
      Map.getValueT (some map) (ptr b o) value n = .ok (r, t) n' ∧
      Map.getValueT (some map) (ptr b o) value n2 = .ok (r2, t) n2') :
    keysOf map m kb ko ks = keysOf map m2 kb ko ks := by
  have hlen : ∀ m : Mem, ko + map.current_size.toNat * ks ≤ (m.bytes kb).length → ∀ k ∈ keysOf map m kb ko ks, k.length = ks := by
    intro m hm k hk
    obtain ⟨j, hj, rfl⟩ := List.mem_map.mp hk
    have hj' : j < map.current_size.toNat := by
      have := List.mem_range'_1.mp hj
      omega
    have : j * ks + ks ≤ map.current_size.toNat * ks := by
      rw [← Nat.succ_mul]; exact Nat.mul_le_mul_right _ hj'
    simp only [slice, List.length_take, List.length_drop]; omega
  refine compared_reveals _ _ (hlen m hm) (hlen m2 hm2) hnd (by simp [keysOf]) ?_
  intro g hg
  obtain ⟨n, n2, r, r2, t, n', n2', hn, hn2, ho, ho2, hgn, hgn2, h1, h2⟩ := hview g (hlen m hm g hg)
  have := (C133_lookup hkeys hks h0 hlt (by rw [hn]; exact hm) (by rw [hn2]; exact hm2) ho ho2 h1 h2).mp rfl
  rw [hgn, hgn2] at this
  have e : ∀ {a c : Mem}, a.bytes kb = c.bytes kb → keysOf map a kb ko ks = keysOf map c kb ko ks := by
    intro a c h; unfold keysOf; rw [h]
  rwa [e hn, e hn2] at this

/-- Non-vacuity: on every reachable map all guesses can be made (here with the guess in object `b` and the value to object
`b'`). -/
theorem guesses_run {n ks vs kb ko vb vo : Nat} {cs : List MapCall} {map : Map.MapT} {m : Mem}
    (h : MapReach n ks vs kb ko vb vo cs map m) {b b' : Nat} (h1 : b ≠ kb) (h2 : b ≠ vb) (h3 : b' ≠ kb) (h4 : b' ≠ vb)
    (hb : b' ≠ b) (g : List Byte) (hg : g.length = ks) :
    ∃ (w : Mem) (r : Bool) (t : List Leak) (w' : Mem), w.bytes kb = m.bytes kb ∧ 0 + ks ≤ (w.bytes b).length ∧
      slice (w.bytes b) 0 ks = g ∧ Map.getValueT (some map) (ptr b 0) (ptr b' 0) w = .ok (r, t) w' := by
  obtain ⟨⟨r, t, w', hw, -⟩, -⟩ := C136_map_worst h
    { kind := .get, w := ⟨fun x => if x = b then g else List.replicate vs 0#8, fun _ => []⟩, kblk := b, koff := 0, vblk := b', voff := 0 }
    ⟨h1, h2, h3, h4, by simp [hg], by simp [hb]⟩
  refine ⟨_, r, t, w', ?_, ?_, ?_, hw⟩
  · simp [MapCall.mem]
  · simp [MapCall.mem, h1, h2, hg]
  · simp [MapCall.mem, h1, h2, slice, ← hg]

/-- C133: so on every reachable map with an entry the attack succeeds: there is a way to compute the first stored key from what
the lookups of the guesses show. -/
theorem C133_attack_reachable {n ks vs kb ko vb vo : Nat} {cs : List MapCall} {map : Map.MapT} {m : Mem}
    (h : MapReach n ks vs kb ko vb vo cs map m) (hsz : 0 < map.current_size.toNat) {b b' : Nat} (h1 : b ≠ kb) (h2 : b ≠ vb)
    (h3 : b' ≠ kb) (h4 : b' ≠ vb) (hb : b' ≠ b) :
    ∃ (view : List Byte → List Leak) (D : List Leak → Nat),
      (∀ g, g.length = ks → ∃ (w : Mem) (r : Bool) (w' : Mem), w.bytes kb = m.bytes kb ∧ slice (w.bytes b) 0 ks = g ∧
        Map.getValueT (some map) (ptr b 0) (ptr b' 0) w = .ok (r, view g) w') ∧
      recover (fun g => D (view g)) ks ks = slice (m.bytes kb) ko ks := by
  classical
  obtain ⟨es, hr, -⟩ := h.rep
  obtain ⟨D, hD⟩ := C133_attack (b := b) (o := 0) (value := ptr b' 0) hr.hk hr.hks hr.ks_pos hr.ks_lt hsz
  have hrun := guesses_run h h1 h2 h3 h4 hb
  let view : List Byte → List Leak := fun g => if hg : g.length = ks then (hrun g hg).choose_spec.choose_spec.choose else []
  have hview : ∀ g, g.length = ks → ∃ (w : Mem) (r : Bool) (w' : Mem), w.bytes kb = m.bytes kb ∧ 0 + ks ≤ (w.bytes b).length ∧
      slice (w.bytes b) 0 ks = g ∧ Map.getValueT (some map) (ptr b 0) (ptr b' 0) w = .ok (r, view g) w' := by
    intro g hg
    obtain ⟨w', e1, e2, e3, e4⟩ := (hrun g hg).choose_spec.choose_spec.choose_spec
    refine ⟨_, (hrun g hg).choose_spec.choose, w', e1, e2, e3, ?_⟩
    simp only [view, dif_pos hg]
    exact e4
  refine ⟨view, D, ?_, hD m view ?_ hview⟩
  · intro g hg
    obtain ⟨w, r, w', e1, -, e3, e4⟩ := hview g hg
    exact ⟨w, r, w', e1, e3, e4⟩
  · have hc : map.current_size.toNat ≤ n := by
      have := hr.size
      have := hr.size_le
      omega
    have := Nat.mul_le_mul_right ks hc
    have := hr.klen
    omega

/-- Non-vacuity: the secret "xyz", found by asking how far guesses agree. -/
example : recover (agree (ascii "xyz")) 3 3 = ascii "xyz" :=
  recover_ok rfl (fun _ _ => rfl) 3 (Nat.le_refl _)

end IMU.Props
