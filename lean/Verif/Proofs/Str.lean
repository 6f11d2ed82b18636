import Verif.C.Str
import Verif.C.Lemmas
import Verif.Spec.Str
import Verif.Spec.Frame
import Verif.Proofs.Frame

namespace IMU
open Spec

theorem _root_.IMU.Spec.CStr.lt {l : List Byte} {o : Nat} {s : List Byte} (h : CStr l o s) : o + s.length < l.length := by
  obtain ⟨-, t, h⟩ := h
  have := congrArg List.length h
  simp at this
  omega

theorem _root_.IMU.Spec.CStr.get {l : List Byte} {o : Nat} {s : List Byte} (h : CStr l o s) {k : Nat} (hk : k < s.length) :
    l[o + k]? = s[k]? := by
  obtain ⟨-, t, h⟩ := h
  rw [← List.getElem?_drop, h, List.getElem?_append_left hk]

theorem _root_.IMU.Spec.CStr.nul {l : List Byte} {o : Nat} {s : List Byte} (h : CStr l o s) : l[o + s.length]? = some 0#8 := by
  obtain ⟨-, t, h⟩ := h
  rw [← List.getElem?_drop, h]
  simp

theorem _root_.IMU.Spec.CStr.slice_eq {l : List Byte} {o : Nat} {s : List Byte} (h : CStr l o s) :
    slice l o (s.length + 1) = s ++ [0#8] := by
  obtain ⟨-, t, h⟩ := h
  unfold slice
  rw [h, show s ++ 0#8 :: t = (s ++ [0#8]) ++ t by simp, List.take_left' (by simp)]

theorem cstr_of_slice {l : List Byte} {o : Nat} {s : List Byte} (h0 : 0#8 ∉ s) (h : slice l o (s.length + 1) = s ++ [0#8]) :
    CStr l o s := by
  refine ⟨h0, (l.drop o).drop (s.length + 1), ?_⟩
  have := List.take_append_drop (s.length + 1) (l.drop o)
  unfold slice at h
  rw [h] at this
  rw [← this]
  simp

theorem CStr.unique {l : List Byte} {o : Nat} {s s' : List Byte} (h : CStr l o s) (h' : CStr l o s') : s = s' := by
  have key : ∀ (s s' t t' : List Byte), 0#8 ∉ s → 0#8 ∉ s' → s ++ 0#8 :: t = s' ++ 0#8 :: t' → s = s' := by
    intro s
    induction s with
    | nil =>
      intro s' t t' _ h' e
      cases s' with
      | nil => rfl
      | cons a s' => simp at e h'; exact absurd e.1 h'.1
    | cons a s ih =>
      intro s' t t' h h' e
      cases s' with
      | nil => simp at e h; exact absurd e.1.symm h.1
      | cons a' s' =>
        simp only [List.cons_append, List.cons.injEq] at e
        simp only [List.mem_cons, not_or] at h h'
        rw [e.1, ih s' t t' h.2 h'.2 e.2]
  obtain ⟨h1, t, h2⟩ := h
  obtain ⟨h1', t', h2'⟩ := h'
  exact key _ _ _ _ h1 h1' (h2.symm.trans h2')

theorem findIdx_str {s t : List Byte} (h : 0#8 ∉ s) : (s ++ 0#8 :: t).findIdx? (· == 0#8) = some s.length := by
  induction s with
  | nil => rw [List.nil_append, List.findIdx?_cons, if_pos (by rfl)]; rfl
  | cons a s ih =>
    simp only [List.mem_cons, not_or] at h
    rw [List.cons_append, List.findIdx?_cons, ih h.2, if_neg (by simpa using Ne.symm h.1)]
    rfl

theorem strlen_ok {b o : Nat} {m : Mem} {s : List Byte} (h : CStr (m.bytes b) o s) :
    strlen (ptr b o) m = .ok s.length m := by
  obtain ⟨h0, t, ht⟩ := h
  unfold strlen
  simp only [Int.toNat_natCast]
  rw [if_pos (by omega), ht, findIdx_str h0]

/-- No NUL: undefined. -/
theorem strlen_ub {b o : Nat} {m : Mem} (h : 0#8 ∉ (m.bytes b).drop o) : strlen (ptr b o) m = .ub .oobRead := by
  unfold strlen
  simp only [Int.toNat_natCast]
  have : ((m.bytes b).drop o).findIdx? (· == 0#8) = none := by
    rw [List.findIdx?_eq_none_iff]
    intro x hx
    simp only [beq_eq_false_iff_ne, ne_eq]
    intro e; subst e; exact h hx
  rw [if_pos (by omega), this]

theorem cstr_or (l : List Byte) (o : Nat) : (∃ s, CStr l o s) ∨ 0#8 ∉ l.drop o := by
  by_cases h : 0#8 ∈ l.drop o
  · left
    have key : ∀ l : List Byte, 0#8 ∈ l → ∃ s t, 0#8 ∉ s ∧ l = s ++ 0#8 :: t := by
      intro l
      induction l with
      | nil => intro h; simp at h
      | cons a l ih =>
        intro h
        by_cases ha : a = 0#8
        · exact ⟨[], l, by simp, by simp [ha]⟩
        · have : 0#8 ∈ l := by
            rcases List.mem_cons.mp h with h | h
            · exact absurd h.symm ha
            · exact h
          obtain ⟨s, t, h1, h2⟩ := ih this
          refine ⟨a :: s, t, ?_, by rw [h2]; rfl⟩
          simp only [List.mem_cons, not_or]
          exact ⟨Ne.symm ha, h1⟩
    obtain ⟨s, t, h1, h2⟩ := key _ h
    exact ⟨s, h1, t, h2⟩
  · exact .inr h

/-- A loop that replaces character after character. -/
theorem forN_map {b o : Nat} {m : Mem} {s : List Byte} (g : Nat → Byte → Byte) (body : Nat → Unit → C Unit)
    (hs : CStr (m.bytes b) o s)
    (hb : ∀ k c P, s[k]? = some c → P.length = k → body k () (m.upd b (splice (m.bytes b) o P)) =
      .ok () ((m.upd b (splice (m.bytes b) o P)).upd b ((splice (m.bytes b) o P).set (o + k) (g k c)))) :
    forN s.length 0 body () m = .ok () (m.upd b (splice (m.bytes b) o (s.mapIdx g))) := by
  have hlt := hs.lt
  obtain ⟨u, m', h1, h2⟩ := forN_inv
    (fun k (_ : Unit) M => M = m.upd b (splice (m.bytes b) o ((s.mapIdx g).take k))) s.length 0 body () m
    (by simp [splice_nil]) (by
      intro k _ M _ hk hM
      subst hM
      have hk' : k < s.length := by omega
      have hl : ((s.mapIdx g).take k).length = k := by simp; omega
      refine ⟨(), _, hb k s[k] _ (by simp [hk']) hl, ?_⟩
      rw [Mem.upd_upd]
      refine congrArg (Mem.upd m b) ?_
      apply List.ext_getElem?
      intro i
      have hl2 : ((s.mapIdx g).take (k + 1)).length = k + 1 := by simp; omega
      rw [List.getElem?_set, getElem?_splice _ _ _ (by omega), getElem?_splice _ _ _ (by omega), hl, hl2,
        splice_length _ _ _ (by omega)]
      by_cases hi : o + k = i
      · subst hi
        rw [if_pos rfl, if_pos (by omega), if_neg (by omega), if_pos (by omega), List.getElem?_take, if_pos (by omega)]
        simp [hk']
      · rw [if_neg hi]
        by_cases h1 : i < o
        · rw [if_pos h1, if_pos h1]
        · rw [if_neg h1, if_neg h1]
          by_cases h2 : i < o + k
          · rw [if_pos h2, if_pos (by omega), List.getElem?_take, List.getElem?_take, if_pos (by omega),
              if_pos (by omega)]
          · rw [if_neg h2, if_neg (by omega)])
  rw [h1, h2, Nat.zero_add, List.take_of_length_le (by simp)]

theorem cstr_map {b o : Nat} {m : Mem} {s s' : List Byte} (hs : CStr (m.bytes b) o s) (hl : s'.length = s.length)
    (h0 : 0#8 ∉ s') :
    CStr ((m.upd b (splice (m.bytes b) o s')).bytes b) o s' ∧
      OnlyChanged m (m.upd b (splice (m.bytes b) o s')) b o s.length := by
  have hlt := hs.lt
  constructor
  · rw [Mem.upd_bytes, if_pos rfl]
    apply cstr_of_slice h0
    apply List.ext_getElem?
    intro k
    rw [getElem?_slice, getElem?_splice _ _ _ (by omega)]
    by_cases hk : k < s'.length
    · rw [if_pos (by omega), if_neg (by omega), if_pos (by omega), List.getElem?_append_left hk]
      congr 1; omega
    · by_cases hk2 : k = s'.length
      · subst hk2
        rw [if_pos (by omega), if_neg (by omega), if_neg (by omega), hl, hs.nul, ← hl]
        simp
      · rw [if_neg (by omega), List.getElem?_eq_none (by simp; omega)]
  · rw [← hl]
    exact onlyChanged_splice _ _ _ _ (by omega)

end IMU
