import Verif.Proofs.LeakJsonBuild
import Verif.Props.JsonFinal

/-!
# Property C145: what building a JSON text shows

Src/json.c:41-103, to an observer who sees all addresses and decisions (`Verif/C/Leak.lean`, `Verif/C/LeakStr.lean`).
-/

namespace IMU.Props
open Spec Spec.Json Spec.JsonBuildCost Spec.LeakJsonBuild T IMU.Json
/-- C145: what is observed is the code that the other properties are about. -/
theorem C145_same_code (buffer : Ptr) (size : SizeT) (key value : Ptr) (ps : List (Ptr × Ptr)) :
    erase (addDataT buffer size key value) = addData buffer size key value ∧
    erase (buildT buffer size ps) = build buffer size ps :=
  ⟨erase_addData buffer size key value, erase_build buffer size ps⟩

/-- C145: everything an addition shows, made from three lengths and the question whether the text ends with a quote. -/
theorem C145_add (b o bk ok bv ov : Nat) (size : SizeT) (s k v : List Byte) (m : Mem) (hs : CStr (m.bytes b) o s) (hne : s ≠ [])
    (hk : CStr (m.bytes bk) ok k) (hv : CStr (m.bytes bv) ov v)
    (hka : bk ≠ b ∨ ok + k.length + 1 ≤ o ∨ o + size.toNat ≤ ok) (hva : bv ≠ b ∨ ov + v.length + 1 ≤ o ∨ o + size.toNat ≤ ov)
    (hroom : o + size.toNat ≤ (m.bytes b).length) (hsmall : s.length + k.length + v.length + 7 < 2 ^ 64)
    (hfit : s.length + (sep s).length < size.toNat) :
    ∃ r m', addDataT (ptr b o) size (ptr bk ok) (ptr bv ov) m =
      .ok (r, addShown b o bk ok bv ov size.toNat s.length (LeakJsonBuild.quoted s) k.length v.length) m' := by
  obtain ⟨m', h1, -⟩ := addData_runs (size := size) ⟨hs, hk, hv, hka, hva, hroom, by omega⟩ hne hsmall hfit
  exact ⟨_, m', h1⟩

/-! ### These four are shown -/

theorem rd_parse {b o n n' : Nat} {p p' : Ptr} {u u' : List Leak} (hp : p.blk ≠ b) (hp' : p'.blk ≠ b)
    (h : rd b o n ++ .read p :: u = rd b o n' ++ .read p' :: u') : n = n' ∧ Leak.read p :: u = .read p' :: u' := by
  have key : ∀ (n : Nat) (p : Ptr) (u : List Leak), p.blk ≠ b →
      (rd b o n ++ .read p :: u).takeWhile (fun e => match e with | .read q => decide (q.blk = b) | _ => false) = rd b o n := by
    intro n p u hp
    rw [List.takeWhile_append_of_pos]
    · simp [hp]
    · intro e he
      unfold rd at he
      rw [List.mem_map] at he
      obtain ⟨i, -, rfl⟩ := he
      simp [ptr]
  have h1 := key n p u hp
  rw [h, key n' p' u' hp'] at h1
  have hn : n' = n := by simpa [rd] using congrArg List.length h1
  subst hn
  exact ⟨rfl, List.append_cancel_left h⟩

/-- C145: the lengths and whether the text ends with a quote are all shown (the three strings in three objects). -/
theorem C145_tells (b o bk ok bv ov size n n' k k' v v' : Nat) (q q' : Bool) (h1 : bk ≠ b) (h2 : bv ≠ b) (h3 : bv ≠ bk) :
    addShown b o bk ok bv ov size n q k v = addShown b o bk ok bv ov size n' q' k' v' ↔
      n = n' ∧ q = q' ∧ k = k' ∧ v = v' := by
  constructor
  · intro h
    have hrd : ∀ (b o n : Nat) (u : List Leak), rd b o (n + 1) ++ u = .read (ptr b o) :: ((rd b (o + 1) n) ++ u) := by
      intro b o n u
      unfold rd
      rw [List.range_succ_eq_map, List.map_cons, List.map_map, List.cons_append]
      congr 2
      apply List.map_congr_left
      intro i _
      simp only [Function.comp, Nat.succ_eq_add_one]
      rw [Nat.add_assoc o 1 i, Nat.add_comm 1 i]
    have hcs : ∀ (n : Nat) (q : Bool) (u : List Leak), ∃ w, commaShown b o n q ++ u = .read (ptr b (o + (n - 1))) :: .branch q :: w := by
      intro n q u
      cases q
      · exact ⟨_, rfl⟩
      · exact ⟨_, rfl⟩
    unfold addShown at h
    simp only [List.append_assoc] at h
    obtain ⟨w, hw⟩ := hcs n q (if (if q = true then n + 1 else n) + k + v + 6 ≤ size then
      .branch true :: memberShown b o bk ok bv ov (if q = true then n + 1 else n) k v else [.branch false])
    obtain ⟨w', hw'⟩ := hcs n' q' (if (if q' = true then n' + 1 else n') + k' + v' + 6 ≤ size then
      .branch true :: memberShown b o bk ok bv ov (if q' = true then n' + 1 else n') k' v' else [.branch false])
    rw [hw, hw', hrd bk, hrd bk] at h
    obtain ⟨e1, h⟩ := rd_parse (show (ptr bk ok).blk ≠ b from h1) (show (ptr bk ok).blk ≠ b from h1) h
    rw [← hrd bk, ← hrd bk, hrd bv, hrd bv] at h
    obtain ⟨e2, h⟩ := rd_parse (show (ptr bv ov).blk ≠ bk from h3) (show (ptr bv ov).blk ≠ bk from h3) h
    rw [← hrd bv, ← hrd bv] at h
    obtain ⟨e3, h⟩ := rd_parse (p := ptr b (o + (n - 1))) (p' := ptr b (o + (n' - 1))) (show b ≠ bv from Ne.symm h2) (show b ≠ bv from Ne.symm h2) h
    simp only [List.cons.injEq, Leak.branch.injEq] at h
    exact ⟨by omega, h.2.1, by omega, by omega⟩
  · rintro ⟨rfl, rfl, rfl, rfl⟩; rfl

/-! ### Whole documents -/

theorem quoted_add (size : Nat) (t : List Byte) (x : List Byte × List Byte) :
    LeakJsonBuild.quoted (add size t x).2 = (add size t x).1 := by
  unfold add LeakJsonBuild.quoted
  split
  · obtain ⟨u, hu⟩ := member_quote x.1 x.2
    rw [hu, ← List.append_assoc, List.getLast?_concat]; rfl
  · by_cases hq : t.getLast? = some 34#8
    · rw [show sep t = [44#8] by simp [sep, hq], List.getLast?_concat]; rfl
    · rw [show sep t = [] by simp [sep, hq], List.append_nil]; simp [hq]

theorem sep_len_quoted (t : List Byte) : (sep t).length = if LeakJsonBuild.quoted t then 1 else 0 := by
  unfold sep LeakJsonBuild.quoted
  by_cases hq : t.getLast? = some 34#8 <;> simp [hq]

theorem add_same (size : Nat) {t t' : List Byte} {x y : List Byte × List Byte} (h : t.length = t'.length)
    (hq : LeakJsonBuild.quoted t = LeakJsonBuild.quoted t') (h1 : x.1.length = y.1.length) (h2 : x.2.length = y.2.length) :
    (add size t x).1 = (add size t' y).1 ∧ (add size t x).2.length = (add size t' y).2.length := by
  have hs : (sep t).length = (sep t').length := by rw [sep_len_quoted, sep_len_quoted, hq]
  have hl : (t ++ sep t ++ member x.1 x.2).length = (t' ++ sep t' ++ member y.1 y.2).length := by
    simp only [member, str, List.length_append, List.length_cons, List.length_nil]; omega
  unfold add
  rw [hl]
  split
  · exact ⟨rfl, hl⟩
  · exact ⟨rfl, by simp only [List.length_append]; omega⟩

theorem additions_same (b o size : Nat) : ∀ (l l' : List (List Byte × List Byte)) (ps : List (Ptr × Ptr)) (t t' : List Byte),
    t.length = t'.length → LeakJsonBuild.quoted t = LeakJsonBuild.quoted t' → SameLengths l l' →
    additionsShown b o size t ps l = additionsShown b o size t' ps l' := by
  intro l
  induction l with
  | nil =>
    intro l' ps t t' _ _ h
    cases l' with
    | nil => cases ps <;> rfl
    | cons y l' => exact absurd h id
  | cons x l ih =>
    intro l' ps t t' h hq hs
    cases l' with
    | nil => exact absurd hs id
    | cons y l' =>
      obtain ⟨h1, h2, hs'⟩ := hs
      cases ps with
      | nil => rfl
      | cons p ps =>
        obtain ⟨a1, a2⟩ := add_same size h hq h1 h2
        rw [additionsShown, additionsShown, h, hq, h1, h2,
          ih l' ps _ _ a2 (by rw [quoted_add, quoted_add, a1]) hs']

/-- C145: building two documents with members of the same lengths shows the same; nothing else of keys and values is
shown. -/
theorem C145_build (b o : Nat) (size : SizeT) (l1 l2 : List (List Byte × List Byte)) (ps : List (Ptr × Ptr)) (m1 m2 : Mem)
    (hsame : SameLengths l1 l2)
    (hroom1 : o + size.toNat ≤ (m1.bytes b).length) (hh1 : Holds m1 b o size.toNat ps l1)
    (hfit1 : (document l1).length + 1 ≤ size.toNat)
    (hsm1 : ∀ x ∈ l1, size.toNat + x.1.length + x.2.length + 7 < 2 ^ 64)
    (hroom2 : o + size.toNat ≤ (m2.bytes b).length) (hh2 : Holds m2 b o size.toNat ps l2)
    (hfit2 : (document l2).length + 1 ≤ size.toNat)
    (hsm2 : ∀ x ∈ l2, size.toNat + x.1.length + x.2.length + 7 < 2 ^ 64) :
    ∃ r1 r2 t m1' m2', buildT (ptr b o) size ps m1 = .ok (r1, t) m1' ∧ buildT (ptr b o) size ps m2 = .ok (r2, t) m2' := by
  have main : ∀ (l : List (List Byte × List Byte)) (m : Mem), o + size.toNat ≤ (m.bytes b).length →
      Holds m b o size.toNat ps l → (document l).length + 1 ≤ size.toNat →
      (∀ x ∈ l, size.toNat + x.1.length + x.2.length + 7 < 2 ^ 64) →
      ∃ r m', buildT (ptr b o) size ps m = .ok (r, (.branch true :: wr b o 2) ++
        (additionsShown b o size.toNat [123#8] ps l ++ (endShown b o size.toNat ([123#8] ++ members l).length ++ []))) m' := by
    intro l m hroom hh hfit hsm
    have hd : (document l).length = ([123#8] ++ members l).length + 1 := by simp [document]
    have hd2 : 1 ≤ ([123#8] ++ members l).length := by simp
    have hsz := size.isLt
    obtain ⟨m1, a1, a2, a3⟩ := startString_runs (m := m) (b := b) (o := o) (size := size) hroom (by omega)
    have a3' := oc_mono a3 (o2 := o) (n2 := size.toNat) (by omega) (by omega)
    have hr := run_document (size := size.toNat) l [] (by simpa using hfit)
    rw [show [123#8] ++ members [] = [123#8] by simp [members], List.nil_append] at hr
    obtain ⟨m2, b1, b2, b3⟩ := addAll_runs (size := size) l ps [123#8] m1 _ a2 (by simp) (by simp; omega)
      (by rw [oc_length a3]; exact hroom) (holds_frame a3' hh) hsm hr
    dsimp only at b1 b2
    obtain ⟨m3, c1⟩ := endString_runs (size := size) b2 (by rw [oc_length b3, oc_length a3]; exact hroom) (by omega)
    have hg : Runs (buildT (ptr b o) size ps) m
        (true :: List.replicate l.length true ++ [decide (([123#8] ++ members l).length + 2 ≤ size.toNat)]) _ m3 :=
      Runs.bind a1 (Runs.bind b1 (Runs.bind c1 (Runs.pure _ _)))
    exact ⟨_, m3, hg⟩
  have hlen : ∀ l l' : List (List Byte × List Byte), SameLengths l l' → (members l).length = (members l').length := by
    intro l
    induction l with
    | nil =>
      intro l' h
      cases l' with
      | nil => rfl
      | cons y l' => exact absurd h id
    | cons x l ih =>
      intro l' h
      cases l' with
      | nil => exact absurd h id
      | cons y l' =>
        obtain ⟨h1, h2, h3⟩ := h
        have hi := ih l' h3
        have hm : (member x.1 x.2).length = (member y.1 y.2).length := by
          simp only [member, str, List.length_append, List.length_cons, List.length_nil]; omega
        cases l with
        | nil =>
          cases l' with
          | nil => exact hm
          | cons z l' => exact absurd h3 id
        | cons w l =>
          cases l' with
          | nil => exact absurd h3 id
          | cons z l' =>
            rw [members, members]
            simp only [List.length_append] at hi ⊢
            omega
  obtain ⟨r1, m1', g1⟩ := main l1 m1 hroom1 hh1 hfit1 hsm1
  obtain ⟨r2, m2', g2⟩ := main l2 m2 hroom2 hh2 hfit2 hsm2
  rw [additions_same b o size.toNat l1 l2 ps [123#8] [123#8] rfl rfl hsame,
    show ([123#8] ++ members l1).length = ([123#8] ++ members l2).length by
      rw [List.length_append, List.length_append, hlen l1 l2 hsame]] at g1
  exact ⟨r1, r2, _, m1', m2', g1, g2⟩

/-! ### Non-vacuity -/

/-- What a build shows. -/
def buildShown (k v : String) : Option (List Leak) :=
  match buildT (ptr 0 0) 20#64 [(ptr 1 0, ptr 2 0)] (memL [List.replicate 20 7, ascii k ++ [0], ascii v ++ [0]]) with
  | .ok (_, t) _ => some t
  | .ub _ => none

/-- Other characters, the same shown; another length, even at the cost of the other string, something else. -/
example : buildShown "pin" "1234" = buildShown "puk" "9\"9," ∧ buildShown "pin" "1234" ≠ none ∧
    buildShown "pin" "1234" ≠ buildShown "pi" "12345" ∧
    SameLengths [(ascii "pin", ascii "1234")] [(ascii "puk", ascii "9\"9,")] := by
  refine ⟨?_, ?_, ?_, by decide, by decide, trivial⟩ <;> decide +kernel

end IMU.Props
