import Verif.Proofs.JsonGrammar
import Verif.Props.Json

/-!
# Properties C83 and C84: the builder and RFC 8259

Specification: `Verif/Spec/JsonGrammar.lean`.
-/

namespace IMU.Props
open Spec Spec.Json Spec.Rfc8259

/-! ### C83 -/

/-- C83: if keys and values are texts of the grammar (characters and correct escapes), the builder produces a JSON text,
and whoever parses it gets exactly one object: that of the members given, in order, with the strings that keys and values
denote. -/
theorem C83_json (b o : Nat) (size : SizeT) (l : List (List Byte × List Byte)) (ps : List (Ptr × Ptr)) (m : Mem)
    (hroom : o + size.toNat ≤ (m.bytes b).length) (hh : Holds m b o size.toNat ps l)
    (hfit : (document l).length + 1 ≤ size.toNat) (hsm : ∀ x ∈ l, size.toNat + x.1.length + x.2.length + 7 < 2 ^ 64)
    {d : List (List Nat × List Nat)} (hd : List.Forall₂ (fun x y => Body x.1 y.1 ∧ Body x.2 y.2) l d) :
    ∃ m' t, build (ptr b o) size ps m = .ok (List.replicate (l.length + 2) true) m' ∧ CStr (m'.bytes b) o t ∧
      ∀ v, JsonText t v ↔ v = .object (d.map fun y => (y.1, .string y.2)) := by
  obtain ⟨m', h1, h2, -⟩ := C64_build b o size l ps m hroom hh hfit hsm
  exact ⟨m', _, h1, h2, fun v => ⟨fun hv => document_unique hd hv, fun hv => hv ▸ document_text hd⟩⟩

/-- C83: keys and values without quotation marks and reverse solidi: the result is JSON exactly if all of them are UTF-8
without control characters. -/
theorem C83_exactly (l : List (List Byte × List Byte))
    (hl : ∀ p ∈ l, (34#8 ∉ p.1 ∧ 92#8 ∉ p.1) ∧ (34#8 ∉ p.2 ∧ 92#8 ∉ p.2)) :
    (∃ v, JsonText (document l) v) ↔ ∀ p ∈ l, (∃ s, Plain p.1 s) ∧ ∃ s, Plain p.2 s := by
  constructor
  · rintro ⟨v, hv⟩
    rcases value_document hv with ⟨rfl, rfl⟩ | ⟨h0, L, hL, rfl⟩
    · intro p hp; cases hp
    · exact members_plain hl hL rfl
  · intro h
    have : ∃ d, Decoded l d := by
      clear hl
      induction l with
      | nil => exact ⟨[], .nil⟩
      | cons p l ih =>
        obtain ⟨d, hd⟩ := ih fun q hq => h q (List.mem_cons_of_mem _ hq)
        obtain ⟨⟨s, hs⟩, t, ht⟩ := h p (List.mem_cons_self ..)
        exact ⟨(s, t) :: d, .cons ⟨hs.body, ht.body⟩ hd⟩
    obtain ⟨d, hd⟩ := this
    exact ⟨_, document_text hd⟩

/-- Printable ASCII without quotation mark and reverse solidus is plain. -/
theorem plain_ascii : ∀ s : List Byte, (∀ c ∈ s, 0x20 ≤ c.toNat ∧ c.toNat ≤ 0x7F ∧ c ≠ 34#8 ∧ c ≠ 92#8) →
    Plain s (s.map BitVec.toNat) := by
  intro s
  induction s with
  | nil => intro _; exact .nil
  | cons c s ih =>
    intro h
    obtain ⟨h1, h2, h3, h4⟩ := h c (List.mem_cons_self ..)
    refine .cons (x := [c]) (.one h2) ⟨h1, fun e => h3 (BitVec.eq_of_toNat_eq e), fun e => h4 (BitVec.eq_of_toNat_eq e)⟩
      (ih fun d hd => h d (List.mem_cons_of_mem _ hd))

/-- C83: in particular printable ASCII texts without quotation mark and reverse solidus come back as they were. -/
theorem C83_ascii (l : List (List Byte × List Byte))
    (hl : ∀ p ∈ l, ∀ c ∈ p.1 ++ p.2, 0x20 ≤ c.toNat ∧ c.toNat ≤ 0x7F ∧ c ≠ 34#8 ∧ c ≠ 92#8) (v : Tree) :
    JsonText (document l) v ↔ v = .object (l.map fun p => (p.1.map BitVec.toNat, .string (p.2.map BitVec.toNat))) := by
  have hd : Decoded l (l.map fun p => (p.1.map BitVec.toNat, p.2.map BitVec.toNat)) := by
    induction l with
    | nil => exact .nil
    | cons p l ih =>
      have h := hl p (List.mem_cons_self ..)
      exact .cons ⟨(plain_ascii _ fun c hc => h c (List.mem_append_left _ hc)).body,
        (plain_ascii _ fun c hc => h c (List.mem_append_right _ hc)).body⟩ (ih fun q hq => hl q (List.mem_cons_of_mem _ hq))
  constructor
  · intro hv
    rw [document_unique hd hv, tree, List.map_map]; rfl
  · rintro rfl
    have := document_text hd
    rw [tree, List.map_map] at this
    exact this

/-- Non-vacuity: `{"name":"café \n"}` with an escape and a two-byte character. -/
example : Body (ascii "name") [110, 97, 109, 101] ∧ Body ([99#8, 0xC3#8, 0xA9#8] ++ ascii "\\n") [99, 0xE9, 10] := by
  refine ⟨(plain_ascii (ascii "name") (by decide +kernel)).body, ?_⟩
  exact .cons (x := [99#8]) (.plain (.one (by decide)) (by decide))
    (.cons (x := [0xC3#8, 0xA9#8]) (.plain (.two (by decide) (by unfold Tail; decide)) (by decide))
      (.cons (x := [92#8, 110#8]) (.esc (by decide)) .nil))

/-! ### C84: nothing is escaped -/

/-- C84: a value may contain further members: the same text is the document of other members.  So whoever controls a value
controls the rest of the document. -/
theorem C84_injection (l r : List (List Byte × List Byte)) (k v k' v' : List Byte) :
    document (l ++ (k, v ++ ascii "\",\"" ++ k' ++ ascii "\":\"" ++ v') :: r) = document (l ++ (k, v) :: (k', v') :: r) := by
  have e1 : ascii "\",\"" = [34#8, 44#8, 34#8] := by decide +kernel
  have e2 : ascii "\":\"" = [34#8, 58#8, 34#8] := by decide +kernel
  unfold document
  congr 2
  induction l with
  | nil => cases r <;> simp [members, member, str, e1, e2]
  | cons p l ih =>
    cases l with
    | nil => simp only [List.cons_append, List.nil_append, members] at ih ⊢; rw [ih]
    | cons q l => simp only [List.cons_append, List.nil_append, members] at ih ⊢; rw [ih]

/-- C84: a value ending in a reverse solidus makes the document no JSON text: the quotation mark behind it no longer ends
the string. -/
theorem C84_backslash (k v : List Byte) {ks vs : List Nat} (hk : Plain k ks) (hv : Plain v vs) (t : Tree) :
    ¬ JsonText (document [(k, v ++ [92#8])]) t := by
  intro h
  rcases value_document h with ⟨h, -⟩ | ⟨-, L, hL, -⟩
  · cases h
  · have key : ∀ {a k' b c x d r : List Byte} {ks' : List Nat} {tr : Tree}, Ws a → Str k' ks' → Ws b → Ws c → Value x tr →
        a ++ k' ++ b ++ [58#8] ++ c ++ x ++ d ++ r = member k (v ++ [92#8]) → False := by
      intro a k' b c x d r ks' tr ha hk' hb hc hx e
      simp only [member, List.append_assoc] at e
      obtain ⟨rfl, e1⟩ := ha.none (b := 34#8) (t := k ++ ([34#8] ++ ([58#8] ++ str (v ++ [92#8])))) (by rw [e]; simp [str])
        (by decide)
      obtain ⟨-, e2⟩ := hk'.cut hk.free (r' := [58#8] ++ str (v ++ [92#8])) (by rw [e1]; simp [str])
      obtain ⟨rfl, e3⟩ := hb.none (b := 58#8) e2 (by decide)
      simp only [List.cons_append, List.nil_append, List.cons.injEq, true_and] at e3
      obtain ⟨rfl, e4⟩ := hc.none (b := 34#8) (t := v ++ [92#8, 34#8]) (by rw [e3]; simp [str]) (by decide)
      obtain ⟨s, ⟨y, hy, rfl⟩, rfl⟩ := hx.of_quote e4
      simp only [List.append_assoc, List.cons_append, List.nil_append, List.cons.injEq, true_and] at e4
      rcases List.append_eq_append_iff.mp e4 with ⟨a, e5, e6⟩ | ⟨a, e5, e6⟩
      · cases a with
        | nil => simp at e6
        | cons z a =>
          simp only [List.cons_append, List.cons.injEq] at e6
          rw [← e6.1] at e5
          exact hv.free.1 (by rw [e5]; simp)
      · match a, e6 with
        | [], e6 => simp at e6
        | [z], e6 =>
          simp only [List.cons_append, List.cons.injEq] at e6
          rw [← e6.1] at e5
          obtain ⟨s', hs'⟩ := hv.rest hy e5
          exact hs'.not_solidus rfl
        | z :: z' :: a, e6 => have := congrArg List.length e6; simp at this
    generalize hx : members [(k, v ++ [92#8])] = x at hL
    cases hL with
    | one ha hk hb hc hx' hd => exact key (r := []) ha hk hb hc hx' (by rw [List.append_nil]; exact hx.symm)
    | @cons a k b c x w y s v l' ha hk hb hc hx' hd hy =>
      exact key (d := w) (r := [44#8] ++ y) ha hk hb hc hx' (by rw [← List.append_assoc]; exact hx.symm)

/-- Non-vacuity of C84: one user-supplied value adds a member `admin`. -/
example : document [(ascii "user", ascii "eve\",\"admin\":\"yes")] = document [(ascii "user", ascii "eve"), (ascii "admin", ascii "yes")] := by
  decide +kernel

end IMU.Props
