import Verif.Proofs.MapInterruptQuiet
import Verif.Props.Map

/-!
# Property C111: a map used by an interrupt handler
-/

namespace IMU.Props
open Spec Utils IMU.Map

/-- An argument of `s` bytes outside the objects of the arrays and the object `d`. -/
abbrev Outside (kb vb d : Nat) (m : Mem) (b o s : Nat) : Prop := IMU.Map.Arg kb vb d m b o s

/-- An argument of `s` bytes outside the objects of the arrays. -/
abbrev Clear (kb vb : Nat) (m : Mem) (b o s : Nat) : Prop := Outside kb vb kb m b o s

section
variable {n ks vs kb ko vb vo : Nat} {cs : List MapCall} {map : MapT} {m : Mem}

theorem reach_start (h : MapReach n ks vs kb ko vb vo cs map m) (d : Nat) :
    ∃ c, Shape n ks vs kb ko vb vo c map ∧
      View n ks vs kb ko vb vo d m m (fun j => (mapSlot ks vs kb ko vb vo m j).1) (fun j => (mapSlot ks vs kb ko vb vo m j).2) ∧
      (∀ i l, i < c → l < c → (mapSlot ks vs kb ko vb vo m i).1 = (mapSlot ks vs kb ko vb vo m l).1 → i = l) ∧
      mapEntries ks vs kb ko vb vo map m =
        table (fun j => (mapSlot ks vs kb ko vb vo m j).1) (fun j => (mapSlot ks vs kb ko vb vo m j).2) c := by
  obtain ⟨es, hr, -⟩ := h.rep
  have hs : Shape n ks vs kb ko vb vo es.length map :=
    { hr with }
  have V := View.start (n := n) (ks := ks) (vs := vs) (kb := kb) (ko := ko) (vb := vb) (vo := vo) (d := d) m hr.klen hr.vlen
  refine ⟨es.length, hs, V, ?_, entries_view V hs⟩
  intro i l hi hl he
  have e1 := hr.ck i _ (List.getElem?_eq_getElem hi)
  have e2 := hr.ck l _ (List.getElem?_eq_getElem hl)
  simp only [mapSlot] at he
  rw [e1, e2] at he
  have := List.nodup_iff_injective_get.1 hr.nodup (a₁ := ⟨i, by simpa using hi⟩) (a₂ := ⟨l, by simpa using hl⟩) (by simpa using he)
  simpa using this

/-- C111: if the handler does nothing, these are the functions of Src/map.c, in any state. -/
theorem C111_quiet (p : Point) (key value : Ptr) (m' : Mem) (r : Bool) :
    (∀ map', insert (some map) key value m = .ok (r, some map') m' →
      insertInt p idle map key value m = .ok (false, r, map') m') ∧
    (getValue (some map) key value m = .ok r m' → getValueInt p idle map key value m = .ok (false, r, map) m') := by
  refine ⟨fun map' h => ?_, getValueInt_idle p⟩
  obtain ⟨mp, h1, h2⟩ := insertInt_idle p h
  rw [Option.some.inj h1]; exact h2

/-- What a handler that looks up finds in `m1`, in terms of the entries there. -/
theorem reader_table {d c : Nat} {m0 m1 : Mem} {fk fv : Nat → Bytes} (V : View n ks vs kb ko vb vo d m0 m1 fk fv)
    (Sh : Shape n ks vs kb ko vb vo c map) {b o o' : Nat} (ha : Arg kb vb d m0 b o ks) (hdk : d ≠ kb) (hdv : d ≠ vb)
    (ho : o' + vs ≤ (m0.bytes d).length) :
    ∃ m2, Handled n ks vs kb ko vb vo d m0 m1 m2 (reader (ptr b o) (ptr d o')) map
        (valueOf (table fk fv c) (slice (m0.bytes b) o ks)).isSome map fk fv ∧
      ∀ x, valueOf (table fk fv c) (slice (m0.bytes b) o ks) = some x → slice (m2.bytes d) o' vs = x := by
  rcases reader_view V Sh ha hdk hdv ho with ⟨j, m2, h1, h2, h3, h4, h5, h6⟩ | ⟨h1, h2⟩
  · have e := valueOf_first (fv := fv) h1 h2 h3
    refine ⟨m2, ⟨by rw [h4, e]; rfl, h5⟩, ?_⟩
    intro x hx
    rw [e] at hx
    rw [h6]; exact Option.some.inj hx
  · have e := valueOf_none (fv := fv) h1
    refine ⟨m1, ⟨by rw [h2, e]; rfl, V⟩, ?_⟩
    intro x hx
    rw [e] at hx; simp at hx

/-- What a handler that inserts does in `m1`, in terms of the entries there. -/
theorem writer_table {d c : Nat} {m0 m1 : Mem} {fk fv : Nat → Bytes} (V : View n ks vs kb ko vb vo d m0 m1 fk fv)
    (Sh : Shape n ks vs kb ko vb vo c map) (inj : ∀ i l, i < c → l < c → fk i = fk l → i = l) {b o b' o' : Nat}
    (ha : Arg kb vb d m0 b o ks) (hb : Arg kb vb d m0 b' o' vs) :
    ∃ s map1 m2 fk1 fv1 c1, Handled n ks vs kb ko vb vo d m0 m1 m2 (writer (ptr b o) (ptr b' o')) map s map1 fk1 fv1 ∧
      Shape n ks vs kb ko vb vo c1 map1 ∧
      s = (entryPut n (table fk fv c) (slice (m0.bytes b) o ks) (slice (m0.bytes b') o' vs)).1 ∧
      (entryPut n (table fk fv c) (slice (m0.bytes b) o ks) (slice (m0.bytes b') o' vs)).2 = table fk1 fv1 c1 ∧
      (∀ l, l < c → fk1 l = fk l) ∧ c ≤ c1 ∧ (∀ i l, i < c1 → l < c1 → fk1 i = fk1 l → i = l) ∧
      (∀ x, x ≠ kb → x ≠ vb → m2.bytes x = m1.bytes x) := by
  rcases writer_view V Sh ha hb with ⟨j, m2, h1, h2, h3, h4, h5, h6⟩ | ⟨h1, h2, m2, h4, h5, h6⟩ | ⟨h1, h2, h3⟩
  · rw [put_found h1 h2 inj]
    exact ⟨_, _, m2, _, _, c, ⟨h4, h6⟩, Sh, rfl, rfl, fun _ _ => rfl, Nat.le_refl _, inj, h5⟩
  · rw [put_new h1 h2]
    refine ⟨_, _, m2, _, _, c + 1, ⟨h4, h6⟩, Sh.grow h2, rfl, ?_, fun l hl => put_ne _ _ (by omega), by omega, ?_, h5⟩
    · change table fk fv c ++ _ = _
      rw [table_succ, put_same, put_same, table_beyond _ _ (Nat.le_refl _) (Nat.le_refl _)]
    · intro i l hi hl hil
      rcases Nat.lt_or_ge i c with hi' | hi' <;> rcases Nat.lt_or_ge l c with hl' | hl'
      · rw [put_ne _ _ (by omega), put_ne _ _ (by omega)] at hil
        exact inj i l hi' hl' hil
      · have : l = c := by omega
        subst this
        rw [put_ne _ _ (by omega), put_same] at hil
        exact absurd hil (h1 i hi')
      · have : i = c := by omega
        subst this
        rw [put_same, put_ne _ _ (by omega)] at hil
        exact absurd hil.symm (h1 l hl')
      · omega
  · rw [put_full h1 h2]
    exact ⟨_, _, m1, _, _, c, ⟨h3, V⟩, Sh, rfl, rfl, fun _ _ => rfl, Nat.le_refl _, inj, fun _ _ _ => rfl⟩

/-- C111: a lookup by the interrupt handler at any point of the insertion of a new key gets what the map held before,
and the insertion is not disturbed: a new entry becomes visible all at once. -/
theorem C111_lookup_meets_new_key (hr : MapReach n ks vs kb ko vb vo cs map m) {b o b' o' hb ho d w : Nat}
    (hkey : Outside kb vb d m b o ks) (hval : Outside kb vb d m b' o' vs) (hk : Outside kb vb d m hb ho ks)
    (hdk : d ≠ kb) (hdv : d ≠ vb) (hw : w + vs ≤ (m.bytes d).length)
    (hnew : ∀ e ∈ mapEntries ks vs kb ko vb vo map m, e.1 ≠ slice (m.bytes b) o ks)
    (hroom : (mapEntries ks vs kb ko vb vo map m).length < n) (p : Point) :
    ∃ map' m', insertInt p (reader (ptr hb ho) (ptr d w)) map (ptr b o) (ptr b' o') m =
        .ok ((valueOf (mapEntries ks vs kb ko vb vo map m) (slice (m.bytes hb) ho ks)).isSome, true, map') m' ∧
      mapEntries ks vs kb ko vb vo map' m' =
        mapEntries ks vs kb ko vb vo map m ++ [(slice (m.bytes b) o ks, slice (m.bytes b') o' vs)] ∧
      ∀ x, valueOf (mapEntries ks vs kb ko vb vo map m) (slice (m.bytes hb) ho ks) = some x →
        slice (m'.bytes d) w vs = x := by
  obtain ⟨c, Sh, V, inj, he⟩ := reach_start hr d
  rw [he, table_length] at hroom
  have hno : ∀ l, l < c → (mapSlot ks vs kb ko vb vo m l).1 ≠ slice (m.bytes b) o ks := by
    intro l hl
    exact hnew (_, _) (by rw [he]; exact List.mem_of_getElem? (table_get hl))
  rw [he]
  have Shg := Sh.grow hroom
  have hfin : ∀ {m' : Mem} {fk fv : Nat → Bytes}, View n ks vs kb ko vb vo d m m' fk fv →
      (∀ l, l < c → fk l = (mapSlot ks vs kb ko vb vo m l).1 ∧ fv l = (mapSlot ks vs kb ko vb vo m l).2) →
      fk c = slice (m.bytes b) o ks → fv c = slice (m.bytes b') o' vs →
      mapEntries ks vs kb ko vb vo (grown map c) m' = table (fun j => (mapSlot ks vs kb ko vb vo m j).1)
        (fun j => (mapSlot ks vs kb ko vb vo m j).2) c ++ [(slice (m.bytes b) o ks, slice (m.bytes b') o' vs)] := by
    intro m' fk fv V' h1 h2 h3
    rw [entries_view V' Shg]
    change table fk fv (c + 1) = _
    rw [table_succ, h2, h3, table_congr h1]
  have hput : ∀ l, l < c → ∀ x y, put (fun j => (mapSlot ks vs kb ko vb vo m j).1) c x l = (mapSlot ks vs kb ko vb vo m l).1 ∧
      put (fun j => (mapSlot ks vs kb ko vb vo m j).2) c y l = (mapSlot ks vs kb ko vb vo m l).2 :=
    fun l hl x y => ⟨put_ne _ _ (by omega), put_ne _ _ (by omega)⟩
  cases p with
  | search k =>
    obtain ⟨m2, H, Hx⟩ := reader_table V Sh hk hdk hdv hw
    obtain ⟨m', g1, g2, g3⟩ := (ins_search V Sh hkey hval k H Sh (fun _ _ => rfl) hno).1 hroom
    exact ⟨_, m', g1, hfin g3 (fun l hl => hput l hl _ _) (put_same _ _ _) (put_same _ _ _),
      fun x hx => by rw [g2 d hdk hdv]; exact Hx x hx⟩
  | room =>
    obtain ⟨m2, H, Hx⟩ := reader_table V Sh hk hdk hdv hw
    obtain ⟨m', g1, g2, g3⟩ := ins_room V Sh hroom hkey hval H Sh hno hroom
    exact ⟨_, m', g1, hfin g3 (fun l hl => hput l hl _ _) (put_same _ _ _) (put_same _ _ _),
      fun x hx => by rw [g2 d hdk hdv]; exact Hx x hx⟩
  | key S =>
    obtain ⟨m1, V1, hcont⟩ := ins_key V Sh hroom hkey hval hno S (reader (ptr hb ho) (ptr d w))
    obtain ⟨m2, H, Hx⟩ := reader_table V1 Sh hk hdk hdv hw
    obtain ⟨m', g1, g2, g3⟩ := hcont _ _ _ _ _ c H Sh hroom
    have e := table_congr (fk := fun j => (mapSlot ks vs kb ko vb vo m j).1) (fv := fun j => (mapSlot ks vs kb ko vb vo m j).2) (c := c)
      (fk' := put (fun j => (mapSlot ks vs kb ko vb vo m j).1) c (mixed S (slice (m.bytes b) o ks) (mapSlot ks vs kb ko vb vo m c).1))
      (fv' := fun j => (mapSlot ks vs kb ko vb vo m j).2) (fun l hl => ⟨put_ne _ _ (by omega), rfl⟩)
    rw [e] at g1 Hx
    refine ⟨_, m', g1, hfin g3 ?_ ?_ (put_same _ _ _), fun x hx => by rw [g2 d hdk hdv]; exact Hx x hx⟩
    · intro l hl
      exact ⟨by rw [put_ne _ _ (by omega), put_ne _ _ (by omega)], put_ne _ _ (by omega)⟩
    · rw [put_same, put_same]
      exact mixed_rest _ _ _ (by rw [hkey.len]; exact (V.lenk hroom).symm)
  | value S =>
    obtain ⟨m1, V1, hcont⟩ := ins_value V Sh hroom hkey hval hno S (reader (ptr hb ho) (ptr d w))
    obtain ⟨m2, H, Hx⟩ := reader_table V1 Sh hk hdk hdv hw
    obtain ⟨m', g1, g2, g3⟩ := hcont _ _ _ _ _ c H Sh
    rw [if_pos hroom] at g1
    have e := table_beyond (fk := fun j => (mapSlot ks vs kb ko vb vo m j).1) (fv := fun j => (mapSlot ks vs kb ko vb vo m j).2)
      (c := c) (i := c) (j := c) (slice (m.bytes b) o ks) (mixed S (slice (m.bytes b') o' vs) (mapSlot ks vs kb ko vb vo m c).2)
      (Nat.le_refl _) (Nat.le_refl _)
    rw [e] at g1 Hx
    refine ⟨_, m', g1, hfin g3 ?_ (put_same _ _ _) ?_, fun x hx => by rw [g2 d hdk hdv]; exact Hx x hx⟩
    · intro l hl
      exact ⟨put_ne _ _ (by omega), by rw [put_ne _ _ (by omega), put_ne _ _ (by omega)]⟩
    · rw [put_same, put_same]
      exact mixed_rest _ _ _ (by rw [hval.len]; exact (V.lenv hroom).symm)
  | load =>
    obtain ⟨m1, V1, hcont⟩ := ins_load V Sh hroom hkey hval hno (reader (ptr hb ho) (ptr d w))
    obtain ⟨m2, H, Hx⟩ := reader_table V1 Sh hk hdk hdv hw
    have g1 := hcont _ _ _ H.1
    have e := table_beyond (fk := fun j => (mapSlot ks vs kb ko vb vo m j).1) (fv := fun j => (mapSlot ks vs kb ko vb vo m j).2)
      (c := c) (i := c) (j := c) (slice (m.bytes b) o ks) (slice (m.bytes b') o' vs) (Nat.le_refl _) (Nat.le_refl _)
    rw [e] at g1 Hx
    exact ⟨_, m2, g1, hfin H.2 (fun l hl => hput l hl _ _) (put_same _ _ _) (put_same _ _ _), Hx⟩

/-- C111: a lookup by the interrupt handler during the update of key `k` from value `old` to `v`: the update is not
disturbed; the handler gets what the map held before, except that for `k` itself, in the copy, it gets the bytes copied
so far from `v` and the others from `old`: a value that may never have been inserted. -/
theorem C111_lookup_meets_update (hr : MapReach n ks vs kb ko vb vo cs map m) {b o b' o' hb ho d w : Nat}
    (hkey : Outside kb vb d m b o ks) (hval : Outside kb vb d m b' o' vs) (hk : Outside kb vb d m hb ho ks)
    (hdk : d ≠ kb) (hdv : d ≠ vb) (hw : w + vs ≤ (m.bytes d).length) {j : Nat} {old : Bytes}
    (hj : (mapEntries ks vs kb ko vb vo map m)[j]? = some (slice (m.bytes b) o ks, old)) :
    (∀ i, ∃ map' m', insertInt (.search i) (reader (ptr hb ho) (ptr d w)) map (ptr b o) (ptr b' o') m =
        .ok ((valueOf (mapEntries ks vs kb ko vb vo map m) (slice (m.bytes hb) ho ks)).isSome, true, map') m' ∧
      mapEntries ks vs kb ko vb vo map' m' =
        (mapEntries ks vs kb ko vb vo map m).set j (slice (m.bytes b) o ks, slice (m.bytes b') o' vs) ∧
      ∀ x, valueOf (mapEntries ks vs kb ko vb vo map m) (slice (m.bytes hb) ho ks) = some x →
        slice (m'.bytes d) w vs = x) ∧
    (∀ S, ∃ map' m', insertInt (.value S) (reader (ptr hb ho) (ptr d w)) map (ptr b o) (ptr b' o') m =
        .ok ((valueOf (mapEntries ks vs kb ko vb vo map m) (slice (m.bytes hb) ho ks)).isSome, true, map') m' ∧
      mapEntries ks vs kb ko vb vo map' m' =
        (mapEntries ks vs kb ko vb vo map m).set j (slice (m.bytes b) o ks, slice (m.bytes b') o' vs) ∧
      (slice (m.bytes hb) ho ks = slice (m.bytes b) o ks →
        slice (m'.bytes d) w vs = mixed S (slice (m.bytes b') o' vs) old) ∧
      (slice (m.bytes hb) ho ks ≠ slice (m.bytes b) o ks →
        ∀ x, valueOf (mapEntries ks vs kb ko vb vo map m) (slice (m.bytes hb) ho ks) = some x →
          slice (m'.bytes d) w vs = x)) := by
  obtain ⟨c, Sh, V, inj, he⟩ := reach_start hr d
  rw [he] at hj ⊢
  have hjc : j < c := by
    have := (List.getElem?_eq_some_iff.1 hj).1
    rwa [table_length] at this
  rw [table_get hjc] at hj
  simp only [Option.some.injEq, Prod.mk.injEq] at hj
  obtain ⟨hjk, hjv⟩ := hj
  have hfirst : ∀ l, l < j → (mapSlot ks vs kb ko vb vo m l).1 ≠ slice (m.bytes b) o ks := by
    intro l hl h
    have := inj l j (by omega) hjc (by rw [h, hjk])
    omega
  have hjn : j < n := by have := Sh.size_le; omega
  constructor
  · intro i
    obtain ⟨m2, H, Hx⟩ := reader_table V Sh hk hdk hdv hw
    obtain ⟨m', g1, g2, g3⟩ := upd_search V Sh hkey hval i H Sh (fun _ _ => rfl) hjc hjk hfirst
    refine ⟨_, m', g1, ?_, fun x hx => by rw [g2 d hdk hdv]; exact Hx x hx⟩
    rw [entries_view g3 Sh]
    change table _ _ c = _
    rw [table_putV]
    simp only [hjk]
  · intro S
    obtain ⟨m1, V1, hcont⟩ := upd_value V Sh hkey hval hjc hjk hfirst S (reader (ptr hb ho) (ptr d w))
    obtain ⟨m2, H, Hx⟩ := reader_table V1 Sh hk hdk hdv hw
    obtain ⟨m', g1, g2, g3⟩ := hcont _ _ _ _ _ H
    have hval' : ∀ key, key ≠ slice (m.bytes b) o ks →
        valueOf (table (fun j => (mapSlot ks vs kb ko vb vo m j).1)
          (put (fun j => (mapSlot ks vs kb ko vb vo m j).2) j (mixed S (slice (m.bytes b') o' vs) (mapSlot ks vs kb ko vb vo m j).2)) c) key =
        valueOf (table (fun j => (mapSlot ks vs kb ko vb vo m j).1) (fun j => (mapSlot ks vs kb ko vb vo m j).2) c) key := by
      intro key hne
      by_cases hex : ∃ l, l < c ∧ (mapSlot ks vs kb ko vb vo m l).1 = key
      · obtain ⟨l, l1, l2, l3⟩ := first_of (fk := fun j => (mapSlot ks vs kb ko vb vo m j).1) hex
        rw [valueOf_first l1 l2 l3, valueOf_first l1 l2 l3, put_ne]
        rintro rfl
        exact hne (by rw [← l2, hjk])
      · have hno : ∀ l, l < c → (mapSlot ks vs kb ko vb vo m l).1 ≠ key := fun l hl h => hex ⟨l, hl, h⟩
        rw [valueOf_none hno, valueOf_none hno]
    have hsame : valueOf (table (fun j => (mapSlot ks vs kb ko vb vo m j).1)
          (put (fun j => (mapSlot ks vs kb ko vb vo m j).2) j (mixed S (slice (m.bytes b') o' vs) (mapSlot ks vs kb ko vb vo m j).2)) c)
          (slice (m.bytes b) o ks) = some (mixed S (slice (m.bytes b') o' vs) old) := by
      rw [valueOf_first hjc hjk hfirst, put_same, hjv]
    have hstat : (valueOf (table (fun j => (mapSlot ks vs kb ko vb vo m j).1)
          (put (fun j => (mapSlot ks vs kb ko vb vo m j).2) j (mixed S (slice (m.bytes b') o' vs) (mapSlot ks vs kb ko vb vo m j).2)) c)
          (slice (m.bytes hb) ho ks)).isSome =
        (valueOf (table (fun j => (mapSlot ks vs kb ko vb vo m j).1) (fun j => (mapSlot ks vs kb ko vb vo m j).2) c)
          (slice (m.bytes hb) ho ks)).isSome := by
      by_cases hkk : slice (m.bytes hb) ho ks = slice (m.bytes b) o ks
      · rw [hkk, hsame, valueOf_first hjc hjk hfirst]; rfl
      · rw [hval' _ hkk]
    rw [hstat] at g1
    refine ⟨_, m', g1, ?_, ?_, ?_⟩
    · rw [entries_view g3 Sh]
      change table _ _ c = _
      rw [put_put, put_same, table_putV, mixed_rest _ _ _ (by rw [hval.len]; exact (V.lenv hjn).symm)]
      simp only [hjk]
    · intro hkk
      rw [g2 d hdk hdv]
      exact Hx _ (by rw [hkk]; exact hsame)
    · intro hkk x hx
      rw [g2 d hdk hdv]
      exact Hx _ (by rw [hval' _ hkk]; exact hx)

/-- C111: an insertion by the interrupt handler during a lookup takes place as always, and the lookup's status is that of
the entries before it.  If the handler runs in the search the value is the one after the insertion; if it runs in the
copy the bytes copied before are those of the old value, the others those of the new one. -/
theorem C111_insert_meets_lookup (hr : MapReach n ks vs kb ko vb vo cs map m) {b o hb ho hb' ho' d w : Nat}
    (hkey : Outside kb vb d m b o ks) (hk : Outside kb vb d m hb ho ks) (hv : Outside kb vb d m hb' ho' vs)
    (hdk : d ≠ kb) (hdv : d ≠ vb) (hw : w + vs ≤ (m.bytes d).length) :
    (∀ i, ∃ map' m', getValueInt (.search i) (writer (ptr hb ho) (ptr hb' ho')) map (ptr b o) (ptr d w) m =
        .ok ((entryPut n (mapEntries ks vs kb ko vb vo map m) (slice (m.bytes hb) ho ks) (slice (m.bytes hb') ho' vs)).1,
          (valueOf (mapEntries ks vs kb ko vb vo map m) (slice (m.bytes b) o ks)).isSome, map') m' ∧
      mapEntries ks vs kb ko vb vo map' m' =
        (entryPut n (mapEntries ks vs kb ko vb vo map m) (slice (m.bytes hb) ho ks) (slice (m.bytes hb') ho' vs)).2 ∧
      ((valueOf (mapEntries ks vs kb ko vb vo map m) (slice (m.bytes b) o ks)).isSome →
        valueOf (mapEntries ks vs kb ko vb vo map' m') (slice (m.bytes b) o ks) = some (slice (m'.bytes d) w vs))) ∧
    (∀ S old, valueOf (mapEntries ks vs kb ko vb vo map m) (slice (m.bytes b) o ks) = some old →
      ∃ map' m' new, getValueInt (.value S) (writer (ptr hb ho) (ptr hb' ho')) map (ptr b o) (ptr d w) m =
        .ok ((entryPut n (mapEntries ks vs kb ko vb vo map m) (slice (m.bytes hb) ho ks) (slice (m.bytes hb') ho' vs)).1,
          true, map') m' ∧
      mapEntries ks vs kb ko vb vo map' m' =
        (entryPut n (mapEntries ks vs kb ko vb vo map m) (slice (m.bytes hb) ho ks) (slice (m.bytes hb') ho' vs)).2 ∧
      valueOf (mapEntries ks vs kb ko vb vo map' m') (slice (m.bytes b) o ks) = some new ∧
      slice (m'.bytes d) w vs = mixed S old new) := by
  obtain ⟨c, Sh, V, inj, he⟩ := reach_start hr d
  rw [he]
  constructor
  · intro i
    obtain ⟨s, map1, m2, fk1, fv1, c1, H, Sh1, hs, ht, hsame, hc1, hinj, hfr⟩ := writer_table V Sh inj hk hv
    obtain ⟨g1, g2⟩ := get_search V Sh hkey hdk hdv hw i H Sh1 hsame
    by_cases hex : ∃ l, l < c ∧ (mapSlot ks vs kb ko vb vo m l).1 = slice (m.bytes b) o ks
    · obtain ⟨l, l1, l2, l3⟩ := first_of (fk := fun j => (mapSlot ks vs kb ko vb vo m j).1) hex
      obtain ⟨m', g3, g4, g5⟩ := g1 l l1 l2 l3
      refine ⟨map1, m', ?_, by rw [ht]; exact entries_view g4 Sh1, ?_⟩
      · rw [g3, hs, valueOf_first l1 l2 l3]; rfl
      · intro _
        rw [entries_view g4 Sh1, g5]
        exact valueOf_first (by omega) (by rw [hsame l l1]; exact l2) (fun x hx => by rw [hsame x (by omega)]; exact l3 x hx)
    · have hno : ∀ l, l < c → (mapSlot ks vs kb ko vb vo m l).1 ≠ slice (m.bytes b) o ks := fun l hl h => hex ⟨l, hl, h⟩
      refine ⟨map1, m2, ?_, by rw [ht]; exact entries_view H.2 Sh1, ?_⟩
      · rw [g2 hno, hs, valueOf_none hno]; rfl
      · intro h
        rw [valueOf_none hno] at h; simp at h
  · intro S old hold
    by_cases hex : ∃ l, l < c ∧ (mapSlot ks vs kb ko vb vo m l).1 = slice (m.bytes b) o ks
    · obtain ⟨l, l1, l2, l3⟩ := first_of (fk := fun j => (mapSlot ks vs kb ko vb vo m j).1) hex
      have hln : l < n := by have := Sh.size_le; omega
      obtain ⟨m1, V1, e1, hcont⟩ := get_value V Sh hkey hdk hdv hw l1 l2 l3 S (writer (ptr hb ho) (ptr hb' ho'))
      obtain ⟨s, map1, m2, fk1, fv1, c1, H, Sh1, hs, ht, hsame, hc1, hinj, hfr⟩ := writer_table V1 Sh inj hk hv
      obtain ⟨m', g3, g4, g5⟩ := hcont _ _ _ _ _ H
      rw [valueOf_first l1 l2 l3] at hold
      refine ⟨map1, m', fv1 l, by rw [g3, hs], by rw [ht]; exact entries_view g4 Sh1, ?_, ?_⟩
      · rw [entries_view g4 Sh1]
        exact valueOf_first (by omega) (by rw [hsame l l1]; exact l2) (fun x hx => by rw [hsame x (by omega)]; exact l3 x hx)
      · rw [g5, hfr d hdk hdv, e1, ← Option.some.inj hold]
        exact mixed_over _ _ _ _ (by rw [V.lenv hln, H.2.lenv hln])
          (by rw [V.lenv hln]; exact (slice_length _ _ _ hw).symm)
    · have hno : ∀ l, l < c → (mapSlot ks vs kb ko vb vo m l).1 ≠ slice (m.bytes b) o ks := fun l hl h => hex ⟨l, hl, h⟩
      rw [valueOf_none hno] at hold; simp at hold

/-- C111: an insertion by the interrupt handler during the update of a key: as if the handler had run first, except for
the same key in the copy, where the map ends with a value mixed out of the two. -/
theorem C111_insert_meets_update (hr : MapReach n ks vs kb ko vb vo cs map m) {b o b' o' hb ho hb' ho' : Nat}
    (hkey : Clear kb vb m b o ks) (hval : Clear kb vb m b' o' vs) (hk : Clear kb vb m hb ho ks)
    (hv : Clear kb vb m hb' ho' vs)
    {j : Nat} {old : Bytes} (hj : (mapEntries ks vs kb ko vb vo map m)[j]? = some (slice (m.bytes b) o ks, old)) :
    (∀ p, ((∃ i, p = .search i) ∨ ((∃ S, p = .value S) ∧ (slice (m.bytes hb) ho ks) ≠ (slice (m.bytes b) o ks))) →
      ∃ map' m', insertInt p (writer (ptr hb ho) (ptr hb' ho')) map (ptr b o) (ptr b' o') m =
          .ok ((entryPut n (mapEntries ks vs kb ko vb vo map m) (slice (m.bytes hb) ho ks) (slice (m.bytes hb') ho' vs)).1, true, map') m' ∧
        mapEntries ks vs kb ko vb vo map' m' =
          (entryPut n (entryPut n (mapEntries ks vs kb ko vb vo map m) (slice (m.bytes hb) ho ks) (slice (m.bytes hb') ho' vs)).2
            (slice (m.bytes b) o ks) (slice (m.bytes b') o' vs)).2) ∧
    (∀ S, (slice (m.bytes hb) ho ks) = (slice (m.bytes b) o ks) →
      ∃ map' m', insertInt (.value S) (writer (ptr hb ho) (ptr hb' ho')) map (ptr b o) (ptr b' o') m = .ok (true, true, map') m' ∧
        mapEntries ks vs kb ko vb vo map' m' = (mapEntries ks vs kb ko vb vo map m).set j (slice (m.bytes b) o ks, mixed S (slice (m.bytes hb') ho' vs) (slice (m.bytes b') o' vs))) := by
  obtain ⟨c, Sh, V, inj, he⟩ := reach_start hr kb
  rw [he] at hj ⊢
  have hjc : j < c := by
    have := (List.getElem?_eq_some_iff.1 hj).1
    rwa [table_length] at this
  rw [table_get hjc] at hj
  simp only [Option.some.injEq, Prod.mk.injEq] at hj
  obtain ⟨hjk, hjv⟩ := hj
  have hfirst : ∀ l, l < j → (mapSlot ks vs kb ko vb vo m l).1 ≠ slice (m.bytes b) o ks := by
    intro l hl h
    have := inj l j (by omega) hjc (by rw [h, hjk])
    omega
  have hjn : j < n := by have := Sh.size_le; omega
  constructor
  · rintro p (⟨i, rfl⟩ | ⟨⟨S, rfl⟩, hne⟩)
    · obtain ⟨s, map1, m2, fk1, fv1, c1, H, Sh1, hs, ht, hsame, hc1, hinj, hfr⟩ := writer_table V Sh inj hk hv
      obtain ⟨m', g1, -, g3⟩ := upd_search V Sh hkey hval i H Sh1 hsame hjc hjk hfirst
      refine ⟨map1, m', by rw [g1, hs], ?_⟩
      rw [ht, put_found (fk := fk1) (j := j) (by omega) (by rw [hsame j hjc]; exact hjk) hinj]
      exact entries_view g3 Sh1
    · obtain ⟨m1, V1, hcont⟩ := upd_value V Sh hkey hval hjc hjk hfirst S (writer (ptr hb ho) (ptr hb' ho'))
      have hmix : mixed (fun i => !S i) (slice (m.bytes b') o' vs) (mixed S (slice (m.bytes b') o' vs) (mapSlot ks vs kb ko vb vo m j).2) = slice (m.bytes b') o' vs :=
        mixed_rest _ _ _ (by rw [hval.len]; exact (V.lenv hjn).symm)
      rcases writer_view V1 Sh hk hv with ⟨l, m2, h1, h2, h3, h4, h5, h6⟩ | ⟨h1, h2, m2, h4, h5, h6⟩ | ⟨h1, h2, h3⟩
      · obtain ⟨m', g1, -, g3⟩ := hcont _ _ _ _ _ ⟨h4, h6⟩
        have hlj : j ≠ l := by
          rintro rfl
          exact hne (by rw [← h2, ← hjk])
        rw [put_found h1 h2 inj]
        refine ⟨map, m', g1, ?_⟩
        rw [put_found hjc hjk inj]
        rw [put_ne _ _ hlj, put_same, hmix] at g3
        refine (entries_view g3 Sh).trans (table_congr fun x hx => ⟨rfl, ?_⟩)
        simp only [put]
        split <;> [rfl; (split <;> rfl)]
      · obtain ⟨m', g1, -, g3⟩ := hcont _ _ _ _ _ ⟨h4, h6⟩
        rw [put_new h1 h2]
        refine ⟨grown map c, m', g1, ?_⟩
        rw [put_ne _ _ (show j ≠ c by omega), put_same, hmix] at g3
        have e : table (fun j => (mapSlot ks vs kb ko vb vo m j).1) (fun j => (mapSlot ks vs kb ko vb vo m j).2) c ++ [(slice (m.bytes hb) ho ks, slice (m.bytes hb') ho' vs)] =
            table (put (fun j => (mapSlot ks vs kb ko vb vo m j).1) c (slice (m.bytes hb) ho ks)) (put (fun j => (mapSlot ks vs kb ko vb vo m j).2) c (slice (m.bytes hb') ho' vs)) (c + 1) := by
          rw [table_succ, put_same, put_same, table_beyond _ _ (Nat.le_refl _) (Nat.le_refl _)]
        change _ = (entryPut n (table (fun j => (mapSlot ks vs kb ko vb vo m j).1) (fun j => (mapSlot ks vs kb ko vb vo m j).2) c ++ [(slice (m.bytes hb) ho ks, slice (m.bytes hb') ho' vs)]) _ _).2
        rw [e, put_found (j := j) (by omega) (by rw [put_ne _ _ (by omega)]; exact hjk) ?_]
        · refine (entries_view g3 (Sh.grow h2)).trans (table_congr fun x hx => ⟨rfl, ?_⟩)
          simp only [put]
          have : j ≠ c := by omega
          split <;> [rfl; (split <;> rfl)]
        · intro i l hi hl hil
          rcases Nat.lt_or_ge i c with hi' | hi' <;> rcases Nat.lt_or_ge l c with hl' | hl'
          · rw [put_ne _ _ (by omega), put_ne _ _ (by omega)] at hil
            exact inj i l hi' hl' hil
          · have : l = c := by omega
            subst this
            rw [put_ne _ _ (by omega), put_same] at hil
            exact absurd hil (h1 i hi')
          · have : i = c := by omega
            subst this
            rw [put_same, put_ne _ _ (by omega)] at hil
            exact absurd hil.symm (h1 l hl')
          · omega
      · obtain ⟨m', g1, -, g3⟩ := hcont _ _ _ _ _ ⟨h3, V1⟩
        rw [put_full h1 h2]
        refine ⟨map, m', g1, ?_⟩
        change _ = (entryPut n (table (fun j => (mapSlot ks vs kb ko vb vo m j).1) (fun j => (mapSlot ks vs kb ko vb vo m j).2) c) _ _).2
        rw [put_found hjc hjk inj]
        rw [put_put, put_same, hmix] at g3
        exact entries_view g3 Sh
  · intro S heq
    obtain ⟨m1, V1, hcont⟩ := upd_value V Sh hkey hval hjc hjk hfirst S (writer (ptr hb ho) (ptr hb' ho'))
    rcases writer_view V1 Sh hk hv with ⟨l, m2, h1, h2, h3, h4, h5, h6⟩ | ⟨h1, -⟩ | ⟨h1, -⟩
    · obtain ⟨m', g1, -, g3⟩ := hcont _ _ _ _ _ ⟨h4, h6⟩
      have hlj : l = j := inj l j h1 hjc (by rw [hjk, ← heq]; exact h2)
      subst hlj
      refine ⟨map, m', g1, ?_⟩
      rw [put_put, put_put, put_same, mixed_swap _ _ _ (by rw [hval.len, hv.len])] at g3
      rw [entries_view g3 Sh]
      change table _ _ c = _
      rw [table_putV]
      simp only [hjk]
    · exact absurd (by rw [heq]; exact hjk) (h1 j hjc)
    · exact absurd (by rw [heq]; exact hjk) (h1 j hjc)

/-- C111: the update of a key by the interrupt handler at any point of the insertion of another, new key: both are done. -/
theorem C111_update_meets_new_key (hr : MapReach n ks vs kb ko vb vo cs map m) {b o b' o' hb ho hb' ho' : Nat}
    (hkey : Clear kb vb m b o ks) (hval : Clear kb vb m b' o' vs) (hk : Clear kb vb m hb ho ks)
    (hv : Clear kb vb m hb' ho' vs)
    (hnew : ∀ e ∈ mapEntries ks vs kb ko vb vo map m, e.1 ≠ slice (m.bytes b) o ks) (hroom : (mapEntries ks vs kb ko vb vo map m).length < n)
    {j : Nat} {old : Bytes} (hj : (mapEntries ks vs kb ko vb vo map m)[j]? = some (slice (m.bytes hb) ho ks, old)) (p : Point) :
    ∃ map' m', insertInt p (writer (ptr hb ho) (ptr hb' ho')) map (ptr b o) (ptr b' o') m = .ok (true, true, map') m' ∧
      mapEntries ks vs kb ko vb vo map' m' = (mapEntries ks vs kb ko vb vo map m).set j (slice (m.bytes hb) ho ks, slice (m.bytes hb') ho' vs) ++ [(slice (m.bytes b) o ks, slice (m.bytes b') o' vs)] := by
  obtain ⟨c, Sh, V, inj, he⟩ := reach_start hr kb
  rw [he, table_length] at hroom
  have hno : ∀ l, l < c → (mapSlot ks vs kb ko vb vo m l).1 ≠ slice (m.bytes b) o ks := by
    intro l hl
    exact hnew (_, _) (by rw [he]; exact List.mem_of_getElem? (table_get hl))
  rw [he] at hj ⊢
  have hjc : j < c := by
    have := (List.getElem?_eq_some_iff.1 hj).1
    rwa [table_length] at this
  rw [table_get hjc] at hj
  simp only [Option.some.injEq, Prod.mk.injEq] at hj
  obtain ⟨hjk, -⟩ := hj
  have Shg := Sh.grow hroom
  have hfin : ∀ {m' : Mem} {fk fv : Nat → Bytes}, View n ks vs kb ko vb vo kb m m' fk fv →
      (∀ l, l < c → fk l = (mapSlot ks vs kb ko vb vo m l).1) →
      (∀ l, l < c → fv l = put (fun j => (mapSlot ks vs kb ko vb vo m j).2) j (slice (m.bytes hb') ho' vs) l) →
      fk c = slice (m.bytes b) o ks → fv c = slice (m.bytes b') o' vs →
      mapEntries ks vs kb ko vb vo (grown map c) m' = (table (fun j => (mapSlot ks vs kb ko vb vo m j).1) (fun j => (mapSlot ks vs kb ko vb vo m j).2) c).set j (slice (m.bytes hb) ho ks, slice (m.bytes hb') ho' vs) ++
        [(slice (m.bytes b) o ks, slice (m.bytes b') o' vs)] := by
    intro m' fk fv V' h1 h2 h3 h4
    rw [entries_view V' Shg]
    change table fk fv (c + 1) = _
    rw [table_succ, h3, h4, table_congr (fk := (fun j => (mapSlot ks vs kb ko vb vo m j).1)) (fv := put (fun j => (mapSlot ks vs kb ko vb vo m j).2) j (slice (m.bytes hb') ho' vs)) (fun l hl => ⟨h1 l hl, h2 l hl⟩), table_putV]
    simp only [hjk]
  have hw : ∀ {m1 : Mem} {fk fv : Nat → Bytes}, View n ks vs kb ko vb vo kb m m1 fk fv →
      (∀ l, l < c → fk l = (mapSlot ks vs kb ko vb vo m l).1) →
      ∃ m2, Handled n ks vs kb ko vb vo kb m m1 m2 (writer (ptr hb ho) (ptr hb' ho')) map true map fk (put fv j (slice (m.bytes hb') ho' vs)) := by
    intro m1 fk fv V1 hfk
    rcases writer_view V1 Sh hk hv with ⟨l, m2, h1, h2, h3, h4, h5, h6⟩ | ⟨h1, -⟩ | ⟨h1, -⟩
    · have : l = j := inj l j h1 hjc (by rw [hjk, ← hfk l h1]; exact h2)
      subst this
      exact ⟨m2, h4, h6⟩
    · exact absurd (by rw [hfk j hjc]; exact hjk) (h1 j hjc)
    · exact absurd (by rw [hfk j hjc]; exact hjk) (h1 j hjc)
  have hjne : c ≠ j := by omega
  cases p with
  | search k =>
    obtain ⟨m2, H⟩ := hw V (fun _ _ => rfl)
    obtain ⟨m', g1, -, g3⟩ := (ins_search V Sh hkey hval k H Sh (fun _ _ => rfl) hno).1 hroom
    exact ⟨_, m', g1, hfin g3 (fun l hl => put_ne _ _ (by omega)) (fun l hl => put_ne _ _ (by omega)) (put_same _ _ _)
      (put_same _ _ _)⟩
  | room =>
    obtain ⟨m2, H⟩ := hw V (fun _ _ => rfl)
    obtain ⟨m', g1, -, g3⟩ := ins_room V Sh hroom hkey hval H Sh hno hroom
    exact ⟨_, m', g1, hfin g3 (fun l hl => put_ne _ _ (by omega)) (fun l hl => put_ne _ _ (by omega)) (put_same _ _ _)
      (put_same _ _ _)⟩
  | key S =>
    obtain ⟨m1, V1, hcont⟩ := ins_key V Sh hroom hkey hval hno S (writer (ptr hb ho) (ptr hb' ho'))
    obtain ⟨m2, H⟩ := hw V1 (fun l hl => put_ne _ _ (by omega))
    obtain ⟨m', g1, -, g3⟩ := hcont _ _ _ _ _ c H Sh hroom
    refine ⟨_, m', g1, hfin g3 ?_ (fun l hl => put_ne _ _ (by omega)) ?_ (put_same _ _ _)⟩
    · intro l hl
      rw [put_ne _ _ (by omega), put_ne _ _ (by omega)]
    · rw [put_same, put_same]
      exact mixed_rest _ _ _ (by rw [hkey.len]; exact (V.lenk hroom).symm)
  | value S =>
    obtain ⟨m1, V1, hcont⟩ := ins_value V Sh hroom hkey hval hno S (writer (ptr hb ho) (ptr hb' ho'))
    obtain ⟨m2, H⟩ := hw V1 (fun l hl => put_ne _ _ (by omega))
    obtain ⟨m', g1, -, g3⟩ := hcont _ _ _ _ _ c H Sh
    rw [if_pos hroom] at g1
    refine ⟨_, m', g1, hfin g3 (fun l hl => put_ne _ _ (by omega)) ?_ (put_same _ _ _) ?_⟩
    · intro l hl
      rw [put_ne _ _ (by omega)]
      simp only [put]
      split <;> [rfl; (split <;> [omega; rfl])]
    · rw [put_same, put_ne _ _ hjne, put_same]
      exact mixed_rest _ _ _ (by rw [hval.len]; exact (V.lenv hroom).symm)
  | load =>
    obtain ⟨m1, V1, hcont⟩ := ins_load V Sh hroom hkey hval hno (writer (ptr hb ho) (ptr hb' ho'))
    obtain ⟨m2, H⟩ := hw V1 (fun l hl => put_ne _ _ (by omega))
    refine ⟨_, m2, hcont _ _ _ H.1, hfin H.2 (fun l hl => put_ne _ _ (by omega)) ?_ (put_same _ _ _) ?_⟩
    · intro l hl
      simp only [put]
      split <;> [rfl; (split <;> [omega; rfl])]
    · rw [put_ne _ _ hjne, put_same]

/-- C111: the insertion of a new key by the interrupt handler in the insertion of a new key, with room for both.  If the
handler runs before the first copy both entries are there, twice the same key if the keys are equal.  In the copy of the
key a key mixed out of the two gets the handler's value, and the value gets whatever key is left in the next place.  In
the copy of the value the handler's key gets a mixed value, and the contents of the next place count as an entry.  In
the increment the own entry is lost.  Both calls succeed each time. -/
theorem C111_two_new_keys (hr : MapReach n ks vs kb ko vb vo cs map m) {b o b' o' hb ho hb' ho' : Nat}
    (hkey : Clear kb vb m b o ks) (hval : Clear kb vb m b' o' vs) (hk : Clear kb vb m hb ho ks)
    (hv : Clear kb vb m hb' ho' vs)
    (hnew : ∀ e ∈ mapEntries ks vs kb ko vb vo map m, e.1 ≠ slice (m.bytes b) o ks)
    (hnew' : ∀ e ∈ mapEntries ks vs kb ko vb vo map m, e.1 ≠ slice (m.bytes hb) ho ks)
    {c : Nat} (hc : c = (mapEntries ks vs kb ko vb vo map m).length) (hroom : c + 1 < n) (p : Point) :
    ∃ map' m', insertInt p (writer (ptr hb ho) (ptr hb' ho')) map (ptr b o) (ptr b' o') m = .ok (true, true, map') m' ∧
      mapEntries ks vs kb ko vb vo map' m' = mapEntries ks vs kb ko vb vo map m ++
        match p with
        | .search _ => [(slice (m.bytes hb) ho ks, slice (m.bytes hb') ho' vs), (slice (m.bytes b) o ks, slice (m.bytes b') o' vs)]
        | .room => [(slice (m.bytes hb) ho ks, slice (m.bytes hb') ho' vs), (slice (m.bytes b) o ks, slice (m.bytes b') o' vs)]
        | .key S => [(mixed S (slice (m.bytes hb) ho ks) (slice (m.bytes b) o ks), slice (m.bytes hb') ho' vs), ((mapSlot ks vs kb ko vb vo m (c + 1)).1, slice (m.bytes b') o' vs)]
        | .value S => [(slice (m.bytes hb) ho ks, mixed S (slice (m.bytes hb') ho' vs) (slice (m.bytes b') o' vs)), mapSlot ks vs kb ko vb vo m (c + 1)]
        | .load => [(slice (m.bytes hb) ho ks, slice (m.bytes hb') ho' vs)] := by
  obtain ⟨c', Sh, V, inj, he⟩ := reach_start hr kb
  rw [he, table_length] at hc
  subst hc
  have hno : ∀ l, l < c → (mapSlot ks vs kb ko vb vo m l).1 ≠ slice (m.bytes b) o ks := by
    intro l hl
    exact hnew (_, _) (by rw [he]; exact List.mem_of_getElem? (table_get hl))
  have hno' : ∀ l, l < c → (mapSlot ks vs kb ko vb vo m l).1 ≠ slice (m.bytes hb) ho ks := by
    intro l hl
    exact hnew' (_, _) (by rw [he]; exact List.mem_of_getElem? (table_get hl))
  rw [he]
  have hcn : c < n := by omega
  have Sh1 := Sh.grow hcn
  have Sh2 := Sh1.grow hroom
  have hw : ∀ {m1 : Mem} {fk fv : Nat → Bytes}, View n ks vs kb ko vb vo kb m m1 fk fv →
      (∀ l, l < c → fk l = (mapSlot ks vs kb ko vb vo m l).1) →
      ∃ m2, Handled n ks vs kb ko vb vo kb m m1 m2 (writer (ptr hb ho) (ptr hb' ho')) map true (grown map c) (put fk c (slice (m.bytes hb) ho ks)) (put fv c (slice (m.bytes hb') ho' vs)) := by
    intro m1 fk fv V1 hfk
    rcases writer_view V1 Sh hk hv with ⟨l, m2, h1, h2, h3, h4, h5, h6⟩ | ⟨h1, h2, m2, h4, h5, h6⟩ | ⟨h1, h2, -⟩
    · exact absurd (by rw [← hfk l h1]; exact h2) (hno' l h1)
    · exact ⟨m2, h4, h6⟩
    · omega
  have hfin : ∀ {m' : Mem} {fk fv : Nat → Bytes}, View n ks vs kb ko vb vo kb m m' fk fv →
      (∀ l, l < c → fk l = (mapSlot ks vs kb ko vb vo m l).1) → (∀ l, l < c → fv l = (mapSlot ks vs kb ko vb vo m l).2) →
      mapEntries ks vs kb ko vb vo (grown (grown map c) (c + 1)) m' =
        table (fun j => (mapSlot ks vs kb ko vb vo m j).1) (fun j => (mapSlot ks vs kb ko vb vo m j).2) c ++ [(fk c, fv c), (fk (c + 1), fv (c + 1))] := by
    intro m' fk fv V' h1 h2
    rw [entries_view V' Sh2]
    change table fk fv (c + 1 + 1) = _
    rw [table_succ, table_succ, table_congr (fun l hl => ⟨h1 l hl, h2 l hl⟩), List.append_assoc]
    rfl
  cases p with
  | search k =>
    obtain ⟨m2, H⟩ := hw V (fun _ _ => rfl)
    obtain ⟨m', g1, -, g3⟩ := (ins_search V Sh hkey hval k H Sh1 (fun l hl => put_ne _ _ (by omega)) hno).1 hroom
    refine ⟨_, m', g1, (hfin g3 ?_ ?_).trans ?_⟩
    · intro l hl; rw [put_ne _ _ (by omega), put_ne _ _ (by omega)]
    · intro l hl; rw [put_ne _ _ (by omega), put_ne _ _ (by omega)]
    · simp [put]
  | room =>
    obtain ⟨m2, H⟩ := hw V (fun _ _ => rfl)
    obtain ⟨m', g1, -, g3⟩ := ins_room V Sh hcn hkey hval H Sh1 hno hroom
    refine ⟨_, m', g1, (hfin g3 ?_ ?_).trans ?_⟩
    · intro l hl; rw [put_ne _ _ (by omega), put_ne _ _ (by omega)]
    · intro l hl; rw [put_ne _ _ (by omega), put_ne _ _ (by omega)]
    · simp [put]
  | key S =>
    obtain ⟨m1, V1, hcont⟩ := ins_key V Sh hcn hkey hval hno S (writer (ptr hb ho) (ptr hb' ho'))
    obtain ⟨m2, H⟩ := hw V1 (fun l hl => put_ne _ _ (by omega))
    obtain ⟨m', g1, -, g3⟩ := hcont _ _ _ _ _ (c + 1) H Sh1 hroom
    refine ⟨_, m', g1, (hfin g3 ?_ ?_).trans ?_⟩
    · intro l hl; rw [put_ne _ _ (by omega), put_ne _ _ (by omega), put_ne _ _ (by omega)]
    · intro l hl; rw [put_ne _ _ (by omega), put_ne _ _ (by omega)]
    · rw [put_same, put_same, put_same, mixed_swap _ _ _ (by rw [hkey.len, hk.len]), put_ne _ _ (show c ≠ c + 1 by omega),
        put_same, put_ne _ _ (show c + 1 ≠ c by omega), put_ne _ _ (show c + 1 ≠ c by omega), put_ne _ _ (show c + 1 ≠ c by omega)]
  | value S =>
    obtain ⟨m1, V1, hcont⟩ := ins_value V Sh hcn hkey hval hno S (writer (ptr hb ho) (ptr hb' ho'))
    obtain ⟨m2, H⟩ := hw V1 (fun l hl => put_ne _ _ (by omega))
    obtain ⟨m', g1, -, g3⟩ := hcont _ _ _ _ _ (c + 1) H Sh1
    rw [if_pos hroom] at g1
    refine ⟨_, m', g1, (hfin g3 ?_ ?_).trans ?_⟩
    · intro l hl; rw [put_ne _ _ (by omega), put_ne _ _ (by omega)]
    · intro l hl; rw [put_ne _ _ (by omega), put_ne _ _ (by omega), put_ne _ _ (by omega)]
    · simp only [put_same]
      rw [mixed_swap _ _ _ (by rw [hval.len, hv.len]), put_ne _ _ (show c + 1 ≠ c by omega), put_ne _ _ (show c + 1 ≠ c by omega),
        put_ne _ _ (show c + 1 ≠ c by omega), put_ne _ _ (show c + 1 ≠ c by omega), put_ne _ _ (show c + 1 ≠ c by omega)]
  | load =>
    obtain ⟨m1, V1, hcont⟩ := ins_load V Sh hcn hkey hval hno (writer (ptr hb ho) (ptr hb' ho'))
    obtain ⟨m2, H⟩ := hw V1 (fun l hl => put_ne _ _ (by omega))
    refine ⟨_, m2, hcont _ _ _ H.1, ?_⟩
    have e : grown (grown map c) c = grown map c := rfl
    rw [e, entries_view H.2 Sh1]
    change table _ _ (c + 1) = _
    rw [table_succ, put_same, put_same]
    congr 1
    refine table_congr fun l hl => ⟨?_, ?_⟩
    · rw [put_ne _ _ (by omega), put_ne _ _ (by omega)]
    · rw [put_ne _ _ (by omega), put_ne _ _ (by omega)]

/-- C111: the insertion of a new key by the interrupt handler in the insertion of a new key when there is one place
left.  In the search: the handler takes it and the own call is refused.  After the check for room: the own call writes
behind the end of the keys; in the copy of the key: behind the end of the values (undefined behaviour if the arrays end
there).  In the copy of the value the own call counts one entry more than there are places. -/
theorem C111_last_place (hr : MapReach n ks vs kb ko vb vo cs map m) {b o b' o' hb ho hb' ho' : Nat}
    (hkey : Clear kb vb m b o ks) (hval : Clear kb vb m b' o' vs) (hk : Clear kb vb m hb ho ks)
    (hv : Clear kb vb m hb' ho' vs)
    (hnew : ∀ e ∈ mapEntries ks vs kb ko vb vo map m, e.1 ≠ slice (m.bytes b) o ks)
    (hnew' : ∀ e ∈ mapEntries ks vs kb ko vb vo map m, e.1 ≠ slice (m.bytes hb) ho ks)
    (hlast : (mapEntries ks vs kb ko vb vo map m).length + 1 = n) :
    (∀ i, ∃ map' m', insertInt (.search i) (writer (ptr hb ho) (ptr hb' ho')) map (ptr b o) (ptr b' o') m = .ok (true, false, map') m' ∧
      mapEntries ks vs kb ko vb vo map' m' = (mapEntries ks vs kb ko vb vo map m) ++ [(slice (m.bytes hb) ho ks, slice (m.bytes hb') ho' vs)]) ∧
    ((m.bytes kb).length = ko + n * ks → n * ks < 2 ^ 31 →
      insertInt .room (writer (ptr hb ho) (ptr hb' ho')) map (ptr b o) (ptr b' o') m = .ub .oobWrite) ∧
    ((m.bytes vb).length = vo + n * vs → n * vs < 2 ^ 31 →
      ∀ S, insertInt (.key S) (writer (ptr hb ho) (ptr hb' ho')) map (ptr b o) (ptr b' o') m = .ub .oobWrite) ∧
    (n + 1 < 2 ^ 31 → ∀ S, ∃ map' m', insertInt (.value S) (writer (ptr hb ho) (ptr hb' ho')) map (ptr b o) (ptr b' o') m = .ok (true, true, map') m' ∧
      map'.current_size = map'.max_map_size + 1 ∧
      ((m.bytes kb).length = ko + n * ks → n * ks < 2 ^ 31 → ∀ kp value, kp ≠ kb → kp ≠ vb →
        ∀ x, x + ks ≤ (m.bytes kp).length → slice (m.bytes kp) x ks ≠ slice (m.bytes hb) ho ks →
          (∀ e ∈ mapEntries ks vs kb ko vb vo map m, e.1 ≠ slice (m.bytes kp) x ks) →
          getValue (some map') (ptr kp x) value m' = .ub .oobRead)) := by
  obtain ⟨c, Sh, V, inj, he⟩ := reach_start hr kb
  rw [he, table_length] at hlast
  have hno : ∀ l, l < c → (mapSlot ks vs kb ko vb vo m l).1 ≠ slice (m.bytes b) o ks := by
    intro l hl
    exact hnew (_, _) (by rw [he]; exact List.mem_of_getElem? (table_get hl))
  have hno' : ∀ l, l < c → (mapSlot ks vs kb ko vb vo m l).1 ≠ slice (m.bytes hb) ho ks := by
    intro l hl
    exact hnew' (_, _) (by rw [he]; exact List.mem_of_getElem? (table_get hl))
  rw [he]
  have hcn : c < n := by omega
  have Sh1 := Sh.grow hcn
  have hw : ∀ {m1 : Mem} {fk fv : Nat → Bytes}, View n ks vs kb ko vb vo kb m m1 fk fv →
      (∀ l, l < c → fk l = (mapSlot ks vs kb ko vb vo m l).1) →
      ∃ m2, Handled n ks vs kb ko vb vo kb m m1 m2 (writer (ptr hb ho) (ptr hb' ho')) map true (grown map c) (put fk c (slice (m.bytes hb) ho ks)) (put fv c (slice (m.bytes hb') ho' vs)) := by
    intro m1 fk fv V1 hfk
    rcases writer_view V1 Sh hk hv with ⟨l, m2, h1, h2, h3, h4, h5, h6⟩ | ⟨h1, h2, m2, h4, h5, h6⟩ | ⟨h1, h2, -⟩
    · exact absurd (by rw [← hfk l h1]; exact h2) (hno' l h1)
    · exact ⟨m2, h4, h6⟩
    · omega
  refine ⟨?_, ?_, ?_, ?_⟩
  · intro i
    obtain ⟨m2, H⟩ := hw V (fun _ _ => rfl)
    refine ⟨_, m2, (ins_search V Sh hkey hval i H Sh1 (fun l hl => put_ne _ _ (by omega)) hno).2 hlast, ?_⟩
    rw [entries_view H.2 Sh1]
    change table _ _ (c + 1) = _
    rw [table_succ, put_same, put_same, table_beyond _ _ (Nat.le_refl _) (Nat.le_refl _)]
  · intro hend hfit
    obtain ⟨m2, H⟩ := hw V (fun _ _ => rfl)
    exact ins_room_over V Sh hcn hkey H (hlast ▸ Sh1) hno hend hfit _
  · intro hend hfit S
    obtain ⟨m1, V1, hcont⟩ := ins_key_over V Sh hcn hkey hval hno S (writer (ptr hb ho) (ptr hb' ho')) hend hfit
    obtain ⟨m2, H⟩ := hw V1 (fun l hl => put_ne _ _ (by omega))
    exact hcont _ _ _ _ _ H (hlast ▸ Sh1)
  · intro hn S
    obtain ⟨m1, V1, hcont⟩ := ins_value V Sh hcn hkey hval hno S (writer (ptr hb ho) (ptr hb' ho'))
    obtain ⟨m2, H⟩ := hw V1 (fun l hl => put_ne _ _ (by omega))
    obtain ⟨m', g1, -, g3⟩ := hcont _ _ _ _ _ (c + 1) H Sh1
    rw [if_neg (by omega), C.bind_ok (IMU.Map.i32_ok (by omega) m')] at g1
    refine ⟨_, m', g1, ?_, ?_⟩
    · change (n : Int) + 1 = (grown map c).max_map_size + 1
      rw [Sh1.hmx]
    · intro hend hfit kp value hkk hkv x hx hne habs
      have hover := loop_over (map := { grown map c with current_size := (n : Int) + 1 }) (b := kp) (o := x) g3 Sh1.hk Sh1.hks
        Sh1.ks_pos Sh1.ks_lt ⟨hkk, hkv, hkk, hx⟩ hend hfit (by
          intro l hl
          rcases Nat.lt_or_ge l c with hl' | hl'
          · rw [put_ne _ _ (by omega), put_ne _ _ (by omega)]
            exact habs (_, _) (List.mem_of_getElem? (table_get hl'))
          · have : l = c := by omega
            subst this
            rw [put_same]
            exact Ne.symm hne) n 0 (by omega)
      unfold getValue
      refine C.bind_ub ?_
      have e : ((n : Int) + 1).toNat = n + 1 := by omega
      simp only [getIndex]
      rw [e]
      exact hover

end

/-- Arrays for `n` keys and values of two bytes in the objects 0 and 1; object 2 has the pairs of the callers, object 4
is for a value looked up. -/
def intMapMem (n : Nat) : Mem :=
  ⟨fun b => if b = 0 then List.replicate (2 * n) 0xEE else if b = 1 then List.replicate (2 * n) 0xDD
    else if b = 2 then [1, 1, 10, 10, 2, 2, 20, 20, 3, 3, 30, 30, 1, 1, 40, 40] else if b = 4 then [0, 0] else [], fun _ => []⟩

/-- The map after one insertion of the key 1. -/
def intMapCall (n : Nat) : MapCall := ⟨.ins, intMapMem n, 2, 0, 2, 2⟩
def intMap (n : Nat) : MapT := ⟨ptr 0 0, ptr 1 0, 2, 2, n, 1⟩
def intMapAt (n : Nat) : Mem :=
  ((intMapMem n).upd 0 (splice (List.replicate (2 * n) 0xEE) 0 [1, 1])).upd 1 (splice (List.replicate (2 * n) 0xDD) 0 [10, 10])

/-- What is in the map after two calls with these statuses, and what was looked up. -/
def intMapOut (a b : Bool) : Res (Bool × Bool × MapT) → Option (List (Bytes × Bytes) × Bytes)
  | .ok (x, y, map) m => if x = a ∧ y = b then some (mapEntries 2 2 0 0 1 0 map m, m.bytes 4) else none
  | _ => none

/-- A map of four places with one entry, and one of two places with arrays just as long, are reached by one call, with
the callers' objects as the theorems above want them. -/
example (n : Nat) (hn : n = 2 ∨ n = 4) : ∃ map m, MapReach n 2 2 0 0 1 0 [intMapCall n] map m ∧
    mapEntries 2 2 0 0 1 0 map m = [([1, 1], [10, 10])] ∧ ∀ b, b < 5 → m.bytes b = (intMapAt n).bytes b := by
  have h : ((mapExecAll 0 1 2 ⟨ptr 0 0, ptr 1 0, 2, 2, n, 0⟩ (intMapMem n) [intMapCall n]).toOption.map
      fun r => (mapEntries 2 2 0 0 1 0 r.2.1 r.2.2, (List.range 5).map r.2.2.bytes)) =
      some ([([1, 1], [10, 10])], (List.range 5).map (intMapAt n).bytes) := by
    rcases hn with rfl | rfl <;> decide +kernel
  cases hx : mapExecAll 0 1 2 ⟨ptr 0 0, ptr 1 0, 2, 2, n, 0⟩ (intMapMem n) [intMapCall n] with
  | error e => rw [hx] at h; simp [Except.toOption] at h
  | ok r =>
    obtain ⟨os, map1, m1⟩ := r
    rw [hx] at h
    simp only [Except.toOption, Option.map_some, Option.some.injEq, Prod.mk.injEq] at h
    refine ⟨map1, m1, ⟨?_, exMap0, _, intMapMem n, intMapMem n, os, ?_, ?_, hx⟩, h.1, ?_⟩
    · intro c hc
      simp only [List.mem_cons, List.not_mem_nil, or_false] at hc
      subst hc
      rcases hn with rfl | rfl <;> constructor <;> decide
    · rcases hn with rfl | rfl <;> constructor <;> decide
    · rcases hn with rfl | rfl <;> rfl
    · intro b hb
      have := congrArg (·[b]?) h.2
      simpa [hb] using this

example : Outside 0 1 4 (intMapAt 4) 2 4 2 ∧ Outside 0 1 4 (intMapAt 4) 2 6 2 ∧ Clear 0 1 (intMapAt 2) 2 4 2 ∧
    Clear 0 1 (intMapAt 2) 2 8 2 ∧ ((intMapAt 2).bytes 0).length = 0 + 2 * 2 ∧ ((intMapAt 2).bytes 1).length = 0 + 2 * 2 := by
  refine ⟨?_, ?_, ?_, ?_, by decide, by decide⟩ <;> constructor <;> decide

/-- One byte copied: the key 1 is looked up while its value goes from 10 to 40. -/
example : intMapOut true true (insertInt (.value (· == 0)) (reader (ptr 2 0) (ptr 4 0)) (intMap 4) (ptr 2 12) (ptr 2 14)
    (intMapAt 4)) = some ([([1, 1], [40, 40])], [40, 10]) := by decide +kernel
/-- The key 2 is not found until its entry is complete. -/
example : intMapOut false true (insertInt .load (reader (ptr 2 4) (ptr 4 0)) (intMap 4) (ptr 2 4) (ptr 2 6)
    (intMapAt 4)) = some ([([1, 1], [10, 10]), ([2, 2], [20, 20])], [0, 0]) := by decide +kernel
/-- The lookup gets half of the old value. -/
example : intMapOut true true (getValueInt (.value (· == 0)) (writer (ptr 2 12) (ptr 2 14)) (intMap 4) (ptr 2 0) (ptr 4 0)
    (intMapAt 4)) = some ([([1, 1], [40, 40])], [10, 40]) := by decide +kernel
/-- The same key twice. -/
example : intMapOut true true (insertInt (.search 1) (writer (ptr 2 4) (ptr 2 10)) (intMap 4) (ptr 2 4) (ptr 2 6)
    (intMapAt 4)) = some ([([1, 1], [10, 10]), ([2, 2], [30, 30]), ([2, 2], [20, 20])], [0, 0]) := by decide +kernel
/-- Neither key is found afterwards. -/
example : intMapOut true true (insertInt (.key (· == 0)) (writer (ptr 2 8) (ptr 2 10)) (intMap 4) (ptr 2 4) (ptr 2 6)
    (intMapAt 4)) = some ([([1, 1], [10, 10]), ([3, 2], [30, 30]), ([0xEE, 0xEE], [20, 20])], [0, 0]) := by decide +kernel
example : intMapOut true true (insertInt (.value (· == 0)) (writer (ptr 2 8) (ptr 2 10)) (intMap 4) (ptr 2 4) (ptr 2 6)
    (intMapAt 4)) = some ([([1, 1], [10, 10]), ([3, 3], [30, 20]), ([0xEE, 0xEE], [0xDD, 0xDD])], [0, 0]) := by decide +kernel
/-- The key 2 is lost. -/
example : intMapOut true true (insertInt .load (writer (ptr 2 8) (ptr 2 10)) (intMap 4) (ptr 2 4) (ptr 2 6)
    (intMapAt 4)) = some ([([1, 1], [10, 10]), ([3, 3], [30, 30])], [0, 0]) := by decide +kernel
/-- One place left. -/
example : intMapOut true false (insertInt (.search 0) (writer (ptr 2 8) (ptr 2 10)) (intMap 2) (ptr 2 4) (ptr 2 6)
    (intMapAt 2)) = some ([([1, 1], [10, 10]), ([3, 3], [30, 30])], [0, 0]) := by decide +kernel
example : (match insertInt .room (writer (ptr 2 8) (ptr 2 10)) (intMap 2) (ptr 2 4) (ptr 2 6) (intMapAt 2) with
    | .ub e => some e
    | .ok _ _ => none) = some .oobWrite := by decide +kernel

end IMU.Props
