import Verif.Proofs.PriorityQueue

/-! # Priority queue histories simulate the ideal priority queue -/

namespace IMU.Props
open Spec Utils IMU.PQ

theorem pq_step {cap esz bb bo pa : Nat} {q : PQueue} {m : Mem} {xs : List PItem}
    (h : Rep cap esz bb bo pa q m xs) (c : PQCall) (hv : c.Valid bb esz) :
    ∃ o q' m' out xs', c.exec bb pa esz q m = some (o, q', m') ∧ PQStep cap xs (c.op esz) o out xs' ∧
      Rep cap esz bb bo pa q' m' xs' ∧ c.Frame bb bo pa cap esz (c.mem bb pa m) m' := by
  have hm : (c.mem bb pa m).bytes bb = m.bytes bb := by simp [PQCall.mem]
  have hmw : (c.mem bb pa m).words pa = m.words pa := by simp [PQCall.mem]
  have hr : Rep cap esz bb bo pa q (c.mem bb pa m) xs := h.of_eq hm hmw
  have hwb : (c.mem bb pa m).bytes c.blk = c.w.bytes c.blk := by simp [PQCall.mem, hv.1]
  have hve : c.off + esz ≤ ((c.mem bb pa m).bytes c.blk).length := by rw [hwb]; exact hv.2
  obtain ⟨kind, w, blk, off⟩ := c
  cases kind with
  | enq p =>
    obtain ⟨r, q', m', out, xs', h1, h2, h3, h4⟩ := enqueue_ok hr p blk off hv.1 hve
    rw [hwb] at h2
    exact ⟨(r, none), q', m', out, xs', by simp only [PQCall.exec, h1], h2, h3, h4⟩
  | deq =>
    obtain ⟨r, q', m', out, xs', h1, h2, h3, h4⟩ := dequeue_ok hr blk off hv.1 hve
    exact ⟨_, q', m', out, xs', by simp only [PQCall.exec, h1], h2, h3, h4⟩
  | empty =>
    refine ⟨(decide (xs = []), none), q, _, [], xs, ?_, .empty, hr, rfl⟩
    simp only [PQCall.exec, h.empty_iff]

theorem pq_all {cap esz bb bo pa : Nat} (cs : List PQCall) : ∀ {q : PQueue} {m : Mem} {xs : List PItem},
    Rep cap esz bb bo pa q m xs → (∀ c ∈ cs, c.Valid bb esz) →
    ∃ os q' m' out xs', pqExecAll bb pa esz q m cs = some (os, q', m') ∧
      PQRun cap xs (cs.map (·.op esz)) os out xs' ∧ Rep cap esz bb bo pa q' m' xs' := by
  induction cs with
  | nil => intro q m xs h _; exact ⟨[], q, m, [], xs, rfl, .nil, h⟩
  | cons c cs ih =>
    intro q m xs h hv
    obtain ⟨o, q', m', out, xs', h1, h2, h3, _⟩ := pq_step h c (hv c List.mem_cons_self)
    obtain ⟨os, q'', m'', outs, xs'', h4, h5, h6⟩ := ih h3 (fun c hc => hv c (List.mem_cons_of_mem _ hc))
    exact ⟨o :: os, q'', m'', out ++ outs, xs'', by simp [pqExecAll, h1, h4], .cons h2 h5, h6⟩

/-- The items physically stored are the represented ones. -/
theorem stored_eq {cap esz bb bo pa : Nat} {q : PQueue} {m : Mem} {xs : List PItem}
    (h : Rep cap esz bb bo pa q m xs) : stored q m bb bo pa esz = xs := by
  apply List.ext_getElem?; intro k
  unfold stored
  rw [List.getElem?_map, h.size_eq]
  by_cases hk : k < xs.length
  · have hg := List.getElem?_eq_getElem hk
    rw [List.getElem?_range hk, Option.map_some, h.prio k _ hg, h.content k _ hg, hg]; rfl
  · rw [List.getElem?_eq_none (by simpa using hk), List.getElem?_eq_none (by omega)]; rfl

theorem pq_init {q0 q : PQueue} {cap es : U32} {bb bo pa : Nat} {m : Mem}
    (hi : init (some q0) cap es (some ⟨pa, ptr bb bo⟩) = (true, some q))
    (hlim : (cap.toNat - 1) * es.toNat < 2 ^ 32)
    (hbuf : bo + cap.toNat * es.toNat ≤ (m.bytes bb).length) (hpa : cap.toNat ≤ (m.words pa).length) :
    Rep cap.toNat es.toNat bb bo pa q m [] := by
  unfold init at hi
  simp only at hi
  split at hi
  · rename_i hc
    simp only [Prod.mk.injEq, Option.some.injEq, true_and] at hi
    subst hi
    have h1 : cap.toNat ≠ 0 := fun h => hc.1 (BitVec.eq_of_toNat_eq (by simpa using h))
    have h2 : es.toNat ≠ 0 := fun h => hc.2 (BitVec.eq_of_toNat_eq (by simpa using h))
    exact { hcap := rfl, cap_pos := by omega, hes := rfl, esz_pos := by omega, lim := hlim, hbuf := rfl,
            hpa := rfl, hlen := hbuf, hwlen := hpa, size_eq := rfl, size_le := by simp, prio := by simp,
            content := by simp }
  · simp at hi

/-- The ideal operation is a function of state and operation. -/
theorem split_unique {lt : PItem → PItem → Prop} (hirr : ∀ a b, lt a b → ¬ lt b a)
    {pre pre' post post' : List PItem} {x x' : PItem} (h : pre ++ x :: post = pre' ++ x' :: post')
    (h1 : ∀ y ∈ pre, lt x y) (h2 : ∀ y ∈ post, ¬ lt y x)
    (h1' : ∀ y ∈ pre', lt x' y) (h2' : ∀ y ∈ post', ¬ lt y x') : pre = pre' ∧ x = x' ∧ post = post' := by
  rcases Nat.lt_trichotomy pre.length pre'.length with hl | hl | hl
  · exfalso
    have hx : x ∈ pre' := by
      have := congrArg (·[pre.length]?) h
      simp only [List.getElem?_append_right (Nat.le_refl _), Nat.sub_self, List.getElem?_cons_zero,
        List.getElem?_append_left hl] at this
      exact List.mem_of_getElem? this.symm
    have hx' : x' ∈ post := by
      have := congrArg (·[pre'.length]?) h
      simp only [List.getElem?_append_right (Nat.le_refl _), Nat.sub_self, List.getElem?_cons_zero] at this
      rw [List.getElem?_append_right (by omega), show pre'.length - pre.length = (pre'.length - pre.length - 1) + 1 by omega,
        List.getElem?_cons_succ] at this
      exact List.mem_of_getElem? this
    exact h2 _ hx' (h1' _ hx)
  · have := List.append_inj h hl
    simp only [List.cons.injEq] at this
    exact this
  · exfalso
    have hx : x' ∈ pre := by
      have := congrArg (·[pre'.length]?) h
      simp only [List.getElem?_append_right (Nat.le_refl _), Nat.sub_self, List.getElem?_cons_zero,
        List.getElem?_append_left hl] at this
      exact List.mem_of_getElem? this
    have hx' : x ∈ post' := by
      have := congrArg (·[pre.length]?) h
      simp only [List.getElem?_append_right (Nat.le_refl _), Nat.sub_self, List.getElem?_cons_zero] at this
      rw [List.getElem?_append_right (by omega), show pre.length - pre'.length = (pre.length - pre'.length - 1) + 1 by omega,
        List.getElem?_cons_succ] at this
      exact List.mem_of_getElem? this.symm
    exact h2' _ hx' (h1 _ hx)

theorem pqStep_det {cap : Nat} {xs : List PItem} {op : PQOp} {o o' : PQObs} {out out' ys ys' : List PItem}
    (h : PQStep cap xs op o out ys) (h' : PQStep cap xs op o' out' ys') : o = o' ∧ out = out' ∧ ys = ys' := by
  cases op with
  | enq p e =>
    generalize hop : PQOp.enq p e = op at h h'
    cases h with
    | enq hl =>
      cases hop
      cases h' with
      | enq => exact ⟨rfl, rfl, rfl⟩
      | evict hf => omega
      | reject hf => omega
    | @evict pre x post _ _ hf ha hb hc =>
      cases hop
      generalize hx : pre ++ x :: post = xs at h' hf
      cases h' with
      | enq hl => omega
      | @evict pre' x' post' _ _ hf' ha' hb' hc' =>
        obtain ⟨rfl, rfl, rfl⟩ := split_unique (lt := fun a b => a.1 < b.1)
          (fun a b => by simp only [BitVec.lt_def]; omega) hx ha
          (fun y hy => by have := hb y hy; simp only [BitVec.lt_def, BitVec.le_def] at *; omega) ha'
          (fun y hy => by have := hb' y hy; simp only [BitVec.lt_def, BitVec.le_def] at *; omega)
        exact ⟨rfl, rfl, rfl⟩
      | reject hf' hr =>
        exfalso
        have := hr x (by rw [← hx]; simp)
        simp only [BitVec.lt_def, BitVec.le_def] at *; omega
    | reject hf hr =>
      cases hop
      cases h' with
      | enq hl => omega
      | @evict pre' x' post' _ _ hf' ha' hb' hc' =>
        exfalso
        have := hr x' (by simp)
        simp only [BitVec.lt_def, BitVec.le_def] at *; omega
      | reject => exact ⟨rfl, rfl, rfl⟩
    | deq | deqEmpty | empty => cases hop
  | deq =>
    generalize hop : PQOp.deq = op at h h'
    cases h with
    | enq | evict | reject | empty => cases hop
    | @deq pre x post ha hb =>
      generalize hx : pre ++ x :: post = xs at h'
      cases h' with
      | @deq pre' x' post' ha' hb' =>
        obtain ⟨rfl, rfl, rfl⟩ := split_unique (lt := fun a b => b.1 < a.1)
          (fun a b => by simp only [BitVec.lt_def]; omega) hx ha
          (fun y hy => by have := hb y hy; simp only [BitVec.lt_def, BitVec.le_def] at *; omega) ha'
          (fun y hy => by have := hb' y hy; simp only [BitVec.lt_def, BitVec.le_def] at *; omega)
        exact ⟨rfl, rfl, rfl⟩
      | deqEmpty => simp at hx
    | deqEmpty =>
      generalize hx : ([] : List PItem) = xs at h'
      cases h' with
      | deq => simp at hx
      | deqEmpty => exact ⟨rfl, rfl, rfl⟩
  | empty => cases h; cases h'; exact ⟨rfl, rfl, rfl⟩

theorem pqRun_det {cap : Nat} {ops : List PQOp} : ∀ {xs : List PItem} {o o' : List PQObs}
    {out out' ys ys' : List PItem}, PQRun cap xs ops o out ys → PQRun cap xs ops o' out' ys' →
    o = o' ∧ out = out' ∧ ys = ys' := by
  induction ops with
  | nil => intro xs o o' out out' ys ys' h h'; cases h; cases h'; exact ⟨rfl, rfl, rfl⟩
  | cons op ops ih =>
    intro xs o o' out out' ys ys' h h'
    cases h with
    | cons h1 h2 =>
      cases h' with
      | cons h1' h2' =>
        obtain ⟨rfl, rfl, rfl⟩ := pqStep_det h1 h1'
        obtain ⟨rfl, rfl, rfl⟩ := ih h2 h2'
        exact ⟨rfl, rfl, rfl⟩

/-- Items accepted by the enqueues of a history. -/
def accepted : List PQOp → List PQObs → List PItem
  | .enq p e :: ops, (true, _) :: os => (p, e) :: accepted ops os
  | _ :: ops, _ :: os => accepted ops os
  | _, _ => []

theorem pqRun_conserve {cap : Nat} {ops : List PQOp} : ∀ {xs : List PItem} {os : List PQObs}
    {out ys : List PItem}, PQRun cap xs ops os out ys →
    (xs ++ accepted ops os).Perm (out ++ ys) ∧ (xs.length ≤ cap → ys.length ≤ cap) := by
  induction ops with
  | nil => intro xs os out ys h; cases h; simp [accepted]
  | cons op ops ih =>
    intro xs os out ys h
    cases h with
    | @cons _ _ o out1 zs _ os' outs _ h1 h2 =>
      obtain ⟨i1, i2⟩ := ih h2
      cases h1 with
      | enq hl =>
        simp only [accepted, List.nil_append]
        refine ⟨?_, fun _ => i2 (by simp; omega)⟩
        rw [List.append_assoc] at i1; exact i1
      | @evict pre x post p e hf =>
        simp only [accepted]
        refine ⟨?_, fun _ => i2 (by simp at hf ⊢; omega)⟩
        simp only [List.append_assoc, List.singleton_append, List.cons_append] at i1 ⊢
        exact (List.perm_middle).trans (i1.cons x)
      | reject => simpa [accepted] using ⟨i1, i2⟩
      | @deq pre x post =>
        refine ⟨?_, fun hl => i2 (by simp at hl ⊢; omega)⟩
        simp only [accepted, List.append_assoc, List.singleton_append, List.cons_append] at i1 ⊢
        exact (List.perm_middle).trans (i1.cons x)
      | deqEmpty => simpa [accepted] using ⟨i1, i2 (by simp)⟩
      | empty => simpa [accepted] using ⟨i1, i2⟩

end IMU.Props
