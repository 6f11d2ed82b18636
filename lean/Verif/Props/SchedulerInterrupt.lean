import Verif.Proofs.SchedulerInterrupt
import Verif.Props.Scheduler

/-!
# Property C115: a scheduler used by interrupt handlers
-/

namespace IMU.Props
open Spec IMU.Scheduler

variable {F G : Type}

/-- C115: without interrupts these are the functions of Src/scheduler.c, in any state. -/
theorem C115_quiet (call : F → World F G → World F G) (w : World F G) (n : U32) (t : STask F) :
    addTaskInt (fun _ _ => id) w n t =
      (match addTask w.tasks n t with
        | .error e => .error e
        | .ok (r, tasks) => .ok (r, { w with tasks := tasks })) ∧
    runInt (fun _ _ => id) call w n = run call w n := by
  constructor
  · unfold addTaskInt addTask
    generalize n.toNat = r
    generalize 0 = i
    induction r generalizing i with
    | zero => rfl
    | succ r ih =>
      simp only [addLoopInt, addLoop, id]
      cases h : w.tasks[i]? with
      | none => rfl
      | some x =>
        have hi := (List.getElem?_eq_some_iff.1 h).1
        cases hf : x.function with
        | some f => simp only [hf]; exact ih (i + 1)
        | none => simp only [hf, h, List.getElem?_set_self hi, List.set_set]
  · unfold runInt run
    generalize n.toNat = r
    generalize 0 = i
    induction r generalizing i w with
    | zero => rfl
    | succ r ih =>
      simp only [runLoopInt, runLoop, id]
      cases h : w.tasks[i]? with
      | none => rfl
      | some x =>
        cases hf : x.function with
        | none => simp only [hf]; exact ih _ _
        | some f =>
          simp only [hf, h]
          split
          · exact ih _ _
          · exact ih _ _

/-- C115: `Scheduler_addTask` interrupted at any number of points by handlers that add tasks themselves, except between
finding the free slot and storing the function there: the table and the answer are those of adding one after the other -
what handlers added during the search (up to slot `s`), then `t`, then what they added after slot `s` was taken.  So
nothing is lost and no slot is filled twice. -/
theorem C115_add (n : U32) (w : World F G) (hn : n.toNat ≤ w.tasks.length) (t : STask F) (ht : t.function ≠ none)
    (A : Nat → AddPoint → List (STask F)) (hA : ∀ i, A i .found = []) :
    ∃ s rs l', s ≤ n.toNat ∧
      addAll n w.tasks ((List.range (s + 1)).flatMap (A · .test) ++
        t :: (if s < n.toNat then A s .stored ++ A s .done else [])) = .ok (rs, l') ∧
      rs[((List.range (s + 1)).flatMap (A · .test)).length]? = some (decide (s < n.toNat)) ∧
      addTaskInt (fun i p => handlerAdds n (A i p)) w n t = .ok (decide (s < n.toNat), ⟨l', w.rest⟩) := by
  obtain ⟨s, rs, l', -, h2, h3, h4, h5⟩ := addInt_lin n A hA t ht n.toNat 0 w (by omega) hn (fun k hk => by omega)
  rw [Nat.sub_zero, ← List.range_eq_range'] at h3 h4
  exact ⟨s, rs, l', h2, h3, h4, h5⟩

/-- Non-vacuity: three slots, one used; the handler adds one task during the search and one between the two stores. -/
example : addTaskInt (F := Nat) (G := Unit) (fun i p => handlerAdds 4 (if i = 1 ∧ p = .test then [⟨some 5, true⟩]
      else if i = 2 ∧ p = .stored then [⟨some 6, false⟩] else []))
    ⟨[⟨some 1, true⟩, ⟨none, false⟩, ⟨none, false⟩, ⟨none, false⟩], ()⟩ 4 ⟨some 7, true⟩ =
    .ok (true, ⟨[⟨some 1, true⟩, ⟨some 5, true⟩, ⟨some 7, true⟩, ⟨some 6, false⟩], ()⟩) := by rfl

/-- The search passes occupied slots. -/
theorem add_skip (irq : Nat → AddPoint → World F G → World F G) (t : STask F) (w : World F G) {s : Nat}
    (hirq : ∀ k, k < s → irq k .test = id) (hb : ∀ k, k < s → ∃ y, w.tasks[k]? = some y ∧ y.function ≠ none) :
    ∀ (d r i : Nat), i + d = s → addLoopInt irq t (d + r) i w = addLoopInt irq t r s w := by
  intro d
  induction d with
  | zero => intro r i h; rw [Nat.zero_add, show i = s by omega]
  | succ d ih =>
    intro r i h
    obtain ⟨y, hy, hyf⟩ := hb i (by omega)
    obtain ⟨f, hf⟩ := Option.ne_none_iff_exists'.1 hyf
    rw [show d + 1 + r = (d + r) + 1 by omega]
    simp only [addLoopInt, hirq i (by omega), id, hy, hf]
    exact ih r (i + 1) (by omega)

/-- C115: additions by a handler between finding the free slot `s` and storing the function there: the handler's calls all
report what they would report alone, but the first of its tasks is gone - table and answer are as if it had never been
added. -/
theorem C115_lost (n : U32) (w : World F G) (hn : n.toNat ≤ w.tasks.length) (t a : STask F) (ht : t.function ≠ none)
    (ha : a.function ≠ none) (A : List (STask F)) {s : Nat} (hs : s < n.toNat) {x : STask F} (hx : w.tasks[s]? = some x)
    (hf : x.function = none) (hb : ∀ k, k < s → ∃ y, w.tasks[k]? = some y ∧ y.function ≠ none) :
    ∃ rs l1 l', addAll n w.tasks (a :: A) = .ok (true :: rs, l1) ∧
      addAll n w.tasks (t :: A) = .ok (true :: rs, l') ∧
      addTaskInt (onlyAt s .found (handlerAdds n (a :: A))) w n t = .ok (true, ⟨l', w.rest⟩) := by
  have hsl : s < w.tasks.length := by omega
  obtain ⟨rs, l1, h1, -⟩ := addAll_some n A (w.tasks.set s a) (by simpa using hn)
  have hk := addAll_keeps _ _ _ _ _ h1
  have hga : (w.tasks.set s a)[s]? = some a := List.getElem?_set_self hsl
  have hg1 := hk.2 s _ hga ha
  have hsw := addAll_swap n ha ht A _ hga _ _ h1
  rw [List.set_set] at hsw
  have hA : addAll n w.tasks (a :: A) = .ok (true :: rs, l1) := by
    simp only [addAll, addTask_at n w.tasks a hs hn hx hf hb, h1]
  refine ⟨rs, l1, l1.set s t, hA, ?_, ?_⟩
  · simp only [addAll, addTask_at n w.tasks t hs hn hx hf hb, hsw]
  · have hl1 : s < l1.length := by rw [hk.1]; simpa using hsl
    have he : handlerAdds n (a :: A) w = ⟨l1, w.rest⟩ := by simp only [handlerAdds, hA]
    unfold addTaskInt
    obtain ⟨r, hr⟩ : ∃ r, n.toNat = s + (r + 1) := ⟨n.toNat - s - 1, by omega⟩
    rw [hr, add_skip _ t w (fun k hk => by simp [onlyAt]) hb s (r + 1) 0 (by omega)]
    simp only [addLoopInt, onlyAt, reduceCtorEq, and_false, if_false, id, hx, hf, and_true, if_true, he, hg1,
      List.getElem?_set_self hl1, List.set_set]

/-- Non-vacuity: task 5, whose addition the handler was told had succeeded, is nowhere. -/
example : addTaskInt (F := Nat) (G := Unit) (onlyAt 1 .found (handlerAdds 3 [⟨some 5, true⟩, ⟨some 6, true⟩]))
    ⟨[⟨some 1, true⟩, ⟨none, false⟩, ⟨none, false⟩], ()⟩ 3 ⟨some 7, true⟩ =
    .ok (true, ⟨[⟨some 1, true⟩, ⟨some 7, true⟩, ⟨some 6, true⟩], ()⟩) := by rfl

/-- C115: `Scheduler_run` interrupted at any points by handlers that add tasks.  The calls `fs` made contain, in order,
those the table asked for at the start, each once, and besides only calls the table asks for at the end, each at most
once; the table at the end is that of adding one after the other. -/
theorem C115_run_meets_additions (n : U32) (A : Nat → RunPoint → List (STask F)) (act : F → G → G) (w : World F G)
    (hn : n.toNat ≤ w.tasks.length) :
    ∃ fs adds rs l', runInt (fun i p => handlerAdds n (A i p)) (acting act) w n =
        .ok ⟨l', fs.foldl (fun g f => act f g) w.rest⟩ ∧
      addAll n w.tasks adds = .ok (rs, l') ∧
      (schedule (w.tasks.take n.toNat)).Sublist fs ∧ fs.Sublist (schedule (l'.take n.toNat)) := by
  obtain ⟨fs, adds, rs, l', h1, h2, h3, h4⟩ := runInt_adds n A act n.toNat 0 w (by omega) hn
  exact ⟨fs, adds, rs, l', h1, h2, h3, h4⟩

/-- Non-vacuity: the run has passed slot 1 when task 5 is added there, but not slot 2, where task 6 comes: the later
addition runs now, the earlier one in the next run. -/
example : runInt (F := Nat) (G := List Nat) (fun i p => handlerAdds 3 (if i = 2 ∧ p = .test then
      [⟨some 5, true⟩, ⟨some 6, true⟩] else [])) (acting fun f g => g ++ [f])
    ⟨[⟨some 1, true⟩, ⟨none, false⟩, ⟨none, false⟩], []⟩ 3 =
    .ok ⟨[⟨some 1, true⟩, ⟨some 5, true⟩, ⟨some 6, true⟩], [1, 6]⟩ := by rfl

/-- The run passes slots in which no handler comes. -/
theorem run_skip (irq : Nat → RunPoint → World F G → World F G) (act : F → G → G) (tasks : List (STask F)) {i : Nat}
    (hi : i ≤ tasks.length) : ∀ (d r j : Nat) (g : G), (∀ k p, j ≤ k → k < i → irq k p = id) → j + d = i →
    runLoopInt irq (acting act) (d + r) j ⟨tasks, g⟩ = runLoopInt irq (acting act) r i
      ⟨tasks, (schedule ((tasks.drop j).take d)).foldl (fun g f => act f g) g⟩ := by
  intro d
  induction d with
  | zero => intro r j g _ h; rw [Nat.zero_add, show j = i by omega]; simp [schedule]
  | succ d ih =>
    intro r j g hirq h
    have hg : tasks[j]? = some (tasks[j]'(by omega)) := List.getElem?_eq_getElem (by omega)
    rw [show d + 1 + r = (d + r) + 1 by omega, schedule_window hg, List.foldl_append]
    simp only [runLoopInt, hirq j _ (Nat.le_refl _) (by omega), id, hg]
    have hrec := fun g => ih r (j + 1) g (fun k p h1 h2 => hirq k p (by omega) h2) (by omega)
    cases hf : (tasks[j]'(by omega)).function with
    | none =>
      simp only
      rw [hrec]; simp [schedule, hf]
    | some f =>
      simp only
      by_cases ha : (tasks[j]'(by omega)).active = true
      · rw [if_pos ha]
        rw [show acting act f (⟨tasks, g⟩ : World F G) = ⟨tasks, act f g⟩ from rfl, hrec]
        simp [schedule, hf, ha]
      · rw [if_neg ha, hrec]
        simp [schedule, ha]

/-- C115: `Scheduler_run` interrupted in slot `i`, which holds an active task, by a handler that calls `Scheduler_init`.
Before `active` is read: the tasks before slot `i` have been called, the table is empty.  After it was read as true: the
run calls a null pointer. -/
theorem C115_run_meets_init (n : U32) (act : F → G → G) (w : World F G) (hn : n.toNat ≤ w.tasks.length) {i : Nat}
    (hi : i < n.toNat) {f : F} (hx : w.tasks[i]? = some ⟨some f, true⟩) :
    runInt (onlyAt i .flag (handlerInits n)) (acting act) w n =
      .ok ⟨List.replicate n.toNat ⟨none, false⟩ ++ w.tasks.drop n.toNat,
        (schedule (w.tasks.take i)).foldl (fun g f => act f g) w.rest⟩ ∧
    runInt (onlyAt i .call (handlerInits n)) (acting act) w n = .error .nullDeref := by
  obtain ⟨r, hr⟩ : ∃ r, n.toNat = i + (r + 1) := ⟨n.toNat - i - 1, by omega⟩
  have he : ∀ g : G, handlerInits n (⟨w.tasks, g⟩ : World F G) =
      ⟨List.replicate n.toNat ⟨none, false⟩ ++ w.tasks.drop n.toNat, g⟩ := fun g => by
    simp only [handlerInits, C37_init w.tasks n hn]
  have hfree : (List.replicate n.toNat (⟨none, false⟩ : STask F) ++ w.tasks.drop n.toNat)[i]? = some ⟨none, false⟩ := by
    rw [List.getElem?_append_left (by simpa using hi), List.getElem?_replicate, if_pos hi]
  have hlen : n.toNat ≤ (List.replicate n.toNat (⟨none, false⟩ : STask F) ++ w.tasks.drop n.toNat).length := by simp
  constructor
  · unfold runInt
    rw [show runLoopInt (onlyAt i .flag (handlerInits n)) (acting act) n.toNat 0 w =
      runLoopInt (onlyAt i .flag (handlerInits n)) (acting act) (i + (r + 1)) 0 ⟨w.tasks, w.rest⟩ by rw [hr],
      run_skip _ act w.tasks (i := i) (by omega) i (r + 1) 0 w.rest
        (fun k p _ h2 => by simp [onlyAt, show k ≠ i by omega]) (by omega)]
    simp only [runLoopInt, onlyAt, reduceCtorEq, and_false, if_false, id, hx, and_true, if_true, he, hfree,
      Bool.false_eq_true, List.drop_zero]
    have hs := run_skip (onlyAt i .flag (handlerInits n)) act
      (List.replicate n.toNat (⟨none, false⟩ : STask F) ++ w.tasks.drop n.toNat) (i := n.toNat) hlen r 0 (i + 1)
      ((schedule (w.tasks.take i)).foldl (fun g f => act f g) w.rest)
      (fun k p h1 _ => by simp [onlyAt, show k ≠ i by omega]) (by omega)
    have hempty : schedule (((List.replicate n.toNat (⟨none, false⟩ : STask F) ++ w.tasks.drop n.toNat).drop (i + 1)).take r) = [] := by
      unfold schedule
      rw [List.filterMap_eq_nil_iff]
      intro t ht
      rw [List.drop_append_of_le_length (by simp; omega), List.drop_replicate,
        List.take_append_of_le_length (by simp; omega), List.take_replicate, List.mem_replicate] at ht
      rw [ht.2]; rfl
    rw [hempty] at hs
    rw [Nat.add_zero] at hs
    rw [hs]
    simp [runLoopInt, onlyAt]
  · unfold runInt
    rw [show runLoopInt (onlyAt i .call (handlerInits n)) (acting act) n.toNat 0 w =
      runLoopInt (onlyAt i .call (handlerInits n)) (acting act) (i + (r + 1)) 0 ⟨w.tasks, w.rest⟩ by rw [hr],
      run_skip _ act w.tasks (i := i) (by omega) i (r + 1) 0 w.rest
        (fun k p _ h2 => by simp [onlyAt, show k ≠ i by omega]) (by omega)]
    simp only [runLoopInt, onlyAt, reduceCtorEq, and_false, if_false, id, hx, and_true, if_true, he, hfree]

/-- C115: `Scheduler_addTask`, finding slot `s`, interrupted by a handler that runs the tasks.  Table and answer are not
disturbed.  Up to finding the slot the handler calls the tasks there were, after the call those with the new one, and
between the two stores the new function too if the free slot's `active` member happens to be set, whatever that of the
new task. -/
theorem C115_run_meets_addition (n : U32) (act : F → G → G) (w : World F G) (hn : n.toNat ≤ w.tasks.length)
    (t : STask F) {s : Nat} (hs : s < n.toNat) {x : STask F} (hx : w.tasks[s]? = some x)
    (hf : x.function = none) (hb : ∀ k, k < s → ∃ y, w.tasks[k]? = some y ∧ y.function ≠ none) :
    addTaskInt (onlyAt s .found (handlerRuns (acting act) n)) w n t =
      .ok (true, ⟨w.tasks.set s t, (schedule (w.tasks.take n.toNat)).foldl (fun g f => act f g) w.rest⟩) ∧
    addTaskInt (onlyAt s .stored (handlerRuns (acting act) n)) w n t =
      .ok (true, ⟨w.tasks.set s t, (schedule ((w.tasks.set s ⟨t.function, x.active⟩).take n.toNat)).foldl
        (fun g f => act f g) w.rest⟩) ∧
    addTaskInt (onlyAt s .done (handlerRuns (acting act) n)) w n t =
      .ok (true, ⟨w.tasks.set s t, (schedule ((w.tasks.set s t).take n.toNat)).foldl (fun g f => act f g) w.rest⟩) ∧
    (x.active = false → schedule ((w.tasks.set s ⟨t.function, x.active⟩).take n.toNat) =
      schedule (w.tasks.take n.toNat)) ∧
    (x.active = true → ∀ f, t.function = some f → f ∈ schedule ((w.tasks.set s ⟨t.function, x.active⟩).take n.toNat)) := by
  have hsl : s < w.tasks.length := by omega
  have hrun : ∀ (l : List (STask F)) (g : G), n.toNat ≤ l.length → handlerRuns (acting act) n ⟨l, g⟩ =
      (⟨l, (schedule (l.take n.toNat)).foldl (fun g f => act f g) g⟩ : World F G) := by
    intro l g hl
    have hfold : ∀ (fs : List F) (w : World F G), callAll (acting act) w fs =
        ⟨w.tasks, fs.foldl (fun g f => act f g) w.rest⟩ := by
      intro fs
      induction fs with
      | nil => intro w; rfl
      | cons f fs ih => intro w; simp only [callAll, List.foldl_cons] at ih ⊢; rw [ih]; rfl
    simp only [handlerRuns, C35_run_schedule (acting act) (fun _ _ => rfl) (⟨l, g⟩ : World F G) n hl, hfold]
  obtain ⟨r, hr⟩ : ∃ r, n.toNat = s + (r + 1) := ⟨n.toNat - s - 1, by omega⟩
  have hskip : ∀ p, p ≠ AddPoint.test → addTaskInt (onlyAt s p (handlerRuns (acting act) n)) w n t =
      addLoopInt (onlyAt s p (handlerRuns (acting act) n)) t (r + 1) s w := by
    intro p hp
    unfold addTaskInt
    rw [hr, add_skip _ t w (fun k hk => by simp [onlyAt, show k ≠ s by omega]) hb s (r + 1) 0 (by omega)]
  have hset : (w.tasks.set s ⟨t.function, x.active⟩)[s]? = some ⟨t.function, x.active⟩ := List.getElem?_set_self hsl
  have hmid : ∀ l : List (STask F), l.length = w.tasks.length → l.take n.toNat = l.take s ++ (l.drop s).take (r + 1) := by
    intro l _; rw [hr, List.take_add]
  refine ⟨?_, ?_, ?_, ?_, ?_⟩
  · rw [hskip _ (by simp)]
    have := hrun w.tasks w.rest hn
    simp only [addLoopInt, onlyAt, reduceCtorEq, and_false, if_false, id, hx, hf, and_true, if_true, this,
      List.getElem?_set_self hsl, List.set_set]
  · rw [hskip _ (by simp)]
    have := hrun (w.tasks.set s ⟨t.function, x.active⟩) w.rest (by simpa using hn)
    simp only [addLoopInt, onlyAt, reduceCtorEq, and_false, if_false, id, hx, hf, and_true, if_true, this, hset,
      List.set_set]
  · rw [hskip _ (by simp)]
    have := hrun (w.tasks.set s t) w.rest (by simpa using hn)
    simp only [addLoopInt, onlyAt, reduceCtorEq, and_false, if_false, id, hx, hf, and_true, if_true, hset,
      List.set_set, this]
  · intro ha
    rw [hmid _ (by simp), hmid _ rfl, schedule_append, schedule_append, schedule_window hset, schedule_window hx]
    have e1 : schedule [(⟨t.function, x.active⟩ : STask F)] = [] := by simp [schedule, ha]
    have e2 : schedule [x] = [] := by simp [schedule, ha]
    rw [e1, e2, List.take_set_of_le (Nat.le_refl s), List.drop_set_of_lt (by omega)]
  · intro ha f hft
    rw [hmid _ (by simp), schedule_append, schedule_window hset]
    have e1 : schedule [(⟨t.function, x.active⟩ : STask F)] = [f] := by simp [schedule, ha, hft]
    rw [e1]; simp

/-- Non-vacuity: slot 1 kept a set `active` member from an addition without function (C37); the inactive task 7 is called
by the handler. -/
example : (addTaskInt (F := Nat) (G := List Nat) (onlyAt 1 .stored (handlerRuns (acting fun f g => g ++ [f]) 2))
    ⟨[⟨some 1, true⟩, ⟨none, true⟩], []⟩ 2 ⟨some 7, false⟩ = .ok (true, ⟨[⟨some 1, true⟩, ⟨some 7, false⟩], [1, 7]⟩)) := by rfl
example : runInt (F := Nat) (G := List Nat) (onlyAt 1 .call (handlerInits 2)) (acting fun f g => g ++ [f])
    ⟨[⟨some 1, true⟩, ⟨some 2, true⟩], []⟩ 2 = .error .nullDeref := by rfl

end IMU.Props
