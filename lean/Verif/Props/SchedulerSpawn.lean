import Verif.Proofs.SchedulerSpawn
import Verif.Props.Scheduler

/-!
# Property C110: task functions that call the scheduler
-/

namespace IMU.Props
open Spec IMU.Scheduler

variable {F G : Type}

/-- C110: tasks which add tasks (`spawn f`, any number, possibly themselves) to the table being run.  The table then
holds the tasks `L` it held before, followed by the additions of the active ones of `L` in turn, cut off at `n` slots;
the additions run in the same run; every active task of `L` is called exactly once, in that order. -/
theorem C110_run (spawn : F → List (STask F)) (act : F → G → G) (n : U32) (used free suf : List (STask F)) (g : G)
    (hused : ∀ t ∈ used, t.function ≠ none) (hfree : ∀ t ∈ free, t.function = none)
    (hn : used.length + free.length = n.toNat) :
    ∃ L free', run (adding spawn act n) ⟨used ++ free ++ suf, g⟩ n =
        .ok ⟨L ++ free' ++ suf, (schedule L).foldl (fun g f => act f g) g⟩ ∧
      L = (used ++ L.flatMap (offspring spawn)).take n.toNat ∧
      (∀ t ∈ L, t.function ≠ none) ∧ (∀ t ∈ free', t.function = none) ∧ L.length + free'.length = n.toNat ∧
      L = breadthFirst spawn n.toNat used := by
  obtain ⟨free', h1, h2, h3⟩ := runLoop_adding spawn act n n.toNat [] used free suf g (by simpa using hused) hfree
    (by simpa using hn) hn.symm
  simp only [List.nil_append, List.length_nil, Nat.zero_add] at h1 h3
  exact ⟨breadthFirst spawn n.toNat used, free', h1, bf_eq spawn _ _, bf_proper spawn _ _ hused, h2, h3, rfl⟩

/-- C110: so a run ends after at most `n` calls, however many tasks the tasks add. -/
theorem C110_ends (spawn : F → List (STask F)) (n : U32) (used free suf : List (STask F)) (log : List F)
    (hused : ∀ t ∈ used, t.function ≠ none) (hfree : ∀ t ∈ free, t.function = none)
    (hn : used.length + free.length = n.toNat) :
    ∃ w calls, run (adding spawn (fun f log => log ++ [f]) n) ⟨used ++ free ++ suf, log⟩ n = .ok w ∧
      w.rest = log ++ calls ∧ calls.length ≤ n.toNat ∧ w.tasks.drop n.toNat = suf := by
  obtain ⟨L, free', h1, -, -, -, h5, -⟩ := C110_run spawn (fun f log => log ++ [f]) n used free suf log hused hfree hn
  have hf : ∀ (l log : List F), l.foldl (fun g f => g ++ [f]) log = log ++ l := by
    intro l
    induction l with
    | nil => simp
    | cons x xs ih => intro log; simp [ih]
  refine ⟨_, schedule L, h1, hf _ _, ?_, ?_⟩
  · have : (schedule L).length ≤ L.length := List.length_filterMap_le _ _
    omega
  · exact List.drop_left' (by simpa using h5)

/-- C110: if a task is active and every function adds at least one active task, the first run fills the table. -/
theorem C110_fills (spawn : F → List (STask F)) (act : F → G → G) (n : U32) (used free suf : List (STask F)) (g : G)
    (hused : ∀ t ∈ used, t.function ≠ none) (hfree : ∀ t ∈ free, t.function = none)
    (hn : used.length + free.length = n.toNat) (hactive : ∃ t ∈ used, t.active = true)
    (hspawn : ∀ f, ∃ t ∈ spawn f, t.function ≠ none ∧ t.active = true) :
    ∃ L g', run (adding spawn act n) ⟨used ++ free ++ suf, g⟩ n = .ok ⟨L ++ suf, g'⟩ ∧ L.length = n.toNat ∧
      (∀ t ∈ L, t.function ≠ none) ∧ (∃ more, L = used ++ more) ∧
      ∀ t, addTask (L ++ suf) n t = .ok (false, L ++ suf) := by
  obtain ⟨L, free', h1, -, h3, -, h5, h6⟩ := C110_run spawn act n used free suf g hused hfree hn
  have hl : L.length = n.toNat := by
    rw [h6]
    refine bf_full spawn ?_ _ _ hused hactive
    intro f
    obtain ⟨t, ht, h, ha⟩ := hspawn f
    refine ⟨t, ?_, ha⟩
    unfold proper
    rw [List.mem_filter]
    exact ⟨ht, Option.isSome_iff_ne_none.2 h⟩
  have e : free' = [] := List.length_eq_zero_iff.1 (by omega)
  subst e
  rw [List.append_nil] at h1
  refine ⟨L, _, h1, hl, h3, by rw [h6]; exact bf_prefix spawn _ _ (by omega), ?_⟩
  intro t
  have hlen : n.toNat ≤ (L ++ suf).length := by rw [List.length_append]; omega
  obtain ⟨hfull, hsame⟩ := C36_add_full (L ++ suf) n t hlen
  obtain ⟨tasks', ht⟩ := hfull.2 (by
    intro k hk
    refine ⟨L[k]'(by omega), ?_, h3 _ (List.getElem_mem _)⟩
    rw [List.getElem?_append_left (by omega), List.getElem?_eq_getElem])
  rw [ht, hsame _ ht]

/-- C110: with a full table the additions fail, and every run calls the active tasks of the table once, in order. -/
theorem C110_full (spawn : F → List (STask F)) (act : F → G → G) (n : U32) (used suf : List (STask F)) (g : G)
    (hused : ∀ t ∈ used, t.function ≠ none) (hn : used.length = n.toNat) :
    run (adding spawn act n) ⟨used ++ suf, g⟩ n = .ok ⟨used ++ suf, (schedule used).foldl (fun g f => act f g) g⟩ := by
  obtain ⟨L, free', h1, -, -, -, h5, h6⟩ := C110_run spawn act n used [] suf g hused (by simp) (by simpa using hn)
  obtain ⟨more, hm⟩ := bf_prefix spawn n.toNat used (by omega)
  rw [← h6] at hm
  have hl := congrArg List.length hm
  rw [List.length_append] at hl
  have e1 : free' = [] := List.length_eq_zero_iff.1 (by omega)
  have e2 : more = [] := List.length_eq_zero_iff.1 (by omega)
  rw [e2, List.append_nil] at hm
  subst hm e1
  simpa using h1

/-- C110: with `Scheduler_init` and any additions before it. -/
theorem C110_history (spawn : F → List (STask F)) (act : F → G → G) (tasks : List (STask F)) (n : U32)
    (hn : n.toNat ≤ tasks.length) (adds : List (STask F)) (g : G) :
    ∃ t0 rs t1 L free', init tasks n = .ok t0 ∧ addAll n t0 adds = .ok (rs, t1) ∧
      run (adding spawn act n) ⟨t1, g⟩ n =
        .ok ⟨L ++ free' ++ tasks.drop n.toNat, (schedule L).foldl (fun g f => act f g) g⟩ ∧
      L = (proper adds ++ L.flatMap (offspring spawn)).take n.toNat ∧
      (∀ t ∈ free', t.function = none) ∧ L.length + free'.length = n.toNat := by
  obtain ⟨rs, free, h1, h2, h3, -, -⟩ := addAll_ok n adds [] (List.replicate n.toNat ⟨none, false⟩)
    (tasks.drop n.toNat) (by simp) (by intro t ht; rw [List.mem_replicate] at ht; rw [ht.2]) (by simp)
  simp only [List.nil_append] at h1 h3
  obtain ⟨L, free', g1, g2, -, g4, g5, g6⟩ := C110_run spawn act n ((proper adds).take n.toNat) free
    (tasks.drop n.toNat) g (by
      intro t ht
      have ht := List.mem_of_mem_take ht
      unfold proper at ht
      rw [List.mem_filter] at ht
      exact Option.isSome_iff_ne_none.1 ht.2) h2 h3
  refine ⟨_, rs, _, L, free', C37_init tasks n hn, h1, g1, ?_, g4, g5⟩
  have e : L = breadthFirst spawn n.toNat (proper adds) := by
    rw [g6]; exact bf_take spawn _ _ _ (by rw [List.take_take, Nat.min_self])
  rw [e]
  exact bf_eq spawn _ _

/-- Non-vacuity: 0 adds 1 and (inactive) 2, 1 adds a null task and 3, 2 would add 9, 3 adds 3: table of six slots. -/
def treeSpawn : Nat → List (STask Nat)
  | 0 => [⟨some 1, true⟩, ⟨some 2, false⟩]
  | 1 => [⟨none, true⟩, ⟨some 3, true⟩]
  | 2 => [⟨some 9, true⟩]
  | 3 => [⟨some 3, true⟩]
  | _ => []

example : run (adding treeSpawn (fun f (log : List Nat) => log ++ [f]) 6#32)
      ⟨[⟨some 0, true⟩, ⟨none, false⟩, ⟨none, false⟩, ⟨none, false⟩, ⟨none, false⟩, ⟨none, false⟩, ⟨none, true⟩], []⟩ 6#32
    = .ok ⟨[⟨some 0, true⟩, ⟨some 1, true⟩, ⟨some 2, false⟩, ⟨some 3, true⟩, ⟨some 3, true⟩, ⟨some 3, true⟩, ⟨none, true⟩],
        [0, 1, 3, 3, 3]⟩ := by rfl

/-- Non-vacuity of `C110_fills`: a task that adds itself. -/
example : (∃ t ∈ [(⟨some 5, true⟩ : STask Nat)], t.active = true) ∧
    (∀ f : Nat, ∃ t ∈ [(⟨some f, true⟩ : STask Nat)], t.function ≠ none ∧ t.active = true) ∧
    run (adding (fun f => [⟨some f, true⟩]) (fun f (log : List Nat) => log ++ [f]) 3#32)
      ⟨[⟨some 5, true⟩, ⟨none, false⟩, ⟨none, true⟩], []⟩ 3#32
      = .ok ⟨[⟨some 5, true⟩, ⟨some 5, true⟩, ⟨some 5, true⟩], [5, 5, 5]⟩ := by
  exact ⟨⟨⟨some 5, true⟩, by simp, rfl⟩, fun f => ⟨⟨some f, true⟩, by simp, by simp, rfl⟩, rfl⟩

/-- C110: a task in slot `i` that empties the table with `Scheduler_init` and adds new tasks: the run goes on behind
slot `i`, so the first `i + 1` of the new tasks are not called in this run, and none of the old tasks behind it is. -/
theorem C110_restart (fresh : F → Option (List (STask F))) (act : F → G → G) (n : U32) (pre post suf : List (STask F))
    (f : F) (adds : List (STask F)) (g : G) (hn : pre.length + 1 + post.length = n.toNat) (hf : fresh f = some adds)
    (hpre : ∀ t ∈ pre, ∀ f', t.function = some f' → t.active = true → fresh f' = none)
    (hadds : ∀ t ∈ adds, ∀ f', t.function = some f' → t.active = true → fresh f' = none) :
    ∃ free', run (restarting fresh act n) ⟨pre ++ ⟨some f, true⟩ :: post ++ suf, g⟩ n =
        .ok ⟨(proper adds).take n.toNat ++ free' ++ suf,
          (schedule pre ++ f :: schedule (((proper adds).take n.toNat).drop (pre.length + 1))).foldl
            (fun g f => act f g) g⟩ ∧
      ∀ t ∈ free', t.function = none := by
  have hq : ∀ f', fresh f' = none → ∀ w : World F G, restarting fresh act n f' w = ⟨w.tasks, act f' w.rest⟩ := by
    intro f' h w; simp only [restarting, h]
  have s1 := runLoop_quiet (restarting fresh act n) act pre [] (⟨some f, true⟩ :: post ++ suf) g
    (fun t ht f' h1 h2 => hq f' (hpre t ht f' h1 h2))
  simp only [List.nil_append, List.length_nil] at s1
  obtain ⟨rs, free, h1, h2, h3, -, -⟩ := addAll_ok n adds [] (List.replicate n.toNat ⟨none, false⟩) suf
    (by simp) (by intro t ht; rw [List.mem_replicate] at ht; rw [ht.2]) (by simp)
  simp only [List.nil_append] at h1 h3
  refine ⟨free, ?_, h2⟩
  have hinit : init (pre ++ (⟨some f, true⟩ :: post ++ suf)) n = .ok (List.replicate n.toNat ⟨none, false⟩ ++ suf) := by
    rw [C37_init _ _ (by simp; omega), ← List.append_assoc, List.drop_left' (by simp; omega)]
  rw [run, ← hn, show pre.length + 1 + post.length = pre.length + (1 + post.length) by omega, List.append_assoc,
    runLoop_append _ _ _ _ _ _ s1, Nat.zero_add, Nat.add_comm 1, runLoop]
  have hget : (pre ++ (⟨some f, true⟩ :: post ++ suf))[pre.length]? = some ⟨some f, true⟩ := by simp
  simp only [hget, if_true]
  have hcall : ∀ g', restarting fresh act n f ⟨pre ++ (⟨some f, true⟩ :: post ++ suf), g'⟩ =
      ⟨(proper adds).take n.toNat ++ free ++ suf, act f g'⟩ := by
    intro g'; simp only [restarting, hf, hinit, h1]
  rw [hcall]
  have hsplit : (proper adds).take n.toNat ++ free = ((proper adds).take n.toNat ++ free).take (pre.length + 1) ++
      ((proper adds).take n.toNat ++ free).drop (pre.length + 1) := (List.take_append_drop _ _).symm
  have s2 := runLoop_quiet (restarting fresh act n) act (((proper adds).take n.toNat ++ free).drop (pre.length + 1))
    (((proper adds).take n.toNat ++ free).take (pre.length + 1)) suf
    (act f ((schedule pre).foldl (fun g f => act f g) g)) (by
      intro t ht f' e1 e2
      apply hq
      have ht := List.mem_of_mem_drop ht
      rw [List.mem_append] at ht
      rcases ht with ht | ht
      · have ht := List.mem_of_mem_take ht
        unfold proper at ht
        rw [List.mem_filter] at ht
        exact hadds t ht.1 f' e1 e2
      · rw [h2 t ht] at e1; simp at e1)
  rw [← hsplit] at s2
  have l1 : (((proper adds).take n.toNat ++ free).drop (pre.length + 1)).length = post.length := by
    rw [List.length_drop, List.length_append]; omega
  have l2 : (((proper adds).take n.toNat ++ free).take (pre.length + 1)).length = pre.length + 1 := by
    rw [List.length_take, List.length_append]; omega
  rw [l1, l2] at s2
  rw [show pre.length + (post.length + 1) = n.toNat by omega, s2]
  congr 2
  have hs : schedule (((proper adds).take n.toNat ++ free).drop (pre.length + 1)) =
      schedule (((proper adds).take n.toNat).drop (pre.length + 1)) := by
    unfold schedule
    rw [List.drop_append, List.filterMap_append]
    have : (free.drop (pre.length + 1 - ((proper adds).take n.toNat).length)).filterMap
        (fun t : STask F => if t.active then t.function else none) = [] := by
      rw [List.filterMap_eq_nil_iff]
      intro t ht
      rw [h2 t (List.mem_of_mem_drop ht)]; simp
    rw [this, List.append_nil]
  rw [hs]
  simp

/-- Non-vacuity: task 1 in slot 1 starts over with 5, 6, 7, 8: only 7 and 8 run at once, 2 no more. -/
example : run (restarting (fun f => if f = 1 then some [⟨some 5, true⟩, ⟨some 6, true⟩, ⟨some 7, true⟩, ⟨some 8, true⟩] else none)
        (fun f (log : List Nat) => log ++ [f]) 4#32)
      ⟨[⟨some 0, true⟩, ⟨some 1, true⟩, ⟨some 2, true⟩, ⟨none, false⟩], []⟩ 4#32
    = .ok ⟨[⟨some 5, true⟩, ⟨some 6, true⟩, ⟨some 7, true⟩, ⟨some 8, true⟩], [0, 1, 7, 8]⟩ := by rfl

end IMU.Props
