import Verif.Proofs.System
import Mathlib.Tactic.IntervalCases

/-!
# Property C88: containers sharing a memory
-/

namespace IMU.Props
open Spec

/-- C88: any number of freshly initialised queues, priority queues and maps whose storage is in different objects can
be used in any interleaving.  Every history of valid calls is free of undefined behaviour, and each container shows
exactly what the ideal container would show for its own calls: those of the others do not matter. -/
theorem C88_interleaving (ls : List Layout) (cs : List Container) (m : Mem) (hap : Apart ls)
    (hr : ∀ (i : Nat) (l : Layout), ls[i]? = some l → ∃ k, cs[i]? = some k ∧ Ready m l k)
    (h : List SysCall) (hv : ∀ c ∈ h, c.Valid ls) :
    ∃ os cs' m', sysAll ls cs m h = some (os, cs', m') ∧
      ∀ (i : Nat) (l : Layout), ls[i]? = some l → Ideal l (requestsTo i h) (observedAt i os) := by
  obtain ⟨os, cs', m', h1, h2⟩ := sys_all hap h (cs := cs) (m := m)
    (A := fun i => match ls[i]? with | some l => start l | none => .queue []) (fun i l hl => by
      obtain ⟨k, hk, hk'⟩ := hr i l hl
      refine ⟨k, hk, ?_⟩
      rw [hl]
      exact ready_inv hk') hv
  refine ⟨os, cs', m', h1, fun i l hl => ?_⟩
  have := h2 i l hl
  rw [hl] at this
  rwa [idealFrom_start] at this

/-- C88: non-interference.  If two histories, possibly on different neighbours, make the same requests with the same
argument bytes to a container, they observe the same at this container. -/
theorem C88_noninterference (ls ls' : List Layout) (cs cs' : List Container) (m m' : Mem) (hap : Apart ls)
    (hap' : Apart ls') (hr : ∀ (i : Nat) (l : Layout), ls[i]? = some l → ∃ k, cs[i]? = some k ∧ Ready m l k)
    (hr' : ∀ (i : Nat) (l : Layout), ls'[i]? = some l → ∃ k, cs'[i]? = some k ∧ Ready m' l k)
    (h h' : List SysCall) (hv : ∀ c ∈ h, c.Valid ls) (hv' : ∀ c ∈ h', c.Valid ls')
    (i j : Nat) (l : Layout) (hl : ls[i]? = some l) (hl' : ls'[j]? = some l)
    (hsame : List.Forall₂ SameRequest (requestsTo i h) (requestsTo j h'))
    (os os' : List (Nat × SysObs)) (e e' : List Container × Mem) (hx : sysAll ls cs m h = some (os, e))
    (hx' : sysAll ls' cs' m' h' = some (os', e')) : observedAt i os = observedAt j os' := by
  obtain ⟨o1, c1, m1, a1, a2⟩ := C88_interleaving ls cs m hap hr h hv
  obtain ⟨o2, c2, m2, b1, b2⟩ := C88_interleaving ls' cs' m' hap' hr' h' hv'
  rw [hx] at a1
  rw [hx'] at b1
  simp only [Option.some.injEq, Prod.mk.injEq] at a1 b1
  obtain ⟨rfl, -⟩ := a1
  obtain ⟨rfl, -⟩ := b1
  exact ideal_det (ideal_congr hsame (a2 i l hl)) (b2 j l hl')

/-- Non-vacuity: two queues, a priority queue and a map with one-byte elements. -/
def exSysLs : List Layout := [.queue 2 1 0 0, .pq 2 1 1 0 0, .queue 1 1 2 0, .map 2 1 1 3 0 3 2]
def exSysMem : Mem := ⟨fun b => if b ≤ 3 then [0, 0, 0, 0] else [], fun b => if b = 0 then [0, 0] else []⟩
def exSysCs : List Container := [.queue ⟨2, 0, 1, 0, 1, ptr 0 0⟩, .pq ⟨2, 0, 1, 0, ptr 1 0⟩, .queue ⟨1, 0, 0, 0, 1, ptr 2 0⟩,
  .map ⟨ptr 3 0, ptr 3 2, 1, 1, 2, 0⟩]
def exSysW (a b : Byte) : Mem := ⟨fun x => if x = 7 then [a, b] else [], fun _ => []⟩
def exSysH : List SysCall := [⟨0, .queue .enq 7 0, exSysW 10 0⟩, ⟨1, .pq (.enq 3) 7 0, exSysW 20 0⟩, ⟨3, .map .ins 7 0 7 1, exSysW 1 9⟩,
  ⟨2, .queue .enq 7 0, exSysW 30 0⟩, ⟨1, .pq (.enq 5) 7 0, exSysW 21 0⟩, ⟨0, .queue .enq 7 0, exSysW 11 0⟩,
  ⟨1, .pq (.enq 4) 7 0, exSysW 22 0⟩, ⟨2, .queue .enq 7 0, exSysW 31 0⟩, ⟨0, .queue .deq 7 0, exSysW 0 0⟩,
  ⟨3, .map .get 7 0 7 1, exSysW 1 0⟩, ⟨1, .pq .deq 7 0, exSysW 0 0⟩, ⟨2, .queue .deq 7 0, exSysW 0 0⟩, ⟨1, .pq .deq 7 0, exSysW 0 0⟩]
example : Apart exSysLs := by
  intro i j l l' h h' hne
  have hi : i < 4 := (List.getElem?_eq_some_iff.1 h).1
  have hj : j < 4 := (List.getElem?_eq_some_iff.1 h').1
  interval_cases i <;> interval_cases j <;> first | exact absurd rfl hne | (cases h; cases h'; decide)
example : ∀ (i : Nat) (l : Layout), exSysLs[i]? = some l → ∃ k, exSysCs[i]? = some k ∧ Ready exSysMem l k := by
  intro i l h
  have hi : i < 4 := (List.getElem?_eq_some_iff.1 h).1
  interval_cases i <;> cases h
  · exact ⟨_, rfl, ⟨⟨0, 0, 0, 0, 0, ptr 0 0⟩, exSysMem, exSysMem, rfl⟩, by decide, by decide⟩
  · exact ⟨_, rfl, ⟨⟨0, 0, 0, 0, ptr 0 0⟩, rfl⟩, by decide, by decide, by decide⟩
  · exact ⟨_, rfl, ⟨⟨0, 0, 0, 0, 0, ptr 0 0⟩, exSysMem, exSysMem, rfl⟩, by decide, by decide⟩
  · exact ⟨_, rfl, ⟨⟨ptr 0 0, ptr 0 0, 0, 0, 0, 0⟩, exSysMem, exSysMem, rfl⟩, by decide, by decide, by decide, by decide⟩
example : ∀ c ∈ exSysH, c.Valid exSysLs := by
  intro c hc
  simp only [exSysH, List.mem_cons, List.not_mem_nil, or_false] at hc
  rcases hc with rfl | rfl | rfl | rfl | rfl | rfl | rfl | rfl | rfl | rfl | rfl | rfl | rfl <;>
    simp [SysCall.Valid, exSysLs, ArgOk, Layout.bytes, exSysW]
example : (sysAll exSysLs exSysCs exSysMem exSysH).map (·.1) = some [(0, (true, none)), (1, (true, none)), (3, (true, none)),
    (2, (true, none)), (1, (true, none)), (0, (true, none)), (1, (true, none)), (2, (false, none)),
    (0, (true, some [10])), (3, (true, some [9])), (1, (true, some [21])), (2, (true, some [30])),
    (1, (true, some [22]))] := by decide +kernel

end IMU.Props
