import Verif.Proofs.LeakConst
import Verif.Proofs.LeakSort
import Verif.Model.LeakBytes
import Verif.Spec.LeakBytes

/-!
# The observed serialisers
-/

namespace IMU
open Spec T Utils
variable {α β σ : Type}

theorem T.Shows.cast {x : T α} {t u : List Leak} (h : Shows x t) (e : t = u) : Shows x u := e ▸ h

theorem loopShows_eq (tr : Nat → List Leak) (n : Nat) : ∀ i,
    loopShows tr n i = (List.range' i n).flatMap (fun k => .branch true :: tr k) ++ [.branch false] := by
  induction n with
  | zero => intro i; rfl
  | succ n ih => intro i; rw [loopShows, ih, List.range'_succ]; simp

theorem loopShows_rounds (tr : Nat → List Leak) (n : Nat) : loopShows tr n 0 = rounds n tr := by
  rw [loopShows_eq, rounds, List.range_eq_range']

theorem shows_write (p : Ptr) (v : Byte) : Shows (storeT p v) [.write p] := Shows.store p v
theorem shows_read (p : Ptr) : Shows (loadT p) [.read p] := Shows.load p

theorem shows_copyLoop (r w : Nat → Ptr) (n : Nat) :
    Shows (forNT n 0 (fun i (_ : Unit) => do
      let v ← loadT (r i)
      storeT (w i) v) ()) (rounds n fun i => [.read (r i), .write (w i)]) :=
  (Shows.forNT (tr := fun i => [.read (r i), .write (w i)])
    (fun i _ => Shows.bind (shows_read _) fun _ => shows_write _ _) n 0 ()).cast (loopShows_rounds _ _)

theorem shows_blobLE (src buf : Ptr) (size : U32) (h : size.toNat < 2 ^ 31) :
    Shows (do
      let i0 ← T.quiet (i32 (size.toInt - 1))
      forNT (i0 + 1).toNat 0 (fun j (_ : Unit) => do
        let v ← loadT (src.addZ (i0 - j))
        storeT (buf.addN j) v) ()) (rounds size.toNat fun j => [.read (src.addN (size.toNat - 1 - j)), .write (buf.addN j)]) := by
  intro m a t m' hx
  obtain ⟨i0, t1, m1, t2, h1, h2, rfl⟩ := bind_cases hx
  obtain ⟨h1, rfl⟩ := quiet_cases h1
  unfold i32 at h1
  split at h1
  · cases h1
    have e : size.toInt = size.toNat := BitVec.toInt_eq_toNat_of_lt (by omega)
    rw [e, show ((size.toNat : Int) - 1 + 1).toNat = size.toNat by omega] at h2
    rw [shows_copyLoop _ _ _ _ _ _ _ h2, List.nil_append]
    unfold rounds
    congr 1
    rw [List.flatMap_def, List.flatMap_def]
    congr 1
    apply List.map_congr_left
    intro j hj
    rw [List.mem_range] at hj
    have : src.addZ ((size.toNat : Int) - 1 - j) = src.addN (size.toNat - 1 - j) := by
      unfold Ptr.addZ Ptr.addN
      congr 1
      omega
    simp only [this]
  · cases h1

theorem shows_swap (p q : Ptr) (size : U32) :
    Shows (swapElementsT p q size) (rounds size.toNat fun i => [.read (p.addN (size.toNat - 1 - i)), .read (q.addN (size.toNat - 1 - i)),
      .write (p.addN (size.toNat - 1 - i)), .write (q.addN (size.toNat - 1 - i))]) := by
  unfold swapElementsT
  generalize size.toNat = n
  induction n with
  | zero => exact Shows.branch_bind (Shows.pure _)
  | succ n ih =>
    refine (Shows.branch_bind (Shows.bind (Shows.bind (shows_read _) fun _ => Shows.bind (shows_read _) fun _ =>
      Shows.bind (shows_write _ _) fun _ => shows_write _ _) fun _ => ih)).cast ?_
    unfold rounds
    rw [List.range_succ_eq_map, List.flatMap_cons, List.flatMap_map]
    simp only [Nat.add_sub_cancel, Nat.sub_zero, List.cons_append, List.nil_append, List.append_assoc]
    simp only [Nat.succ_eq_add_one, Nat.add_sub_cancel]
    have e : ∀ i, n - 1 - i = n - (i + 1) := by intro i; omega
    simp only [e]

theorem shows_reflectLoop (nb : Byte) (n : Nat) : ∀ (bit : Nat) (d r : U32),
    Shows (Crc.reflectLoopT nb n bit d r) (rounds n fun i => [.branch (d.getLsbD i)]) := by
  induction n with
  | zero => intro bit d r; exact Shows.branch_bind (Shows.pure _)
  | succ n ih =>
    intro bit d r
    have hb : decide (d &&& 1#32 = 1#32) = d.getLsbD 0 := by
      have : (d &&& 1#32 = 1#32) ↔ d.getLsbD 0 = true := by
        constructor
        · intro h
          have := congrArg (fun x => x.getLsbD 0) h
          simpa using this
        · intro h
          apply BitVec.eq_of_getLsbD_eq
          intro i hi
          rcases i with _ | i
          · simp [h]
          · simp
      by_cases h : d &&& 1#32 = 1#32
      · rw [decide_eq_true h, this.1 h]
      · rw [decide_eq_false h, Bool.eq_false_iff.2 (fun k => h (this.2 k))]
    have hr : rounds (n + 1) (fun i => [Leak.branch (d.getLsbD i)]) =
        .branch true :: .branch (d.getLsbD 0) :: rounds n fun i => [Leak.branch ((d >>> 1).getLsbD i)] := by
      unfold rounds
      rw [List.range_succ_eq_map, List.flatMap_cons, List.flatMap_map]
      simp only [BitVec.getLsbD_ushiftRight, Nat.succ_eq_add_one, Nat.add_comm 1, List.cons_append, List.nil_append]
    rw [hr]
    refine Shows.branch_bind ?_
    rw [hb]
    refine Shows.branch_bind ?_
    cases d.getLsbD 0
    · exact ih _ _ _
    · exact (Shows.bind (Shows.quiet _) fun _ => ih _ _ _).cast (List.nil_append _)

end IMU
