import Verif.Lemmas.Locks3
/-! # The program does not hang -/
namespace Nar.Props
open Nar Nar.Locks

/-! ## C79 -/

variable {n : Nat}

/-- C79 (without `!dt`): whatever commands the user gives, whatever questions, tasks, beliefs and conclusions there are, with any
number of connections, and however the threads were scheduled until now: everything which was begun can be brought to its end.
No set of threads waits for each other. -/
theorem C79_can_always_finish_partial (s : Sys n) (h : Reachable NotListing s) :
    ∃ s', Steps (program NotListing) s s' ∧ Quiet s' :=
  (Inv.start.steps h).quiet

/-- C79 (without `!dt`): in particular no command ever hangs for ever -/
theorem C79_never_hangs_partial (s : Sys n) (h : Reachable NotListing s) : ¬ HangsForEver NotListing s := by
  intro hh
  obtain ⟨s', hs, hq⟩ := C79_can_always_finish_partial s h
  exact hh s' hs hq.1

/-- C79: while one thread has a guard for writing, no other thread has a guard of that lock, for every schedule and all commands -/
theorem C79_exclusive (ok : Command → Prop) (s : Sys n) (h : Reachable ok s) : Exclusive s := by
  have h0 : Exclusive (start n) := fun _ _ _ _ _ hw => nomatch hw
  unfold Reachable at h
  generalize start n = s0 at h h0
  induction h with
  | refl => exact h0
  | tail _ h2 ih => exact Exclusive.step ih h2

/-- the worker waits for a lock which the other thread has: also from here everything comes to its end -/
example : ∃ s : Sys 0, Reachable NotListing s ∧ (s.thr .worker).todo ≠ [] ∧ (s.thr .main).todo ≠ [] ∧
    ∃ s', Steps (program NotListing) s s' ∧ Quiet s' := by
  obtain ⟨s, h, ⟨_, r, hw⟩, hm⟩ := busy_reached
  refine ⟨s, h, by rw [hw]; simp, ?_, C79_can_always_finish_partial s h⟩
  intro h0
  have hd := (Inv.start.steps h).disc .main
  rw [h0] at hd
  have hd : (s.thr .main).held = [] := hd
  rw [hd] at hm
  cases hm

/-- C79 is violated by `!dt`: after two judgements and a cycle, the list of tasks is asked for while the worker has a
conclusion to add.  The list reads the tasks while it already reads them, the worker waits to write them, and neither
ever goes on, nor does any command after it. -/
theorem C79_listing_hangs : ∃ s : Sys 0, Reachable (fun _ => True) s ∧ HangsForEver (fun _ => True) s := by
  obtain ⟨s, hs, h1, h2, h3, h4⟩ := hang_reached
  exact ⟨s, hang_reachable hs, Embrace.hangs
    ⟨List.head?_eq_some_iff.1 h1, h2, h4, List.head?_eq_some_iff.1 h3⟩⟩

end Nar.Props
