import Verif.Model.Locks
/-! # What it means that the program does not hang -/
namespace Nar.Locks
open Nar

variable {n : Nat}

/-- the states which the program can reach when the user gives the commands of `ok`, by whatever schedule -/
def Reachable (ok : Command → Prop) (s : Sys n) : Prop := Steps (program ok) (start n) s

/-- the thread waits for work, and there is none -/
def WaitsForWork (s : Sys n) (t : Who n) (c : Chan) : Prop := s.queue c = 0 ∧ ∃ rest, (s.thr t).todo = .recv c :: rest

/-- everything which was begun or handed over is done: the thread which runs commands is ready for the next one, both
channels are empty, no connection waits, and each worker is between two rounds or waits for work -/
def Quiet (s : Sys n) : Prop :=
  (s.thr .main).todo = [] ∧ (∀ c, s.queue c = 0) ∧ (∀ k, (s.thr (.client k)).todo = []) ∧
  ((s.thr .worker).todo = [] ∨ WaitsForWork s .worker .work) ∧
  ((s.thr .store).todo = [] ∨ WaitsForWork s .store .store) ∧
  ∀ t, (s.thr t).held = []

/-- whatever happens from now on, the command which runs never ends -/
def HangsForEver (ok : Command → Prop) (s : Sys n) : Prop :=
  ∀ s', Steps (program ok) s s' → (s'.thr .main).todo ≠ []

/-- two guards exclude each other: one of them is for writing -/
def Exclusive (s : Sys n) : Prop :=
  ∀ t u l m, t ≠ u → (l, Mode.write) ∈ (s.thr t).held → (l, m) ∉ (s.thr u).held

/-- the commands other than the list of tasks, `!dt` -/
def NotListing (c : Command) : Prop := c ≠ .debugTasks

end Nar.Locks
