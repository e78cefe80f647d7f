import Verif.Props.Nar
import Verif.Lemmas.Channel
/-! # Handing work to the worker of the declarative memory -/
namespace Nar.Props
open Nar Nar.Term

/-! ## C78 -/

/-- C78: a reasoning cycle hands at most one piece of work to the worker, behind all work which still waits: a working task,
if there is one.  A cycle with a task to hand over only succeeds while the worker runs. -/
theorem C78_handed_over (env : Env) (r r' : Reasoner) (v : Rat) (h : cycle env r v = .ok r') :
    (r.sh.judgementTasks = [] ∧ r'.queue = r.queue) ∨
    (r.workerAlive = true ∧ ∃ m, r'.queue = r.queue ++ [m] ∧ m.primary ∈ r.sh.judgementTasks ∧
      m.cycleCounter = r'.sh.cycleCounter) := by
  rcases (cycle_queue h).2 with h | h
  · exact .inl h
  · exact .inr h.2

/-- C78: the worker takes the oldest piece of work.  Either all its conclusions and answers take effect, or it crashes; then
it is gone, and has changed nothing. -/
theorem C78_oldest_first (env : Env) (r : Reasoner) (m : Msg) (rest : List Msg) (ha : r.workerAlive = true)
    (hq : r.queue = m :: rest) :
    (declWork env r).queue = rest ∧
    ((∃ sh calls, work (r.cfg env) r.sh m = .ok (sh, calls) ∧ (declWork env r).sh = sh ∧
        (declWork env r).answers = r.answers ++ calls ∧ (declWork env r).workerAlive = true) ∨
     (∃ e, work (r.cfg env) r.sh m = .error e ∧ (declWork env r).workerAlive = false ∧ (declWork env r).sh = r.sh ∧
        (declWork env r).answers = r.answers)) := by
  unfold declWork
  rw [if_pos ha, hq]
  simp only
  cases hw : work (r.cfg env) r.sh m with
  | ok x => exact ⟨rfl, .inl ⟨x.1, x.2, rfl, rfl, rfl, ha⟩⟩
  | error e => exact ⟨rfl, .inr ⟨e, rfl, rfl, rfl, rfl⟩⟩

/-- C78: without work the worker does nothing. -/
theorem C78_idle (env : Env) (r : Reasoner) (h : r.queue = []) : declWork env r = r := by
  unfold declWork
  rw [h]
  split <;> rfl

/-- C78: nothing else touches the waiting work: telling something, and every line except the one for cycles, leave it alone
and keep the worker as it is. -/
theorem C78_others_leave_it (env : Env) (r r' : Reasoner) :
    (∀ term punct tv e rng, inputT2 env r term punct tv e rng = .ok r' →
      r'.queue = r.queue ∧ r'.workerAlive = r.workerAlive) ∧
    (∀ line d q out, input env r line d = .ok (r', q, out) → (∀ arg, commandOf (trimNewline line) ≠ .cycles arg) →
      r'.queue = r.queue ∧ r'.workerAlive = r.workerAlive) := by
  refine ⟨fun _ _ _ _ _ h => ⟨(inputT2_cases h).1, (inputT2_cases h).2.1⟩, fun line d q out h hc => ?_⟩
  exact runCommand_queue (input_ok h).2.1 hc

/-- C78: a crash of the worker is final: whatever happens later, it does not run again and the work which waited is never
done. -/
theorem C78_crash_is_final (env : Env) (r r' : Reasoner) (ops : List NarOp) (ha : r.workerAlive = false)
    (h : moreNar env r ops = .ok r') : r'.workerAlive = false ∧ r'.queue = r.queue := more_dead h ha

/-- C78: and it is noticed: the next cycle with something to do crashes. -/
theorem C78_crash_is_noticed (env : Env) (r : Reasoner) (v : Rat) (ha : r.workerAlive = false)
    (ht : r.sh.judgementTasks ≠ []) : ∃ e, cycle env r v = .error e := by
  cases h : cycle env r v with
  | error e => exact ⟨e, rfl⟩
  | ok r' =>
    rcases C78_handed_over env r r' v h with ⟨h1, _⟩ | ⟨h1, _⟩
    · exact absurd h1 ht
    · rw [ha] at h1; cases h1

/-- the statement that a product of one element is a `b` -/
def shortProduct : NarOp := .tell (.Stmt .INH (.Prod [.Name "a"]) (.Name "b")) .JUGEMENT ⟨1, 9/10⟩ false []

/-- two pieces of work wait in the order of the cycles; the worker takes the first -/
example : (runNar env0 [ln "<a --> b>.", ln "<c --> d>.", .cycle 0, .cycle 0]).map
    (fun r => (r.queue.map (fun m => (m.primary, m.cycleCounter)), (declWork env0 r).queue.map (·.primary))) =
    .ok ([(0, 1), (1, 2)], [1]) := by decide +kernel

/-- a product of one element crashes the worker; the reasoner notices it with the next task -/
example : (runNar env0 [shortProduct, .cycle 0, .declWork, ln "<c --> d>."]).map
    (fun r => (r.workerAlive, r.sh.judgementTasks.length, (cycle env0 r 0).toOption.isSome)) = .ok (false, 1, false) := by
  decide +kernel

end Nar.Props
