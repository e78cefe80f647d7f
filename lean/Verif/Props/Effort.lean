import Verif.Lemmas.Effort
import Verif.Props.Chance
import Verif.Props.Decl
/-! # C111: the counters count, and do not run over -/
namespace Nar.Props
open Nar Term

/-- C111: after any use whatsoever the clocks show how often the reasoner was asked: both clocks of the declarative reasoner the
number of cycles asked for, the clock of the procedural reasoner the number of steps asked for. -/
theorem C111_clocks (env : Env) (ops : List NarOp) (r : Reasoner) (h : runNar env ops = .ok r) :
    r.currentTime = altogether cyclesAsked ops ∧ r.sh.cycleCounter = altogether cyclesAsked ops ∧
      r.proc.t = altogether stepsAsked ops := by
  obtain ⟨h1, h2, h3⟩ := moreNar_clock h
  exact ⟨h1.trans (by simp [createNar]), h2.trans (by simp [createNar, createShared]), h3.trans (by simp [createNar, narInit])⟩

example : altogether cyclesAsked typed = 5 ∧ altogether stepsAsked typed = 0 ∧ altogether sentencesPut typed = 5 := by decide +kernel
example : (runNar env0 typed).map (fun r => (r.currentTime, r.sh.cycleCounter, r.proc.t, r.sh.stampIdCounter, r.sh.taskIdCounter)) =
    .ok (5, 5, 0, 4, 1012) := by decide +kernel
example : altogether cyclesAsked [ln "!sp", ln "!s", .cycle 0, ln "!s07", ln "!s-3", ln "!sp", ln "!spAB"] = 9 ∧
    altogether stepsAsked [ln "!sp", ln "!s", .cycle 0, ln "!s07", ln "!s-3", ln "!sp", ln "!spAB"] = 3 := by decide +kernel
example : (runNar env0 [ln "!sp", ln "!s", .cycle 0, ln "!s07", ln "!s-3", ln "!sp", ln "!spAB"]).map (fun r => (r.currentTime, r.proc.t)) =
    .ok (9, 3) := by decide +kernel

/-- C111: the numbers given out to evidence and to tasks are limited by what was put in, by the user or by operators, and by the
cycles asked for, however the worker is scheduled. -/
theorem C111_identifiers (env : Env) (ops : List NarOp) (r : Reasoner) (h : runNar env ops = .ok r)
    (hs : SaneTelling env ops) :
    0 ≤ r.sh.stampIdCounter ∧ r.sh.stampIdCounter ≤ putInAlong env createNar ops ∧ 1000 ≤ r.sh.taskIdCounter ∧
      r.sh.taskIdCounter ≤ 1000 + 2 * (putInAlong env createNar ops : Int) + 36634 * (altogether cyclesAsked ops : Int) := by
  have hi := runNar_Ids h hs
  refine ⟨hi.some, hi.stamp, hi.start, ?_⟩
  have ht := hi.tasks
  have hp : (perCycle : Int) = 36634 := by decide
  rw [hp] at ht
  have : (0 : Int) ≤ r.queue.length := by omega
  omega

/-- three sentences from the user, and a relation reported by an operator in a step -/
example : altogether sentencesPut (reporting "a. :|:") = 3 ∧ putInAlong env0 createNar (reporting "a. :|:") = 4 ∧
    putInAlong env0 createNar (reporting "z. :|:") = 3 ∧
    (runNar env0 (reporting "a. :|:")).map (fun r => (r.sh.stampIdCounter, r.sh.taskIdCounter)) = .ok (4, 1001) := by decide +kernel

/-- without procedural steps only the user puts something in -/
theorem C111_put_in_by_user (env : Env) (ops : List NarOp) (h : altogether stepsAsked ops = 0) (r : Reasoner) :
    putInAlong env r ops ≤ altogether sentencesPut ops := by
  refine putInAlong_noSteps (fun op hop => ?_) r
  have := List.single_le_sum (l := ops.map stepsAsked) (by simp) (stepsAsked op) (List.mem_map.2 ⟨op, hop, rfl⟩)
  unfold altogether at h
  omega

/-- C111: so no counter runs over: as long as the reasoner was not asked for more than 10¹⁴ cycles and 10¹⁴ steps and no more than
10¹⁴ sentences were put in, each of the five counters holds its true value in 64 bits. -/
theorem C111_no_overflow (env : Env) (ops : List NarOp) (r : Reasoner) (h : runNar env ops = .ok r)
    (hs : SaneTelling env ops) (hc : altogether cyclesAsked ops ≤ 10 ^ 14)
    (hp : putInAlong env createNar ops ≤ 10 ^ 14) (hst : altogether stepsAsked ops ≤ 10 ^ 14) :
    ∀ n ∈ [r.currentTime, r.sh.cycleCounter, r.proc.t, r.sh.stampIdCounter, r.sh.taskIdCounter], 0 ≤ n ∧ n ≤ maxI64 := by
  obtain ⟨a1, a2, a3⟩ := C111_clocks env ops r h
  obtain ⟨b1, b2, b3, b4⟩ := C111_identifiers env ops r h hs
  intro n hm
  simp only [List.mem_cons, List.not_mem_nil, or_false] at hm
  unfold maxI64
  rcases hm with rfl | rfl | rfl | rfl | rfl <;> constructor <;> omega

example : ∃ r, runNar env0 typed = .ok r ∧
    ∀ n ∈ [r.currentTime, r.sh.cycleCounter, r.proc.t, r.sh.stampIdCounter, r.sh.taskIdCounter], 0 ≤ n ∧ n ≤ maxI64 := by
  obtain ⟨r, hr, _⟩ := C58_declarative_use_never_crashes _ _ typed_safe
  refine ⟨r, hr, C111_no_overflow env0 _ r hr (SafeUse.telling typed_safe) (by decide +kernel) ?_ (by decide +kernel)⟩
  exact le_trans (C111_put_in_by_user _ _ (by decide +kernel) _) (by decide +kernel)

end Nar.Props
