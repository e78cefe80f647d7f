import Verif.Lemmas.Task3
import Verif.Props.Task
/-! # Property theorems about whole cycles and the worker (C19, C20, C22, C65) -/
namespace Nar.Props
open Nar Term

/-! ## C22: what credit is -/

/-- The credit by which tasks are ranked. -/
theorem C22_credit (decay : Int → Rat) (t : Task) (now : Int) : taskCalcCredit decay t now = creditAt decay t now := by
  unfold taskCalcCredit creditAt
  ring

example : creditAt (fun d => 1 / (1 + d)) ⟨jdg "a" "b" 1 (1/2) 1, 2, 5, 1/2, 1000, 7⟩ 8 = 3/4 := by decide +kernel

/-! ## C19: which beliefs are tried as answers -/

/-- When a question is sampled, one of the questions is offered exactly the candidates in memory, and nothing else
changes. -/
theorem C19_candidates (cfg : Cfg) (selVal : Rat) (sh sh' : Shared) (calls : List AnswerCall)
    (h : answerSampled cfg selVal sh = .ok (sh', calls)) :
    (sh.questionTasks = [] ∧ sh' = sh ∧ calls = []) ∨
    ∃ (i : Nat) (q q' : Task2) (cands : List Sentence), sh.questionTasks[i]? = some q ∧
      (∀ b, b ∈ cands ↔ Candidate sh q.sentence.term b) ∧
      qaTryAll cfg.nGlobal q cands = .ok (q', calls) ∧
      sh' = { sh with questionTasks := sh.questionTasks.set i q' } := by
  unfold answerSampled at h
  split at h
  · right
    obtain ⟨i, h1, h⟩ := R.bind_ok.1 h
    obtain ⟨q, h2, h⟩ := R.bind_ok.1 h
    obtain ⟨⟨q', c⟩, h3, h⟩ := R.bind_ok.1 h
    cases h
    exact ⟨i, q, q', relevantBeliefs sh q, indexAt_ok.1 h2, relevantBeliefs_iff sh q, h3, rfl⟩
  · left
    rename_i hl
    cases h
    exact ⟨List.eq_nil_of_length_eq_zero (by omega), rfl, rfl⟩

/-- Hence if a belief in memory can answer the sampled question, the question is answered at least that well afterwards. -/
theorem C19_sampled_question_is_answered (cfg : Cfg) (selVal : Rat) (sh sh' : Shared) (calls : List AnswerCall)
    (h : answerSampled cfg selVal sh = .ok (sh', calls)) (hne : sh.questionTasks ≠ []) :
    ∃ (i : Nat) (q q' : Task2), sh.questionTasks[i]? = some q ∧ sh'.questionTasks[i]? = some q' ∧
      ∀ b, Candidate sh q.sentence.term b → CanAnswer q b → ∀ e, Expectation b e → e ≤ q'.bestAnswerExp := by
  rcases C19_candidates cfg selVal sh sh' calls h with ⟨h1, _⟩ | ⟨i, q, q', cands, h1, h2, h3, rfl⟩
  · exact absurd h1 hne
  · refine ⟨i, q, q', h1, ?_, ?_⟩
    · simp only
      rw [List.getElem?_set_self (List.getElem?_eq_some_iff.1 h1).1]
    · intro b hb hc e he
      exact (C19_best_is_maximum cfg.nGlobal q q' cands calls h3).2.1 b ((h2 b).2 hb) hc e he

/-! ## C65: the worker -/

/-- The worker draws exactly the conclusions which follow from the selected task alone, from it and a partner, or from it and
a belief of the concept of its statement; it offers each of them to the questions and adds each of them as belief and task,
with the factor of the selected task times the attention factor of the rule.  Each conclusion has counters of its own. -/
theorem C65_worker (cfg : Cfg) (sh sh' : Shared) (msg : Msg) (calls : List AnswerCall)
    (h : work cfg sh msg = .ok (sh', calls)) :
    ∃ concl p, (∀ c w, (c, w) ∈ concl ↔ Concludes sh msg c w) ∧ sh.heap[msg.primary]? = some p ∧
      moreTasks cfg (sh, []) (workOps p.mulCredit msg.cycleCounter (nameCells msg.cycleCounter concl)) = .ok (sh', calls) := by
  obtain ⟨concl, p, h1, h2, h3⟩ := work_more [] h
  obtain ⟨drawn, rfl, hd⟩ := workConclusions_iff h1
  exact ⟨drawn, p, hd, h2, by simpa using h3⟩

/-- Attention factors are between 0 and 1: a derived task never has a larger factor than its parent. -/
theorem C65_factor_never_grows (sh : Shared) (msg : Msg) (c : Sentence) (w : Rat) (h : Concludes sh msg c w) :
    0 ≤ w ∧ w ≤ 1 := concludes_weight h

/-- One reasoning cycle is this sequence of elementary actions. -/
theorem C65_cycle (cfg : Cfg) (selVal : Rat) (now : Int) (sh sh' : Shared) (msg : Option Msg) (calls : List AnswerCall)
    (h : reasonCycle cfg selVal now sh = .ok (sh', msg, calls)) :
    moreTasks cfg (sh, []) (cycleOps (sh.cycleCounter + 1) selVal now msg) = .ok (sh', calls) := by
  simpa using reasonCycle_more [] h

/-- Every history of the whole system (inputs, cycles, worker steps, in any order) is a history of elementary actions; so
everything proved for those holds for the system. -/
theorem C65_system_histories (cfg : Cfg) (ops : List SysOp) (s : Sys) (h : runSys cfg ops = .ok s) :
    ∃ tops, runTasks cfg tops = .ok (s.sh, s.log) := runSys_history' h

/-- C20 for the whole system: no two tasks in the working list have the same id. -/
theorem C20_system_unique_ids (cfg : Cfg) (ops : List SysOp) (s : Sys) (h : runSys cfg ops = .ok s) :
    ∃ ws, Working s.sh ws ∧ (ws.map (·.id)).Nodup ∧ ∀ t ∈ ws, (calcComplexity t.sentence.term : Int) ≤ cfg.maxComplexity := by
  obtain ⟨tops, ht⟩ := runSys_history' h
  obtain ⟨ws, hw⟩ := C20_working_list_readable cfg tops s.sh s.log ht
  exact ⟨ws, hw, C20_unique_ids cfg tops s.sh s.log ws ht hw, C20_bounded_complexity cfg tops s.sh s.log ws ht hw⟩

/-- C19 for the whole system: every reported answer is a judgement which is an instance of the question, with positive
expectation. -/
theorem C19_system_answers_match (cfg : Cfg) (ops : List SysOp) (s : Sys) (h : runSys cfg ops = .ok s) :
    ∀ c ∈ s.log, c.answer.punct = .JUGEMENT ∧ (∃ θ, inst θ c.question = c.answer.term) ∧
      ∃ e, Expectation c.answer e ∧ 0 < e := by
  obtain ⟨tops, ht⟩ := runSys_history' h
  exact C19_every_answer_matches cfg tops s.sh s.log ht

/-- C22 for the whole system: in every state the task which is taken next has maximal credit. -/
theorem C22_system_takes_best (cfg : Cfg) (ops : List SysOp) (s : Sys) (h : runSys cfg ops = .ok s)
    (hs : ∀ op ∈ ops, op.CreditSane) (hd : ∀ d, 0 ≤ cfg.decay d) (hne : s.sh.judgementTasks ≠ []) :
    ∃ sh' r t, selectPrimary cfg s.sh = .ok (sh', some r) ∧ s.sh.heap[r]? = some t ∧
      (∀ r' ∈ s.sh.judgementTasks, ∀ t', s.sh.heap[r']? = some t' →
        creditAt cfg.decay t' s.sh.cycleCounter ≤ creditAt cfg.decay t s.sh.cycleCounter) ∧
      (r :: sh'.judgementTasks).Perm s.sh.judgementTasks := by
  obtain ⟨tops, ht, hsane⟩ := runSys_history h hs
  simpa only [C22_credit] using C22_cycle_takes_best cfg tops s.sh s.log ht hsane hd hne

/-- two premises, a question, and three cycles with the worker -/
def sys1 : List SysOp :=
  [.input (jdg "a" "b" 1 (9/10) 1) true 1 0, .input (jdg "b" "c" 1 (9/10) 2) true 1 0, .input (ask "x" "c") true 1 0,
   .cycle (1/2) 1, .work, .cycle (1/2) 2, .work]

/-- the derived statement `a --> c` is among the tasks; the question was answered -/
example : (runSys cfg1 sys1).map (fun s => (s.sh.heap.map (·.sentence.term), s.log.map (·.answer.term), s.sh.judgementTasks)) =
    .ok ([.Stmt .INH (.Name "a") (.Name "b"), .Stmt .INH (.Name "b") (.Name "c"), .Stmt .INH (.Name "a") (.Name "c")],
      [.Stmt .INH (.Name "b") (.Name "c")], [0]) := by decide +kernel
example : ∀ op ∈ sys1, op.CreditSane := by
  intro op hop
  simp only [sys1, List.mem_cons, List.not_mem_nil, or_false] at hop
  rcases hop with rfl | rfl | rfl | rfl | rfl | rfl | rfl <;> simp [SysOp.CreditSane]

end Nar.Props
