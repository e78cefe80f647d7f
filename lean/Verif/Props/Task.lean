import Verif.Lemmas.Task2
import Verif.Props.Mem
import Verif.Props.Unify
/-! # Property theorems about tasks and questions (C19-C22, C57, C59)

Histories are lists of `TaskOp`: every interleaving of what the main thread and the worker do to the shared
state. -/
namespace Nar.Props
open Nar Term

/-! ## concrete things for the examples -/

/-- a configuration: complexity 64, 20 beliefs, one global handler, no decay -/
def cfg1 : Cfg := { maxComplexity := 64, nBeliefs := 20, nGlobal := 1, decay := fun _ => 1 }

/-- `<?x --> y>?` -/
def ask (x y : String) : Sentence :=
  { term := .Stmt .INH (.QVar x) (.Name y), punct := .QUESTION, stamp := ⟨[99]⟩, t := none, expDt := none,
    evi := none, usage := ⟨0, 0, []⟩ }

/-- a history with a question, judgements and derived answers -/
def ops1 : List TaskOp :=
  [.add (jdg "a" "b" 1 (1/2) 1) true 1 0, .add (ask "x" "b") true 1 0, .tick, .creditQuestions, .baseCredit,
   .answer (1/2), .offer (jdg "c" "b" 1 (1/4) 2), .offer (jdg "c" "b" 1 (3/4) 2),
   .add (jdg "a" "b" 1 (1/2) 3) true 1 1, .select, .cleanup, .rebuild]

example : (runTasks cfg1 ops1).map (fun st => (st.1.judgementTasks, st.1.heap.map (·.id),
    st.1.questionTasks.map (·.bestAnswerExp))) = .ok ([2, 1], [1000, 1001, 1002], [7/8]) := by decide +kernel
example : (runTasks cfg1 ops1).map (fun st => st.2.map (fun c => (c.handler, c.answer.term))) =
    .ok [(.global 0, .Stmt .INH (.Name "a") (.Name "b")), (.global 0, .Stmt .INH (.Name "c") (.Name "b"))] := by
  decide +kernel

/-! ## C19 -/

/-- For every question and every sequence of candidates: there is one list of reported answers, a part of
the candidates in the same order and strictly better from answer to answer; every registered handler gets
exactly this list, other handlers get nothing, and each answer is a judgement whose statement is an instance
of the question. -/
theorem C19_answers_improve (n : Nat) (q q' : Task2) (cands : List Sentence) (calls : List AnswerCall)
    (h : qaTryAll n q cands = .ok (q', calls)) :
    ∃ answers : List Sentence, answers.Sublist cands ∧ StrictlyImproving answers ∧
      (∀ a ∈ answers, a.punct = .JUGEMENT ∧ (∃ θ, inst θ q.sentence.term = a.term) ∧
        ∃ e, Expectation a e ∧ q.bestAnswerExp < e) ∧
      (∀ hd, Registered n q hd → answersTo calls hd = answers) ∧
      (∀ hd, ¬ Registered n q hd → answersTo calls hd = []) := by
  obtain ⟨_, _, _, _, _, _, as, j1, j2, j3, j4, j5, _⟩ := qaTryAll_spec h
  refine ⟨as, j2, j1, ?_, j4, j5⟩
  intro a ha
  obtain ⟨hc, e, he, hl, _⟩ := j3 a ha
  obtain ⟨σ, hσ⟩ := Option.isSome_iff_exists.1 hc.2
  exact ⟨hc.1, ⟨fun v => substVar v σ, by rw [← unifySubst_eq_inst]; exact C02_match_sound _ _ σ hσ⟩, e, he, hl⟩

/-- The remembered best is exactly the maximum of the old best and of the expectations of the candidates
which can answer the question. -/
theorem C19_best_is_maximum (n : Nat) (q q' : Task2) (cands : List Sentence) (calls : List AnswerCall)
    (h : qaTryAll n q cands = .ok (q', calls)) :
    q.bestAnswerExp ≤ q'.bestAnswerExp ∧
    (∀ c ∈ cands, CanAnswer q c → ∀ e, Expectation c e → e ≤ q'.bestAnswerExp) ∧
    (q'.bestAnswerExp = q.bestAnswerExp ∨ ∃ c ∈ cands, CanAnswer q c ∧ Expectation c q'.bestAnswerExp) := by
  obtain ⟨_, _, _, h4, h5, h6, _⟩ := qaTryAll_spec h
  exact ⟨h4, h6, h5⟩

/-- a candidate better than everything before is reported -/
theorem C19_better_answer_is_reported (n : Nat) (q q' : Task2) (c : Sentence) (calls : List AnswerCall) (e : Rat)
    (h : qaTryAnswer n q c = .ok (q', calls)) (hc : CanAnswer q c) (he : Expectation c e)
    (hb : q.bestAnswerExp < e) : q'.bestAnswerExp = e ∧ ∀ hd, Registered n q hd → answersTo calls hd = [c] := by
  rcases qaTryAnswer_cases h with ⟨_, _, hp | ⟨e', he', hle | hn⟩⟩ | ⟨e', he', _, _, rfl, rfl⟩
  · exact absurd hc.1 hp
  · rw [he.unique he'] at hb; exact absurd hb (not_lt.2 hle)
  · exact absurd hc hn
  · exact ⟨he'.unique he, fun hd hr => (answersTo_one n q c hd).1 hr⟩

/-- three candidates, of which the middle one is worse than the first -/
example : (qaTryAll 1 { sentence := ask "x" "b", handler := true, bestAnswerExp := 0, prio := 1 }
    [jdg "a" "b" 1 (1/2) 1, jdg "c" "b" 1 (1/4) 2, jdg "c" "d" 1 (9/10) 2, jdg "c" "b" 1 (3/4) 2]).map
      (fun r => (r.1.bestAnswerExp, answersTo r.2 .ofTask)) =
    .ok (7/8, [jdg "a" "b" 1 (1/2) 1, jdg "c" "b" 1 (3/4) 2]) := by
  decide +kernel

/-- Over every history: each question has only ever been changed by offering it a sequence of candidates,
starting without an answer, and the resulting calls are part of the log.  So the C19 theorems above describe
the whole life of the question. -/
theorem C19_question_history (cfg : Cfg) (ops : List TaskOp) (sh : Shared) (log : List AnswerCall)
    (h : runTasks cfg ops = .ok (sh, log)) (i : Nat) (q : Task2) (hq : sh.questionTasks[i]? = some q) :
    ∃ cands calls, qaTryAll cfg.nGlobal { q with bestAnswerExp := 0 } cands = .ok (q, calls) ∧ calls.Sublist log := by
  have key := (runTasks_inv (fun st : Shared × List AnswerCall => ∀ (i : Nat) (q : Task2), st.1.questionTasks[i]? = some q →
    ∃ cands calls, qaTryAll cfg.nGlobal { q with bestAnswerExp := 0 } cands = .ok (q, calls) ∧ calls.Sublist st.2)
    h (by simp [createShared]) ?_).2
  · exact key i q hq
  · intro op _ sh log sh' calls _ hP hrun i q' hq'
    obtain ⟨h1, h2, h3, _⟩ := TaskOp.run_questions hrun
    rcases Nat.lt_or_ge i sh.questionTasks.length with hlt | hge
    · obtain ⟨cands, cs, k1, k2⟩ := h2 i _ q' (List.getElem?_eq_getElem hlt) hq'
      obtain ⟨cands0, cs0, k3, k4⟩ := hP i _ (List.getElem?_eq_getElem hlt)
      refine ⟨cands0 ++ cands, cs0 ++ cs, ?_, List.Sublist.append k4 k2⟩
      have := qaTryAll_append k3 k1
      obtain ⟨e1, e2, e3, _⟩ := qaTryAll_spec k1
      rw [e1, e2, e3]
      exact this
    · obtain ⟨e1, _, _⟩ := h3 i q' hge hq'
      refine ⟨[], [], ?_, List.nil_sublist _⟩
      unfold qaTryAll
      cases q'; simp only at e1; rw [e1]

/-- Every call of a handler, in every history, reports a judgement whose statement is an instance of the
question and which has a positive expectation. -/
theorem C19_every_answer_matches (cfg : Cfg) (ops : List TaskOp) (sh : Shared) (log : List AnswerCall)
    (h : runTasks cfg ops = .ok (sh, log)) : ∀ c ∈ log, c.answer.punct = .JUGEMENT ∧
      (∃ θ, inst θ c.question = c.answer.term) ∧ ∃ e, Expectation c.answer e ∧ 0 < e := by
  have key := (runTasks_inv (fun st : Shared × List AnswerCall =>
    (∀ q ∈ st.1.questionTasks, 0 ≤ q.bestAnswerExp) ∧ ∀ c ∈ st.2, c.answer.punct = .JUGEMENT ∧
      (∃ θ, inst θ c.question = c.answer.term) ∧ ∃ e, Expectation c.answer e ∧ 0 < e) h
      (by simp [createShared]) ?_).2
  · exact key.2
  · rintro op _ sh log sh' calls _ ⟨hP0, hP⟩ hrun
    exact TaskOp.run_answers hrun hP0 hP

/-! ## C20 -/

/-- The working list can always be read. -/
theorem C20_working_list_readable (cfg : Cfg) (ops : List TaskOp) (sh : Shared) (log : List AnswerCall)
    (h : runTasks cfg ops = .ok (sh, log)) : ∃ ws, Working sh ws := by
  have hi := (runTasks_inv (fun _ => True) h trivial (fun _ _ _ _ _ _ _ _ _ => trivial)).1
  exact derefs_total hi.valid

/-- Working tasks have pairwise different identifiers. -/
theorem C20_unique_ids (cfg : Cfg) (ops : List TaskOp) (sh : Shared) (log : List AnswerCall) (ws : List Task)
    (h : runTasks cfg ops = .ok (sh, log)) (hw : Working sh ws) : (ws.map (·.id)).Nodup := by
  have hi := (runTasks_inv (fun _ => True) h trivial (fun _ _ _ _ _ _ _ _ _ => trivial)).1
  exact hi.unique_ids hw

/-- No working task is more complex than configured. -/
theorem C20_bounded_complexity (cfg : Cfg) (ops : List TaskOp) (sh : Shared) (log : List AnswerCall) (ws : List Task)
    (h : runTasks cfg ops = .ok (sh, log)) (hw : Working sh ws) :
    ∀ t ∈ ws, (calcComplexity t.sentence.term : Int) ≤ cfg.maxComplexity := by
  have hi := (runTasks_inv (fun _ => True) h trivial (fun _ _ _ _ _ _ _ _ _ => trivial)).1
  exact hi.bounded hw

/-- No two working tasks have the same statement and the same evidence. -/
theorem C20_no_duplicates (cfg : Cfg) (ops : List TaskOp) (sh : Shared) (log : List AnswerCall) (ws : List Task)
    (h : runTasks cfg ops = .ok (sh, log)) (hw : Working sh ws) : ws.Pairwise (fun a b => ¬ SameTask a b) := by
  have hi := (runTasks_inv (fun _ => True) h trivial (fun _ _ _ _ _ _ _ _ _ => trivial)).1
  exact hi.no_duplicates hw

/-- Adding a judgement of admissible complexity makes sure that its statement with its evidence is worked
on: it is in the working list afterwards. -/
theorem C20_added_is_worked_on (cfg : Cfg) (sh sh' : Shared) (s : Sentence) (calcCredit : Bool) (mulCredit : Rat)
    (now : Int) (hs : s.punct = .JUGEMENT) (hc : (calcComplexity s.term : Int) ≤ cfg.maxComplexity)
    (h : memAddTask cfg sh s calcCredit mulCredit now = .ok sh') :
    ∃ r ∈ sh'.judgementTasks, ∃ t, sh'.heap[r]? = some t ∧ t.sentence.term = s.term ∧ t.sentence.stamp = s.stamp := by
  have hmono : ∀ (ss : List Sentence) (a b : Shared), addTasks a calcCredit mulCredit ss = .ok b →
      (∃ r ∈ a.judgementTasks, ∃ t, a.heap[r]? = some t ∧ t.sentence.term = s.term ∧ t.sentence.stamp = s.stamp) →
      (∃ r ∈ b.judgementTasks, ∃ t, b.heap[r]? = some t ∧ t.sentence.term = s.term ∧ t.sentence.stamp = s.stamp) := by
    intro ss
    induction ss with
    | nil => intro a b h hx; cases h; exact hx
    | cons x ss ih =>
      intro a b h hx
      unfold addTasks at h
      cases hp : x.punct with
      | JUGEMENT =>
        rw [hp] at h
        simp only [R.bind_ok] at h
        obtain ⟨tasks, ht, h⟩ := h
        split at h
        · cases h; exact hx
        · rw [R.bind_ok] at h
          obtain ⟨task, htask, h⟩ := h
          refine ih _ b h ?_
          obtain ⟨r, hr, t, ht, hh⟩ := hx
          refine ⟨r, by simp [hr], t, ?_, hh⟩
          have : r < a.heap.length := by
            by_contra hge; rw [List.getElem?_eq_none (by omega)] at ht; cases ht
          simp only; rw [List.getElem?_append_left this]; exact ht
      | QUESTION => rw [hp] at h; exact ih _ b h hx
      | GOAL => rw [hp] at h; exact ih _ b h hx
  rcases memAddTask_cases h with ⟨hgt, _⟩ | ⟨_, mem, rev, _, h2⟩
  · omega
  · unfold addTasks at h2
    rw [hs] at h2
    simp only [R.bind_ok] at h2
    obtain ⟨tasks, ht, h2⟩ := h2
    split at h2
    · rename_i hex
      cases h2
      rw [taskExists_iff] at hex
      obtain ⟨t, htm, e1, e2⟩ := hex
      obtain ⟨r, hr, hrt⟩ := forall₂_right_mem (derefs_iff.1 ht) htm
      exact ⟨r, hr, t, hrt, e1.symm, e2.symm⟩
    · rw [R.bind_ok] at h2
      obtain ⟨task, htask, h2⟩ := h2
      refine hmono _ _ _ h2 ⟨sh.heap.length, by simp, task, by simp, ?_⟩
      have := payCredit_core htask
      exact ⟨congrArg (·.2.1) this, congrArg (·.2.2) this⟩

/-- Sentences which are too complex change nothing at all. -/
theorem C20_too_complex_ignored (cfg : Cfg) (sh : Shared) (s : Sentence) (calcCredit : Bool) (mulCredit : Rat)
    (now : Int) (hc : cfg.maxComplexity < calcComplexity s.term) :
    memAddTask cfg sh s calcCredit mulCredit now = .ok sh := by
  unfold memAddTask
  rw [if_pos hc]

/-- the same input twice, new evidence for it, and a too complex one, for a small limit -/
example : (runTasks { cfg1 with maxComplexity := 3 } [.add (jdg "a" "b" 1 (1/2) 1) true 1 0,
    .add (jdg "a" "b" 1 (1/2) 1) true 1 0, .add (jdg "a" "b" 0 (1/2) 2) true 1 0,
    .add { jdg "a" "b" 0 (1/2) 2 with term := .Stmt .IMPL (.Stmt .INH (.Name "a") (.Name "b")) (.Name "c") } true 1 0]).map
      (fun st => st.1.heap.map (fun t => (t.id, t.sentence.stamp.ids))) =
    .ok [(1000, [1]), (1001, [2]), (1002, [1, 2])] := by decide +kernel

/-! ## C21 -/

/-- The cleanup keeps at most 30 of the working tasks, all with a credit above the minimum; a task which is
dropped has either too little credit, or 30 others were at least as good and are ahead of it. -/
theorem C21_cleanup (cfg : Cfg) (sh sh' : Shared) (h : cleanupTasks cfg sh = .ok sh') :
    sh'.judgementTasks.length ≤ 30 ∧ sh'.judgementTasks.Subperm sh.judgementTasks ∧ sh'.heap = sh.heap ∧
    (∀ r ∈ sh'.judgementTasks, ∃ t, sh.heap[r]? = some t ∧ 1/1000 < taskCalcCredit cfg.decay t sh.cycleCounter) ∧
    (∀ r ∈ sh.judgementTasks, r ∉ sh'.judgementTasks → ∀ t, sh.heap[r]? = some t →
      taskCalcCredit cfg.decay t sh.cycleCounter ≤ 1/1000 ∨
      ∀ r' ∈ sh'.judgementTasks, ∀ t', sh.heap[r']? = some t' →
        taskCalcCredit cfg.decay t sh.cycleCounter ≤ taskCalcCredit cfg.decay t' sh.cycleCounter) := by
  obtain ⟨sorted, hp, hs, hk, rfl⟩ := cleanupTasks_spec h
  have hf : ∀ r, r ∈ (((sorted.take 30).filter (fun p => decide (p.1 > 1/1000))).map (·.2)) →
      ∃ p ∈ sorted.take 30, p.2 = r ∧ 1/1000 < p.1 := by
    intro r hr
    obtain ⟨p, hp, rfl⟩ := List.mem_map.1 hr
    rw [List.mem_filter] at hp
    exact ⟨p, hp.1, rfl, by simpa using hp.2⟩
  refine ⟨?_, ?_, rfl, ?_, ?_⟩
  · rw [List.length_map]
    refine le_trans (List.length_filter_le _ _) ?_
    rw [List.length_take]; omega
  · refine List.Subperm.trans (List.Sublist.subperm ?_) hp.subperm
    exact (List.filter_sublist.trans (List.take_sublist _ _)).map _
  · intro r hr
    obtain ⟨p, hp, rfl, hlt⟩ := hf r hr
    obtain ⟨t, ht, he⟩ := hk p (List.take_subset _ _ hp)
    exact ⟨t, ht, by rw [← he]; exact hlt⟩
  · intro r hr hnr t ht
    obtain ⟨p, hpm, rfl⟩ := List.mem_map.1 (hp.mem_iff.2 hr)
    obtain ⟨t0, ht0, he⟩ := hk p hpm
    rw [ht] at ht0; cases ht0
    by_cases hmin : 1/1000 < p.1
    · right
      intro r' hr' t' ht'
      obtain ⟨p', hp', rfl, _⟩ := hf r' hr'
      obtain ⟨t1, ht1, he'⟩ := hk p' (List.take_subset _ _ hp')
      rw [ht'] at ht1; cases ht1
      rw [← he, ← he']
      have hnt : p ∉ sorted.take 30 := by
        intro hin
        apply hnr
        exact List.mem_map.2 ⟨p, List.mem_filter.2 ⟨hin, by simpa using hmin⟩, rfl⟩
      have hd : p ∈ sorted.drop 30 := by
        rw [← List.take_append_drop 30 sorted] at hpm
        rcases List.mem_append.1 hpm with h | h
        · exact absurd h hnt
        · exact h
      have hs' := hs
      rw [← List.take_append_drop 30 sorted, List.pairwise_append] at hs'
      exact hs'.2.2 p' hp' p hd
    · left; rw [← he]; exact not_lt.1 hmin

/-- If there are at most 30 working tasks, exactly those with too little credit are dropped. -/
theorem C21_cleanup_keeps_few (cfg : Cfg) (sh sh' : Shared) (h : cleanupTasks cfg sh = .ok sh')
    (hl : sh.judgementTasks.length ≤ 30) :
    ∀ r ∈ sh.judgementTasks, ∀ t, sh.heap[r]? = some t → 1/1000 < taskCalcCredit cfg.decay t sh.cycleCounter →
      r ∈ sh'.judgementTasks := by
  obtain ⟨sorted, hp, hs, hk, rfl⟩ := cleanupTasks_spec h
  intro r hr t ht hlt
  obtain ⟨p, hpm, rfl⟩ := List.mem_map.1 (hp.mem_iff.2 hr)
  obtain ⟨t0, ht0, he⟩ := hk p hpm
  rw [ht] at ht0; cases ht0
  refine List.mem_map.2 ⟨p, List.mem_filter.2 ⟨?_, by rw [he]; simpa using hlt⟩, rfl⟩
  rw [List.take_of_length_le]
  · exact hpm
  · have := hp.length_eq; simp at this; omega

/-- a cleanup which drops a task -/
example : (cleanupTasks cfg1 { createShared with
    heap := [⟨jdg "a" "b" 1 (1/2) 1, 1, 0, 1, 1000, 0⟩, ⟨jdg "a" "c" 1 (1/2) 1, 1/2000, 0, 1, 1001, 0⟩,
      ⟨jdg "a" "d" 1 (1/2) 1, 2, 0, 1, 1002, 0⟩], judgementTasks := [0, 1, 2] }).map (·.judgementTasks) =
    .ok [2, 0] := by decide +kernel

/-! ## C22 -/

/-- The best task is chosen: the index is valid and the credit maximal, for every non-empty list of tasks
whose credits are above the initial value of the search. -/
theorem C22_top_selection (decay : Int → Rat) (arr : List Task) (cc : Int) (hne : arr ≠ [])
    (hc : ∀ t ∈ arr, -5000 < taskCalcCredit decay t cc) :
    ∃ t, arr[taskSelByCreditTop decay arr cc]? = some t ∧
      ∀ u ∈ arr, taskCalcCredit decay u cc ≤ taskCalcCredit decay t cc :=
  taskSelByCreditTop_spec hne hc

/-- The other search for the best task needs no such condition. -/
theorem C22_highest_selection (decay : Int → Rat) (arr : List Task) (cc : Int) :
    (arr = [] ∧ tasksSelHighestCreditIdx decay arr cc = none) ∨
    ∃ i t, tasksSelHighestCreditIdx decay arr cc = some i ∧ arr[i]? = some t ∧
      ∀ u ∈ arr, taskCalcCredit decay u cc ≤ taskCalcCredit decay t cc := by
  cases arr with
  | nil => exact .inl ⟨rfl, rfl⟩
  | cons a arr =>
    right
    obtain ⟨b, h1, h2, h3⟩ := highestLoop_spec decay cc arr 1 0 a
    have hmax : ∀ u ∈ a :: arr, taskCalcCredit decay u cc ≤ taskCalcCredit decay b cc := by
      intro u hu
      rcases List.mem_cons.1 hu with rfl | hu
      · exact h2
      · exact h1 u hu
    rcases h3 with ⟨h3, rfl⟩ | ⟨j, h3, h4⟩
    · exact ⟨0, b, by simp [tasksSelHighestCreditIdx, h3], by simp, hmax⟩
    · exact ⟨1 + j, b, by simp [tasksSelHighestCreditIdx, h4], by rw [Nat.add_comm]; simpa using h3, hmax⟩

/-- Random selection: for every draw in [0,1] and every non-empty list of non-negative weights the index is
valid, and it is the first one at which the accumulated weight reaches the drawn share of the total. -/
theorem C22_random_selection (selVal : Rat) (ws : List Rat) (hne : ws ≠ []) (hw : ∀ w ∈ ws, 0 ≤ w)
    (h1 : selVal ≤ 1) : ∃ i, selByWeight selVal ws = .ok i ∧ i < ws.length ∧
      selVal * ws.sum ≤ (ws.take (i + 1)).sum ∧ ∀ j < i, (ws.take (j + 1)).sum < selVal * ws.sum := by
  unfold selByWeight
  cases h : selLoop ws (selVal * ws.sum) 0 0 with
  | some i =>
    obtain ⟨_, h2, h3, h4⟩ := selLoop_some h
    refine ⟨i, rfl, by simpa using h2, by simpa using h3, ?_⟩
    intro j hj
    simpa using h4 j (Nat.zero_le _) hj
  | none =>
    exfalso
    have := selLoop_none h hne
    have hs : 0 ≤ ws.sum := List.sum_nonneg hw
    nlinarith

/-- Random selection never returns an invalid index, whatever the weights and the draw. -/
theorem C22_random_selection_valid (selVal : Rat) (ws : List Rat) (hne : ws ≠ []) :
    ∃ i, selByWeight selVal ws = .ok i ∧ i < ws.length := by
  have hl : 0 < ws.length := List.length_pos_iff.2 hne
  unfold selByWeight
  cases h : selLoop ws (selVal * ws.sum) 0 0 with
  | some i => exact ⟨i, rfl, by simpa using (selLoop_some h).2.1⟩
  | none =>
    simp only
    rw [if_neg (by omega)]
    exact ⟨_, rfl, by omega⟩

/-- Random selection from nothing crashes. -/
theorem C22_random_selection_empty (selVal : Rat) : selByWeight selVal [] = .error .index := rfl

example : selByWeight (1/2) [1, 0, 2, 1] = .ok 2 ∧ selByWeight 0 [1, 0, 2, 1] = .ok 0 := by decide +kernel

/-- In every state which can come up (with multipliers and decay not negative) the reasoning cycle takes
exactly one task out of a non-empty working list, one with maximal credit. -/
theorem C22_cycle_takes_best (cfg : Cfg) (ops : List TaskOp) (sh : Shared) (log : List AnswerCall)
    (h : runTasks cfg ops = .ok (sh, log)) (hs : ∀ op ∈ ops, op.CreditSane) (hd : ∀ d, 0 ≤ cfg.decay d)
    (hne : sh.judgementTasks ≠ []) :
    ∃ sh' r t, selectPrimary cfg sh = .ok (sh', some r) ∧ sh.heap[r]? = some t ∧
      (∀ r' ∈ sh.judgementTasks, ∀ t', sh.heap[r']? = some t' →
        taskCalcCredit cfg.decay t' sh.cycleCounter ≤ taskCalcCredit cfg.decay t sh.cycleCounter) ∧
      (r :: sh'.judgementTasks).Perm sh.judgementTasks := by
  have hi := runTasks_inv (fun st => CreditOk st.1) h (by simp [CreditOk, createShared])
    (fun op hop sh log sh' calls _ hP hrun => TaskOp.run_credit hrun hP (hs op hop))
  obtain ⟨hi, hcr⟩ := hi
  exact hi.takes_best hcr hd hne

/-- a reachable state with three working tasks -/
example : (runTasks cfg1 ops1).map (fun st => decide (st.1.judgementTasks ≠ [])) = .ok true := by decide +kernel
example : ∀ op ∈ ops1, op.CreditSane := by
  intro op hop
  simp only [ops1, List.mem_cons, List.not_mem_nil, or_false] at hop
  rcases hop with rfl | rfl | rfl | rfl | rfl | rfl | rfl | rfl | rfl | rfl | rfl | rfl <;> simp [TaskOp.CreditSane]

/-! ## C57 -/

/-- The lookup of tasks by term is sound and complete in every state which can come up: a task listed under
a term contains that term, and a working task is listed under each of its sub-terms. -/
theorem C57_lookup (cfg : Cfg) (ops : List TaskOp) (sh : Shared) (log : List AnswerCall)
    (h : runTasks cfg ops = .ok (sh, log)) :
    (∀ s refs, lookupRefs sh.judgementTasksByTerm s = some refs → ∀ r ∈ refs,
      ∃ t, sh.heap[r]? = some t ∧ IsSubterm s t.sentence.term) ∧
    (∀ r ∈ sh.judgementTasks, ∀ t, sh.heap[r]? = some t → ∀ s, IsSubterm s t.sentence.term →
      ∃ refs, lookupRefs sh.judgementTasksByTerm s = some refs ∧ r ∈ refs) := by
  have hi := (runTasks_inv (fun _ => True) h trivial (fun _ _ _ _ _ _ _ _ _ => trivial)).1
  exact hi.lookup

example : (runTasks cfg1 ops1).map (fun st => lookupRefs st.1.judgementTasksByTerm (.Name "b")) =
    .ok (some [2, 1]) := by decide +kernel

/-! ## C59 -/

/-- Partners for a task: no task twice, at most 300, from simple to complex, each shares a sub-term with the
task. -/
theorem C59_partners (cfg : Cfg) (ops : List TaskOp) (sh : Shared) (log : List AnswerCall)
    (h : runTasks cfg ops = .ok (sh, log)) (p : Nat) (pt : Task) (hp : sh.heap[p]? = some pt) :
    ∃ secs ts, secondaryElligable sh p = .ok secs ∧ sh.derefs secs = .ok ts ∧ secs.Nodup ∧ secs.length ≤ 300 ∧
      ts.Pairwise (fun a b => calcComplexity a.sentence.term ≤ calcComplexity b.sentence.term) ∧
      ∀ t ∈ ts, ∃ s, IsSubterm s pt.sentence.term ∧ IsSubterm s t.sentence.term := by
  have hi := (runTasks_inv (fun _ => True) h trivial (fun _ _ _ _ _ _ _ _ _ => trivial)).1
  have hsound := (C57_lookup cfg ops sh log h).1
  have hc : ∀ r ∈ (retUniqueSubterms pt.sentence.term).flatMap
      (fun t => ((lookupRefs sh.judgementTasksByTerm t).getD []).take 51),
      ∃ t s, sh.heap[r]? = some t ∧ IsSubterm s pt.sentence.term ∧ IsSubterm s t.sentence.term := by
    intro r hr
    obtain ⟨s, hs, hr⟩ := List.mem_flatMap.1 hr
    cases hl : lookupRefs sh.judgementTasksByTerm s with
    | none => rw [hl] at hr; simp at hr
    | some refs =>
      rw [hl] at hr
      obtain ⟨t, ht, hst⟩ := hsound s refs hl r (List.take_subset _ _ hr)
      exact ⟨t, s, ht, (mem_retUniqueSubterms _ _).1 hs, hst⟩
  have hlt : ∀ {r : Nat} {t : Task}, sh.heap[r]? = some t → r < sh.heap.length := by
    intro r t hr; by_contra hge; rw [List.getElem?_eq_none (by omega)] at hr; cases hr
  obtain ⟨acc, hacc⟩ := addEligible_total (sh := sh) (acc0 := []) (cands := _) (by simp)
    (fun r hr => by obtain ⟨t, _, ht, _⟩ := hc r hr; exact hlt ht)
  obtain ⟨k1, k2, k3⟩ := addEligible_fold hi.ids hacc (by simp) (by simp)
  have harr : ∃ arr : List (Nat × Nat), acc.mapM (fun r => do
        let t ← indexAt sh.heap r; .ok (calcComplexity t.sentence.term, r)) = (.ok arr : R _) ∧
      arr.map (·.2) = acc ∧ ∀ x ∈ arr, ∃ t, sh.heap[x.2]? = some t ∧ x.1 = calcComplexity t.sentence.term := by
    clear k1 k2 hacc
    induction acc with
    | nil => exact ⟨[], rfl, rfl, by simp⟩
    | cons r acc ih =>
      obtain ⟨arr, h1, h2, h3⟩ := ih (fun r hr => k3 r (by simp [hr]))
      have hr := k3 r (by simp)
      refine ⟨(calcComplexity sh.heap[r].sentence.term, r) :: arr, ?_, by simp [h2], ?_⟩
      · rw [mapM_ok_iff] at h1 ⊢
        refine .cons ?_ h1
        rw [R.bind_ok]
        exact ⟨_, indexAt_ok.2 (List.getElem?_eq_getElem hr), rfl⟩
      · intro x hx
        rcases List.mem_cons.1 hx with rfl | hx
        · exact ⟨_, List.getElem?_eq_getElem hr, rfl⟩
        · exact h3 x hx
  obtain ⟨arr, ha1, ha2, ha3⟩ := harr
  have hsec : secondaryElligable sh p = .ok (((sortAsc arr).take (min (sortAsc arr).length 300)).map (·.2)) := by
    unfold secondaryElligable
    rw [R.bind_ok]
    refine ⟨pt, indexAt_ok.2 hp, ?_⟩
    rw [R.bind_ok]
    refine ⟨acc, hacc, ?_⟩
    rw [R.bind_ok]
    exact ⟨arr, ha1, rfl⟩
  have htake : ∀ x ∈ (sortAsc arr).take (min (sortAsc arr).length 300), x ∈ arr :=
    fun x hx => (sortAsc_perm arr).mem_iff.1 (List.take_subset _ _ hx)
  have hvalid : ∀ r ∈ ((sortAsc arr).take (min (sortAsc arr).length 300)).map (·.2), r < sh.heap.length := by
    intro r hr
    obtain ⟨x, hx, rfl⟩ := List.mem_map.1 hr
    obtain ⟨t, ht, _⟩ := ha3 x (htake x hx)
    exact hlt ht
  obtain ⟨ts, hts⟩ := derefs_total hvalid
  refine ⟨_, ts, hsec, hts, ?_, ?_, ?_, ?_⟩
  · have hn : ((sortAsc arr).map (·.2)).Nodup := by
      rw [((sortAsc_perm arr).map _).nodup_iff, ha2]; exact k1
    exact hn.sublist ((List.take_sublist _ _).map _)
  · simp
  · have hsort : ((sortAsc arr).take (min (sortAsc arr).length 300)).Pairwise (fun a b => a.1 ≤ b.1) :=
      (sortAsc_sorted arr).sublist (List.take_sublist _ _)
    have hf := derefs_iff.1 hts
    clear hsec hts hvalid
    generalize (sortAsc arr).take (min (sortAsc arr).length 300) = l at hsort hf htake
    induction l generalizing ts with
    | nil => cases hf; exact .nil
    | cons x l ih =>
      rw [List.map_cons] at hf
      cases hf with
      | cons hx hf =>
        rename_i t ts
        rw [List.pairwise_cons] at hsort ⊢
        refine ⟨?_, ih ts hsort.2 hf (fun y hy => htake y (by simp [hy]))⟩
        intro u hu
        obtain ⟨r, hr, hru⟩ := forall₂_right_mem hf hu
        obtain ⟨y, hy, rfl⟩ := List.mem_map.1 hr
        obtain ⟨t1, ht1, e1⟩ := ha3 x (htake x (by simp))
        obtain ⟨t2, ht2, e2⟩ := ha3 y (htake y (by simp [hy]))
        rw [hx] at ht1; cases ht1
        rw [hru] at ht2; cases ht2
        rw [← e1, ← e2]; exact hsort.1 y hy
  · intro t ht
    obtain ⟨r, hr, hrt⟩ := forall₂_right_mem (derefs_iff.1 hts) ht
    obtain ⟨x, hx, rfl⟩ := List.mem_map.1 hr
    have hin : x.2 ∈ acc := by rw [← ha2]; exact List.mem_map.2 ⟨x, htake x hx, rfl⟩
    rw [k2] at hin
    rcases hin with hin | hin
    · simp at hin
    · obtain ⟨t', s, ht', hs1, hs2⟩ := hc _ hin
      rw [hrt] at ht'; cases ht'
      exact ⟨s, hs1, hs2⟩

/-- No partner is overlooked, as long as no term has more than 51 tasks and there are at most 300 partners:
every working task which shares a sub-term is among them. -/
theorem C59_partners_complete (cfg : Cfg) (ops : List TaskOp) (sh : Shared) (log : List AnswerCall)
    (h : runTasks cfg ops = .ok (sh, log)) (p : Nat) (pt : Task) (hp : sh.heap[p]? = some pt) (secs : List Nat)
    (hsec : secondaryElligable sh p = .ok secs)
    (h51 : ∀ s refs, lookupRefs sh.judgementTasksByTerm s = some refs → refs.length ≤ 51)
    (h300 : sh.heap.length ≤ 300) :
    ∀ r ∈ sh.judgementTasks, ∀ t s, sh.heap[r]? = some t → IsSubterm s pt.sentence.term →
      IsSubterm s t.sentence.term → r ∈ secs := by
  have hi := (runTasks_inv (fun _ => True) h trivial (fun _ _ _ _ _ _ _ _ _ => trivial)).1
  intro r hr t s ht hs1 hs2
  obtain ⟨refs, hl, hrr⟩ := hi.complete r hr t ht s hs2
  unfold secondaryElligable at hsec
  rw [R.bind_ok] at hsec
  obtain ⟨pt', hpt, hsec⟩ := hsec
  rw [indexAt_ok, hp] at hpt
  cases hpt
  simp only [R.bind_ok] at hsec
  obtain ⟨acc, hacc, arr, harr, hsec⟩ := hsec
  cases hsec
  obtain ⟨k1, k2, k3⟩ := addEligible_fold hi.ids hacc (by simp) (by simp)
  have hracc : r ∈ acc := by
    rw [k2]; right
    refine List.mem_flatMap.2 ⟨s, (mem_retUniqueSubterms _ _).2 hs1, ?_⟩
    simp only at hl
    rw [hl, Option.getD_some, List.take_of_length_le (h51 s refs hl)]
    exact hrr
  rw [mapM_ok_iff] at harr
  obtain ⟨x, hx, hxr⟩ := forall₂_left_mem harr hracc
  rw [R.bind_ok] at hxr
  obtain ⟨_, _, hxr⟩ := hxr
  cases hxr
  have hle : acc.length ≤ sh.heap.length := by
    have : acc.Subperm (List.range sh.heap.length) :=
      List.subperm_of_subset k1 (fun r hr => List.mem_range.2 (k3 r hr))
    simpa using this.length_le
  have hlen : (sortAsc arr).length ≤ 300 := by
    rw [(sortAsc_perm arr).length_eq, ← harr.length_eq]; omega
  rw [Nat.min_eq_left hlen, List.take_length]
  exact List.mem_map.2 ⟨_, (sortAsc_perm arr).mem_iff.2 hx, rfl⟩

example : (runTasks cfg1 ops1).bind (fun st => secondaryElligable st.1 2) = .ok [2, 1] := by decide +kernel

end Nar.Props
