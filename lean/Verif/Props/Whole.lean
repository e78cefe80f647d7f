import Verif.Props.Nar
import Verif.Props.Proc
import Verif.Lemmas.Whole3
/-!
# The guarantees of the parts hold for the reasoner as a whole

A reasoner is driven by lines, direct input, rounds of its workers and operators, in any order.  Here the guarantees which
are stated for the declarative part (C14–C22) and for the procedural part (C23–C35) under their own histories are stated for
the whole reasoner and all its histories.
-/
namespace Nar.Props
open Nar Nar.Term

/-! ## C71 -/

/-- C71: whatever happens to the reasoner, its declarative part goes on by elementary actions, with sane attention factors
and evidence behind every statement. -/
theorem C71_declarative (env : Env) (ops more : List NarOp) (r r' : Reasoner) (h : runNar env ops = .ok r)
    (h' : moreNar env r more = .ok r') : DeclMore env r.sh r.answers r'.sh r'.answers := runNar_more h h'

/-- C71: and its procedural part by elementary actions and whole steps. -/
theorem C71_procedural (env : Env) (ops more : List NarOp) (r r' : Reasoner) (h : runNar env ops = .ok r)
    (h' : moreNar env r more = .ok r') : ProcMore env r.proc r'.proc := runNar_procMore h h'

theorem whole_start (env : Env) (ops : List NarOp) (r : Reasoner) (h : runNar env ops = .ok r) :
    DeclMore env createShared [] r.sh r.answers := runNar_more (ops := []) rfl h

/-- C71: in memory every term has one concept, with tables of at most 60 beliefs and at most one belief per statement. -/
theorem C71_memory (env : Env) (ops : List NarOp) (r : Reasoner) (h : runNar env ops = .ok r) :
    (r.sh.mem.map (·.name)).Nodup ∧
    ∀ c ∈ r.sh.mem, c.beliefsByExp.length ≤ 60 ∧ c.beliefsByUsage.length ≤ 60 ∧
      (c.beliefsByExp.map (·.term)).Nodup ∧ (c.beliefsByUsage.map (·.term)).Nodup := by
  have hm : MemOk r.sh.mem := (whole_start env ops r h).memOk
    ⟨by simp [Mem.WF, createShared], by simp [createShared], by simp [createShared]⟩
  exact ⟨hm.wf, fun c hc => ⟨(hm.bounded c hc).1, (hm.bounded c hc).2, hm.once c hc⟩⟩

theorem whole_inv (env : Env) (ops : List NarOp) (r : Reasoner) (h : runNar env ops = .ok r) (cfg : Cfg)
    (hc : cfg.maxComplexity = 64) : Inv cfg r.sh :=
  (whole_start env ops r h).inv cfg hc (createShared_inv cfg)

/-- C71: the working tasks have different identifiers, are not too complex, and are different tasks. -/
theorem C71_tasks (env : Env) (ops : List NarOp) (r : Reasoner) (h : runNar env ops = .ok r) :
    ∃ ws, Working r.sh ws ∧ (ws.map (·.id)).Nodup ∧ (∀ t ∈ ws, calcComplexity t.sentence.term ≤ 64) ∧
      ws.Pairwise (fun a b => ¬ SameTask a b) := by
  have hi := whole_inv env ops r h ⟨64, 20, 0, env.decay⟩ rfl
  obtain ⟨ws, hw⟩ := derefs_total hi.valid
  refine ⟨ws, hw, hi.unique_ids hw, ?_, hi.no_duplicates hw⟩
  intro t ht
  have := hi.bounded hw t ht
  simp only at this
  omega

/-- C71: the lookup of tasks by statement parts is complete, and what it finds is right. -/
theorem C71_lookup (env : Env) (ops : List NarOp) (r : Reasoner) (h : runNar env ops = .ok r) :
    (∀ s refs, lookupRefs r.sh.judgementTasksByTerm s = some refs → ∀ i ∈ refs,
      ∃ t, r.sh.heap[i]? = some t ∧ IsSubterm s t.sentence.term) ∧
    (∀ i ∈ r.sh.judgementTasks, ∀ t, r.sh.heap[i]? = some t → ∀ s, IsSubterm s t.sentence.term →
      ∃ refs, lookupRefs r.sh.judgementTasksByTerm s = some refs ∧ i ∈ refs) :=
  (whole_inv env ops r h ⟨64, 20, 0, env.decay⟩ rfl).lookup

/-- C71: the task worked on next is one with the most attention, provided attention does not become negative with age. -/
theorem C71_takes_best (env : Env) (ops : List NarOp) (r : Reasoner) (h : runNar env ops = .ok r)
    (hd : ∀ d, 0 ≤ env.decay d) (cfg : Cfg) (hc : cfg.maxComplexity = 64) (hdec : cfg.decay = env.decay)
    (hne : r.sh.judgementTasks ≠ []) :
    ∃ sh' i t, selectPrimary cfg r.sh = .ok (sh', some i) ∧ r.sh.heap[i]? = some t ∧
      (∀ i' ∈ r.sh.judgementTasks, ∀ t', r.sh.heap[i']? = some t' →
        creditAt env.decay t' r.sh.cycleCounter ≤ creditAt env.decay t r.sh.cycleCounter) ∧
      (i :: sh'.judgementTasks).Perm r.sh.judgementTasks := by
  have hi := whole_inv env ops r h cfg hc
  have hcr : CreditOk r.sh := (whole_start env ops r h).credit ⟨by simp [createShared], by simp [createShared]⟩
  obtain ⟨sh', i, t, h1, h2, h3, h4⟩ := hi.takes_best hcr (by rw [hdec]; exact hd) hne
  refine ⟨sh', i, t, h1, h2, ?_, h4⟩
  intro i' hi' t' ht'
  have := h3 i' hi' t' ht'
  rw [hdec] at this
  simpa only [C22_credit] using this

/-- C71: every answer is a judgement which instantiates its question, with an expectation above zero. -/
theorem C71_answers_match (env : Env) (ops : List NarOp) (r : Reasoner) (h : runNar env ops = .ok r) (c : AnswerCall)
    (hc : c ∈ r.answers) : c.answer.punct = .JUGEMENT ∧ (∃ θ, inst θ c.question = c.answer.term) ∧
      ∃ e, Expectation c.answer e ∧ 0 < e := (whole_start env ops r h).answers.2 c hc

/-- C71: questions are never lost, and each later answer to a question is better than all earlier ones: it beats the best
answer so far. -/
theorem C71_answers_improve (env : Env) (ops more : List NarOp) (r r' : Reasoner) (h : runNar env ops = .ok r)
    (h' : moreNar env r more = .ok r') :
    (∀ (i : Nat) (q : Task2), r.sh.questionTasks[i]? = some q → ∃ q', r'.sh.questionTasks[i]? = some q' ∧
      q'.sentence = q.sentence ∧ q.bestAnswerExp ≤ q'.bestAnswerExp) ∧
    ∃ new, r'.answers = r.answers ++ new ∧ ∀ c ∈ new, ∃ (i : Nat) (q' : Task2) (e : Rat),
      r'.sh.questionTasks[i]? = some q' ∧ c.question = q'.sentence.term ∧ Expectation c.answer e ∧ e ≤ q'.bestAnswerExp ∧
      ∀ q, r.sh.questionTasks[i]? = some q → q.bestAnswerExp < e := (runNar_more h h').questions

/-- C71: every rule which the reasoner knows has a condition and an effect, and a truth value in range which counts at least
one observation. -/
theorem C71_rules (env : Env) (ops : List NarOp) (r : Reasoner) (h : runNar env ops = .ok r) (b : Sentence)
    (hb : b ∈ r.proc.mem.heap) :
    (∃ cond acts effect, b.term = rule cond acts effect) ∧
    (∃ pos cnt, Counts b pos cnt ∧ 0 ≤ pos ∧ pos ≤ cnt ∧ 1 ≤ cnt) ∧ ∃ tv, HasTruth b tv ∧ Tv.Sane tv := by
  obtain ⟨h1, _, pos, cnt, h2, h3, h4, h5⟩ := (runNar_PWhole h).inv.heap b hb
  exact ⟨h1, ⟨pos, cnt, h2, h3, h4, h5⟩, C12_counted_evidence_in_range b pos cnt h3 h4 (by omega) h2⟩

/-- C71: rules never lose evidence: whatever happens later, none of the counters of a rule decreases. -/
theorem C71_rules_keep_evidence (env : Env) (ops more : List NarOp) (r r' : Reasoner) (h : runNar env ops = .ok r)
    (h' : moreNar env r more = .ok r') (i : Nat) (b : Sentence) (hb : r.proc.mem.heap[i]? = some b) :
    ∃ b' pos cnt pos' cnt', r'.proc.mem.heap[i]? = some b' ∧ b'.term = b.term ∧ b'.expDt = b.expDt ∧
      Counts b pos cnt ∧ Counts b' pos' cnt' ∧ pos ≤ pos' ∧ cnt ≤ cnt' ∧ pos' - pos ≤ cnt' - cnt := by
  obtain ⟨b', hb', g1, g2, g3, g4⟩ := (runNar_procMore h h').grown (runNar_PWhole h) i b hb
  obtain ⟨_, _, pos, cnt, k1, _⟩ := (runNar_PWhole h).inv.heap b (List.mem_of_getElem? hb)
  obtain ⟨pos', cnt', k2, k3, k4, k5⟩ := g4 pos cnt k1
  exact ⟨b', pos, cnt, pos', cnt', hb', g1, g2, k1, k2, k3, k4, k5⟩

/-- C71: the goals are always those of a history of the goal system with room for 20 goals and 8 levels, so C23–C28 hold
for them. -/
theorem C71_goals (env : Env) (ops : List NarOp) (r : Reasoner) (h : runNar env ops = .ok r) :
    GoalsAfter 20 8 r.proc.goals := by
  obtain ⟨gops, hg⟩ := (runNar_PWhole h).goals
  exact ⟨env.goalDecay, gops, hg⟩

/-- two statements and a question which is answered; a learned rule and a goal; two more statements -/
def mixed : List NarOp := syllogism ++ learnThenGoal ++ [ln "<d --> e>.", ln "<e --> f>."]

example : (runNar env0 mixed).map (fun r => (r.sh.mem.length, r.answers.length,
    r.sh.judgementTasks.length, r.proc.mem.heap.length, goalCount r.proc.goals)) = .ok (11, 1, 2, 4, 1) := by decide +kernel

example : ∃ r, runNar env0 mixed = .ok r ∧ GoalsAfter 20 8 r.proc.goals ∧
    ∃ ws, Working r.sh ws ∧ (ws.map (·.id)).Nodup := by
  have h : (runNar env0 mixed).map (fun _ => ()) = .ok () := by decide +kernel
  obtain ⟨r, hr, _⟩ := R.map_ok.1 h
  obtain ⟨ws, h1, h2, _⟩ := C71_tasks env0 _ r hr
  exact ⟨r, hr, C71_goals env0 _ r hr, ws, h1, h2⟩

/-! ## C66 -/

/-- C66: the memory of rules has one concept per term, with tables of at most 100 rules. -/
theorem C66_rule_tables_bounded (env : Env) (ops : List NarOp) (r : Reasoner) (h : runNar env ops = .ok r) :
    (r.proc.mem.concepts.map (·.name)).Nodup ∧
    ∀ c ∈ r.proc.mem.concepts, c.byExp.length ≤ 100 ∧ c.byUsage.length ≤ 100 :=
  ⟨(runNar_PWhole h).tab.once, (runNar_PWhole h).tab.bounded⟩

/-- C66: a step at every 101st point in time leaves at most 1000 concepts, and the window never holds more than 20 events
after a step. -/
theorem C66_step_limits (env : Env) (ops : List NarOp) (r : Reasoner) (h : runNar env ops = .ok r) (d : LineDraws)
    (r' : Reasoner) (hs : procStep env r d = .ok r') :
    r'.proc.t = r.proc.t + 1 ∧ r'.proc.trace.length ≤ 20 ∧
    (r.proc.t.tmod 101 = 1 → r'.proc.mem.concepts.length ≤ 1000) := by
  unfold procStep at hs
  obtain ⟨p, h0, hs⟩ := R.bind_ok.1 hs
  rw [procWork_fold] at hs
  unfold procStep1 at hs
  obtain ⟨⟨p2, executed⟩, hn, hs⟩ := R.bind_ok.1 hs
  rw [declEffects_proc hs]
  have hw := runNar_PWhole h
  obtain ⟨heap, new, hp, _⟩ := narStep0_spec h0
  have hcfg : PCfg p := by
    rw [hp]
    exact ⟨hw.cfg.window, hw.cfg.threshold, hw.cfg.nOpsMax, hw.cfg.anticipation, hw.cfg.nConcepts, hw.cfg.nBeliefs,
      hw.cfg.samples, hw.cfg.table⟩
  have ht : p.t = r.proc.t := by rw [hp]
  clear hp h0
  have hfold : ∀ (b : List (List Nat)) (q : Proc), (b.foldl workerStep q).t = q.t ∧
      (b.foldl workerStep q).nConcepts = q.nConcepts := by
    intro b
    induction b with
    | nil => intro q; exact ⟨rfl, rfl⟩
    | cons x xs ih =>
      intro q
      obtain ⟨m, qq, w, he⟩ := workerStep_frame q x
      obtain ⟨k1, k2⟩ := ih (workerStep q x)
      exact ⟨k1.trans (by rw [he]), k2.trans (by rw [he])⟩
  obtain ⟨f1, f2⟩ := hfold d.between p
  obtain ⟨g, g2, an, evs, concepts, goals, _, _, _, rfl, hlim, _⟩ := narStep1_spec libCall_reports hn
  refine ⟨by show _ + 1 = _; rw [f1, ht], ?_, ?_⟩
  · show (newest 20 _).length ≤ 20
    rw [newest_length]; omega
  · intro h101
    have := hlim (by rw [f1, ht]; exact h101)
    rw [f2, hcfg.nConcepts] at this
    exact this

/-- C66: at any time at most 17 effects are awaited, each with a deadline which is not yet over and at most 16 ahead. -/
theorem C66_anticipations_bounded (env : Env) (ops : List NarOp) (r : Reasoner) (h : runNar env ops = .ok r) :
    r.proc.anticipated.length ≤ 17 ∧
    ∀ a ∈ r.proc.anticipated, r.proc.t ≤ a.deadline ∧ a.deadline ≤ r.proc.t + 16 := by
  have ha := (runNar_PWhole h).antic
  refine ⟨ha.length, ?_⟩
  obtain ⟨cs, h1, _⟩ := ha
  intro a hm
  obtain ⟨c, _, hc⟩ := forall₂_left_mem h1 hm
  omega

/-- a rule is told, its effect is wanted, its condition is seen, and a step is made: the effect is awaited -/
def actOnTold : List NarOp :=
  [ln "!por NOP ^l", .tell (rule (.Name "a") [opL] (.Name "b")) .JUGEMENT ⟨1, 9/10⟩ false [], ln "b! :|:", ln "a. :|:",
   .line "!sp".toList (draws [] [0])]

example : (runNar env0 actOnTold).map (fun r => (r.proc.t, r.proc.anticipated, r.proc.trace.length,
    r.proc.mem.concepts.map (fun c => c.byExp.length))) = .ok (1, [⟨0, 1⟩], 2, [1, 1]) := by decide +kernel

/-- C66, violation: tables for 100 rules do not keep what fits in.  A told rule with a new statement cuts every table it is
put in down to 20 rules, however many there were. -/
theorem C66_told_rule_cuts (env : Env) (ops : List NarOp) (r : Reasoner) (h : runNar env ops = .ok r) (cond effect : Term)
    (acts : List Term) (tv : Tv) (rng : List Nat) (r' : Reasoner)
    (hin : inputT2 env r (rule cond acts effect) .JUGEMENT tv false rng = .ok r')
    (hnew : ∀ b ∈ r.proc.mem.heap, b.term ≠ rule cond acts effect) (c : PConcept) (hc : c ∈ r'.proc.mem.concepts)
    (ht : IsSubterm c.name cond ∨ IsSubterm c.name effect) : c.byExp.length ≤ 20 ∧ c.byUsage.length ≤ 20 := by
  obtain ⟨m, hm, rfl⟩ := C40_rule env r r' _ tv rng ⟨_, _, rfl⟩ hin
  have hb : r.nConceptBeliefs = 20 := (runNar_WDecl h).beliefs
  rw [hb] at hm
  refine memAddEvidence_short (by omega) hm (cond := cond) (acts := acts) (effect := effect) rfl rfl ht ?_ c hc rfl
  intro d hd _ i hi
  have hlt := (runNar_PWhole h).inv.refs d hd i hi
  exact ⟨_, List.getElem?_eq_getElem hlt, hnew _ (List.getElem_mem hlt)⟩

/-- learn that `^l` in the state `a` leads to the `n`-th effect -/
def learnNth (n : Nat) : List ProcOp :=
  [.flush, .event (.Name "a"), .event opL, .event (.Name (toString n)), .step0 firstDraws, .worker [], .worker [], .worker [],
   .worker []]

/-- 21 different effects -/
def learn21 : List ProcOp := (List.range 21).flatMap learnNth

/-- C66, violation: 21 rules about `a` are learned; after a 22nd rule about `a` is told, 20 are left. -/
theorem C66_told_rule_forgets : ∃ p p' c c', runProc noEffect (fun _ => 1) agent learn21 = .ok p ∧
    p.mem.get (.Name "a") = some c ∧ c.byExp.length = 21 ∧ c.byUsage.length = 21 ∧
    inputRule p (rule (.Name "a") [opL] (.Name "z")) ⟨1, 9/10⟩ 0 20 [] = .ok p' ∧
    p'.mem.get (.Name "a") = some c' ∧ c'.byExp.length = 20 ∧ c'.byUsage.length = 20 := by
  have h1 : (runProc noEffect (fun _ => 1) agent learn21).map (fun p =>
      (p.mem.get (.Name "a")).map (fun c => (c.byExp.length, c.byUsage.length))) = .ok (some (21, 21)) := by decide +kernel
  have h2 : ((runProc noEffect (fun _ => 1) agent learn21).bind (fun p =>
      inputRule p (rule (.Name "a") [opL] (.Name "z")) ⟨1, 9/10⟩ 0 20 [])).map (fun p =>
      (p.mem.get (.Name "a")).map (fun c => (c.byExp.length, c.byUsage.length))) = .ok (some (20, 20)) := by decide +kernel
  obtain ⟨p, hp, e1⟩ := R.map_ok.1 h1
  rw [hp] at h2
  obtain ⟨p', hp', e2⟩ := R.map_ok.1 h2
  obtain ⟨c, hc, e1⟩ := Option.map_eq_some_iff.1 e1
  obtain ⟨c', hc', e2⟩ := Option.map_eq_some_iff.1 e2
  obtain ⟨e11, e12⟩ := Prod.mk.inj e1
  obtain ⟨e21, e22⟩ := Prod.mk.inj e2
  exact ⟨p, p', c, c', hp, hc, e11, e12, hp', hc', e21, e22⟩

end Nar.Props
