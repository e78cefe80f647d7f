import Verif.Lemmas.Whole
import Verif.Lemmas.OpLib
/-! # Consequences for the reasoner as a whole -/
namespace Nar
open Term

/-! ## memory -/

theorem addTasks_mem {cc : Bool} {mc : Rat} {ss : List Sentence} {sh sh' : Shared} (h : addTasks sh cc mc ss = .ok sh') :
    sh'.mem = sh.mem := by
  induction ss generalizing sh with
  | nil => cases h; rfl
  | cons s ss ih =>
    unfold addTasks at h
    cases hp : s.punct with
    | JUGEMENT =>
      rw [hp] at h
      simp only [R.bind_ok] at h
      obtain ⟨tasks, ht, h⟩ := h
      split at h
      · cases h; rfl
      · rw [R.bind_ok] at h
        obtain ⟨task, htask, h⟩ := h
        have := ih h; exact this
    | QUESTION => rw [hp] at h; have := ih h; exact this
    | GOAL => rw [hp] at h; have := ih h; exact this

/-- an action changes the declarative memory by at most one memory operation -/
theorem TaskOp.run_memop {cfg : Cfg} {sh sh' : Shared} {op : TaskOp} {calls : List AnswerCall}
    (h : op.run cfg sh = .ok (sh', calls)) (ht : op.Trailed) :
    sh'.mem = sh.mem ∨ ∃ mop : MemOp, mop.Declarative ∧ mop.run cfg.nBeliefs sh.mem = .ok sh'.mem := by
  cases op with
  | add s cc mc now =>
    obtain ⟨x, h1, h2⟩ := R.map_ok.1 h
    cases h2
    rcases memAddTask_cases h1 with ⟨_, rfl⟩ | ⟨hc, mem, rev, h3, h4⟩
    · exact .inl rfl
    · right
      have h5 := addTasks_mem h4
      simp only at h5
      refine ⟨.add s now, ht, ?_⟩
      simp only [MemOp.run]
      rw [h3, h5]; rfl
  | tick => cases h; exact .inl rfl
  | creditQuestions => cases h; exact .inl (creditQuestions_same sh).2.2.2.2.2
  | baseCredit =>
    obtain ⟨x, h1, h2⟩ := R.map_ok.1 h
    cases h2; exact .inl (baseCredit_same h1).2.2.2.2.2
  | answer v => obtain ⟨qs, hq⟩ := answerSampled_frame h; simp only at hq; rw [hq]; exact .inl rfl
  | offer c => obtain ⟨qs, hq⟩ := offerConclusion_frame h; simp only at hq; rw [hq]; exact .inl rfl
  | select =>
    obtain ⟨r', h1, h2⟩ := R.map_ok.1 h
    cases h2
    rcases selectPrimary_cases h1 with ⟨_, rfl⟩ | ⟨_, _, _, _, rfl⟩ <;> exact .inl rfl
  | usage msg now => 
    cases h
    obtain ⟨g, hg⟩ := (updateUsage_same sh msg now).mem
    exact .inr ⟨.touch g, trivial, by rw [hg]; rfl⟩
  | cleanup =>
    obtain ⟨x, h1, h2⟩ := R.map_ok.1 h
    cases h2
    obtain ⟨_, _, _, _, rfl⟩ := cleanupTasks_spec h1
    exact .inl rfl
  | rebuild =>
    obtain ⟨x, h1, h2⟩ := R.map_ok.1 h
    cases h2
    unfold rebuildLookup at h1
    rw [R.bind_ok] at h1
    obtain ⟨_, _, h1⟩ := h1
    cases h1; exact .inl rfl
  | forget n =>
    obtain ⟨m, h1, h2⟩ := R.map_ok.1 h; cases h2
    exact .inr ⟨.forget n, trivial, h1⟩
  | flush => cases h; exact .inl rfl
  | newStampId => cases h; exact .inl rfl
  | procMem m => cases h; exact .inl rfl

/-- one concept per term, tables of at most 60 beliefs, one belief per statement -/
structure MemOk (m : Mem) : Prop where
  wf : m.WF
  bounded : ∀ c ∈ m, c.beliefsByExp.length ≤ 60 ∧ c.beliefsByUsage.length ≤ 60
  once : ∀ c ∈ m, (c.beliefsByExp.map (·.term)).Nodup ∧ (c.beliefsByUsage.map (·.term)).Nodup

theorem MemOp.run_ok {n : Nat} {op : MemOp} {m m' : Mem} (h : op.run n m = .ok m') (hn : n ≤ 60) (hd : op.Declarative)
    (hm : MemOk m) : MemOk m' := by
  refine ⟨MemOp.run_wf h hm.wf, ?_, MemOp.run_nodup h hm.wf hd hm.once⟩
  refine MemOp.run_tables (fun e u => e.length ≤ 60 ∧ u.length ≤ 60) h ?_ ?_ ?_ ?_ hm.bounded
  · intro s; simp
  · intro s now e u e' u' hP he hu
    exact ⟨storeTable_length he hn hP.1, storeTable_length hu hn hP.2⟩
  · intro _ _ s e u r1 r2 hP h1 h2
    have l1 := (reviseTable_terms h1).length_eq
    have l2 := (reviseTable_terms h2).length_eq
    simp only [List.length_map] at l1 l2
    rw [l1, l2]; exact hP
  · intro e u f1 f2 hP; simpa using hP

theorem DeclMore.memOk {env : Env} {sh0 sh : Shared} {log0 log : List AnswerCall} (h : DeclMore env sh0 log0 sh log)
    (h0 : MemOk sh0.mem) : MemOk sh.mem := by
  induction h with
  | start => exact h0
  | act cfg op _ hcfg _ ht hr ih =>
    rcases TaskOp.run_memop hr ht with he | ⟨mop, hd, hm⟩
    · rw [he]; exact ih
    · exact MemOp.run_ok hm (by rcases hcfg.2.1 with h | h <;> omega) hd ih

/-! ## tasks and questions -/

/-- the configuration of the lines, for the complexity limit -/
theorem DeclMore.inv {env : Env} {sh0 sh : Shared} {log0 log : List AnswerCall} (h : DeclMore env sh0 log0 sh log)
    (cfg : Cfg) (hc : cfg.maxComplexity = 64) (h0 : Inv cfg sh0) : Inv cfg sh := by
  have key : ∀ {cfg' : Cfg} {sh : Shared}, cfg'.maxComplexity = 64 → (Inv cfg' sh ↔ Inv cfg sh) := by
    intro cfg' sh h'
    constructor
    · intro h; exact ⟨h.valid, h.ids, h.fresh, h.nodup, by rw [hc, ← h']; exact h.complexity, h.diff, h.sound, h.complete, h.keys⟩
    · intro h; exact ⟨h.valid, h.ids, h.fresh, h.nodup, by rw [h', ← hc]; exact h.complexity, h.diff, h.sound, h.complete, h.keys⟩
  induction h with
  | start => exact h0
  | act cfg' op _ hcfg _ _ hr ih => exact (key hcfg.1).1 (TaskOp.run_inv hr ((key hcfg.1).2 ih))

theorem DeclMore.credit {env : Env} {sh0 sh : Shared} {log0 log : List AnswerCall} (h : DeclMore env sh0 log0 sh log)
    (h0 : CreditOk sh0) : CreditOk sh := by
  induction h with
  | start => exact h0
  | act cfg op _ _ hc _ hr ih => exact TaskOp.run_credit hr ih hc

theorem DeclMore.answers {env : Env} {sh : Shared} {log : List AnswerCall} (h : DeclMore env createShared [] sh log) :
    (∀ q ∈ sh.questionTasks, 0 ≤ q.bestAnswerExp) ∧ ∀ c ∈ log, c.answer.punct = .JUGEMENT ∧
      (∃ θ, inst θ c.question = c.answer.term) ∧ ∃ e, Expectation c.answer e ∧ 0 < e := by
  induction h with
  | start => simp [createShared]
  | act cfg op _ _ _ _ hr ih => exact TaskOp.run_answers hr ih.1 ih.2

/-- questions stay, their best answer gets better; new answers are better than the best before -/
theorem DeclMore.questions {env : Env} {sh0 sh : Shared} {log0 log : List AnswerCall} (h : DeclMore env sh0 log0 sh log) :
    (∀ (i : Nat) (q : Task2), sh0.questionTasks[i]? = some q → ∃ q', sh.questionTasks[i]? = some q' ∧
      q'.sentence = q.sentence ∧ q.bestAnswerExp ≤ q'.bestAnswerExp) ∧
    ∃ new, log = log0 ++ new ∧ ∀ c ∈ new, ∃ (i : Nat) (q' : Task2) (e : Rat), sh.questionTasks[i]? = some q' ∧
      c.question = q'.sentence.term ∧ Expectation c.answer e ∧ e ≤ q'.bestAnswerExp ∧
      ∀ q, sh0.questionTasks[i]? = some q → q.bestAnswerExp < e := by
  induction h with
  | start => exact ⟨fun i q hq => ⟨q, hq, rfl, le_refl _⟩, [], by simp, by simp⟩
  | @act sh sh' log calls cfg op _ _ _ _ hr ih =>
    obtain ⟨k1, new, rfl, k2⟩ := ih
    obtain ⟨h1, h2, h3, h4⟩ := TaskOp.run_questions hr
    have step : ∀ (i : Nat) (q : Task2), sh.questionTasks[i]? = some q → ∃ q', sh'.questionTasks[i]? = some q' ∧
        q'.sentence = q.sentence ∧ q.bestAnswerExp ≤ q'.bestAnswerExp := by
      intro i q hq
      have hlt : i < sh'.questionTasks.length := by
        have := (List.getElem?_eq_some_iff.1 hq).1
        omega
      obtain ⟨cands, cs, hall, _⟩ := h2 i q _ hq (List.getElem?_eq_getElem hlt)
      have := qaTryAll_spec hall
      exact ⟨_, List.getElem?_eq_getElem hlt, this.1, this.2.2.2.1⟩
    refine ⟨?_, new ++ calls, by simp, ?_⟩
    · intro i q hq
      obtain ⟨q', hq', e1, e2⟩ := k1 i q hq
      obtain ⟨q'', hq'', e3, e4⟩ := step i q' hq'
      exact ⟨q'', hq'', e3.trans e1, le_trans e2 e4⟩
    · intro c hc
      rcases List.mem_append.1 hc with hc | hc
      · obtain ⟨i, q', e, a1, a2, a3, a4, a5⟩ := k2 c hc
        obtain ⟨q'', hq'', e3, e4⟩ := step i q' a1
        exact ⟨i, q'', e, hq'', by rw [e3]; exact a2, a3, le_trans a4 e4, a5⟩
      · obtain ⟨q, _, b1, b2, e, b3, b4, i, q', b5, b6, b7⟩ := h4 c hc
        obtain ⟨q'', hq'', e3, e4⟩ := step i q b5
        rw [b6] at hq''; cases hq''
        refine ⟨i, q', e, b6, by rw [e3]; exact b1, b3, b7, ?_⟩
        intro q0 hq0
        obtain ⟨q1, hq1, e5, e6⟩ := k1 i q0 hq0
        rw [b5] at hq1; cases hq1
        exact lt_of_le_of_lt e6 b4

end Nar
