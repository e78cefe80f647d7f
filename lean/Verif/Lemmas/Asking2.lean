import Verif.Lemmas.Asking
/-! # Lemmas about questions which stay, with no other asked -/
namespace Nar
open Term

/-- the questions have these terms, and everything else is a judgement -/
def OnlyAsked (T : List Term) (sh : Shared) : Prop := sh.questionTasks.map (·.sentence.term) = T ∧ AllP Judg (fun _ => True) sh

theorem memAddTask_only {cfg : Cfg} {sh sh' : Shared} {s : Sentence} {cc : Bool} {mc : Rat} {now : Int} (hs : Judg s)
    (h0 : AllP Judg (fun _ => True) sh) (h : memAddTask cfg sh s cc mc now = .ok sh') : sh'.questionTasks = sh.questionTasks := by
  rcases memAddTask_cases h with ⟨_, rfl⟩ | ⟨_, mem, rev, h1, h2⟩
  · rfl
  · obtain ⟨new, h3, h4⟩ := addTasks_questions h2
    rw [h3]
    have : new = [] := by
      rcases List.eq_nil_or_concat new with rfl | ⟨l, q, rfl⟩
      · rfl
      · obtain ⟨_, _, _, x, hx, hq, _⟩ := h4 q (by simp)
        have hj : Judg x := by
          rcases List.mem_cons.1 hx with rfl | hx
          · exact hs
          · rw [Option.mem_toList] at hx
            exact (addBelief_P judg_closed h1 h0.2.1 (fun _ => hs)).2 x hx
        rw [hj.1] at hq; cases hq
    rw [this]; simp

theorem TaskOp.run_length {cfg : Cfg} {sh sh' : Shared} {op : TaskOp} {calls : List AnswerCall}
    (h : op.run cfg sh = .ok (sh', calls)) (h0 : AllP Judg (fun _ => True) sh) (hp : op.Plain) :
    sh'.questionTasks.length = sh.questionTasks.length := by
  cases op with
  | add s cc mc now =>
    obtain ⟨x, h1, h2⟩ := R.map_ok.1 h
    cases h2
    rw [memAddTask_only hp h0 h1]
  | tick => cases h; rfl
  | creditQuestions => cases h; rw [(creditQuestions_same sh).2.2.2.2.1]
  | baseCredit =>
    obtain ⟨x, h1, h2⟩ := R.map_ok.1 h
    cases h2; rw [(baseCredit_same h1).2.2.2.2.1]
  | answer v =>
    simp only [TaskOp.run] at h
    unfold answerSampled at h
    split at h
    · simp only [R.bind_ok] at h
      obtain ⟨i, _, q, hq, ⟨q', cs⟩, hall, h⟩ := h
      cases h
      simp
    · cases h; rfl
  | offer c =>
    simp only [TaskOp.run] at h
    unfold offerConclusion at h
    split at h
    · rw [R.bind_ok] at h
      obtain ⟨⟨qs, cs⟩, h1, h⟩ := h
      cases h
      exact (qaOffer_spec h1).1
    · cases h; rfl
  | select =>
    obtain ⟨r', h1, h2⟩ := R.map_ok.1 h
    cases h2
    rcases selectPrimary_cases h1 with ⟨_, rfl⟩ | ⟨_, _, _, _, rfl⟩ <;> rfl
  | usage msg now => cases h; rw [(updateUsage_same sh msg now).questions]
  | cleanup =>
    obtain ⟨x, h1, h2⟩ := R.map_ok.1 h
    cases h2
    obtain ⟨_, _, _, _, rfl⟩ := cleanupTasks_spec h1
    rfl
  | rebuild =>
    obtain ⟨x, h1, h2⟩ := R.map_ok.1 h
    cases h2
    unfold rebuildLookup at h1
    rw [R.bind_ok] at h1
    obtain ⟨_, _, h1⟩ := h1
    cases h1; rfl
  | forget n => obtain ⟨m, h1, h2⟩ := R.map_ok.1 h; cases h2; rfl
  | flush => cases h; rfl
  | newStampId => cases h; rfl
  | procMem m => cases h; rfl

theorem moreTasks_only {cfg : Cfg} {T : List Term} {sh : Shared} {log : List AnswerCall} {ops : List TaskOp} {st : Shared × List AnswerCall}
    (h : moreTasks cfg (sh, log) ops = .ok st) (h0 : OnlyAsked T sh) (hp : ∀ op ∈ ops, op.Plain) : OnlyAsked T st.1 := by
  refine foldlM_inv (fun st : Shared × List AnswerCall => OnlyAsked T st.1) h h0 ?_
  rintro op hop ⟨sh, l⟩ b h1 hs
  obtain ⟨⟨sh', calls⟩, h3, h4⟩ := R.bind_ok.1 hs
  rw [← Except.ok.inj h4]
  have hpl := hp op hop
  have hP : AllP Judg (fun _ => True) sh' := by
    refine (TaskOp.run_P judg_closed h3 h1.2 ?_).1
    cases op <;> first | exact fun _ => hpl | exact hpl | trivial | exact memP_true _
  refine ⟨?_, hP⟩
  have hl := TaskOp.run_length h3 h1.2 hpl
  have ht := (TaskOp.run_questions h3).terms
  rw [← hl, ← List.length_map (f := fun q : Task2 => q.sentence.term), List.take_length] at ht
  rw [← ht]; exact h1.1

variable {env : Env} {T : List Term}

theorem only_procMem {sh : Shared} (h : OnlyAsked T sh) (m : Mem) : OnlyAsked T { sh with procMem := m } :=
  ⟨h.1, h.2.1, h.2.2.1, memP_true m⟩

theorem cycle_only {r r' : Reasoner} {v : Rat} (h : cycle env r v = .ok r') (hi : OnlyAsked T r.sh) : OnlyAsked T r'.sh := by
  obtain ⟨sh, msg, calls, g1, g2, _⟩ := cycle_parts h
  have hlook : OnlyAsked T r.look := by
    unfold Reasoner.look
    split
    · exact only_procMem hi _
    · exact hi
  have hd := moreTasks_only (reasonCycle_more r.answers g1) hlook (by
    intro o ho
    simp only [cycleOps, maintenance] at ho
    split at ho <;> split at ho <;> cases msg <;> simp at ho <;>
      (try rcases ho with rfl | rfl | rfl | rfl | rfl | rfl | rfl | rfl | rfl) <;> simp_all [TaskOp.Plain])
  rw [g2]; exact only_procMem hd _

theorem declWork_only {r : Reasoner} (hi : OnlyAsked T r.sh) : OnlyAsked T (declWork env r).sh := by
  unfold declWork
  split
  · split
    · exact hi
    · split
      · rename_i m rest hq sh calls hw
        obtain ⟨concl, p, hc, hp, hm⟩ := work_more r.answers hw
        have key : ∀ c ∈ concl, Judg c.1 := fun c hcm => workConclusions_P judg_closed hc hcm hi.2
        exact moreTasks_only hm hi (by
          intro o ho
          simp only [workOps, List.mem_append, List.mem_map] at ho
          rcases ho with ⟨c, hcm, rfl⟩ | ⟨c, hcm, rfl⟩
          · exact key c hcm
          · exact key c hcm)
      · exact hi
  · exact hi

theorem inputT2_only {r r' : Reasoner} {term : Term} {tv : Tv} {rng : List Nat}
    (h : inputT2 env r term .JUGEMENT tv false rng = .ok r') (hi : OnlyAsked T r.sh) : OnlyAsked T r'.sh := by
  obtain ⟨_, _, _, _, _, _, _, hsh | ⟨hadd, _, _⟩⟩ := inputT2_cases h
  · rw [hsh]; exact ⟨hi.1, hi.2⟩
  · have hj : Judg (newEternalSentenceByTv term .JUGEMENT tv ⟨[r.sh.stampIdCounter]⟩) := ⟨rfl, tv, rfl⟩
    have h0 : AllP Judg (fun _ => True) { r.sh with stampIdCounter := r.sh.stampIdCounter + 1 } := hi.2
    exact ⟨by rw [memAddTask_only hj h0 hadd]; exact hi.1, memAddTask_P judg_closed hadd h0 (fun _ => hj)⟩

theorem inputT2_asked {ops : List NarOp} {r r' : Reasoner} {q : Term} (hr : runNar env ops = .ok r) (hc : calcComplexity q ≤ 64)
    (h : inputT2 env r q .QUESTION ⟨1, 1/2⟩ true [] = .ok r') (hi : OnlyAsked T r.sh) : OnlyAsked (T ++ [q]) r'.sh := by
  obtain ⟨_, _, _, _, t, ht, e, _⟩ := asked hr hc h
  refine ⟨by rw [ht, List.map_append, hi.1, List.map_singleton, e], ?_⟩
  obtain ⟨_, _, _, _, _, _, _, hsh | ⟨hadd, _, _⟩⟩ := inputT2_cases h
  · rw [hsh]; exact hi.2
  · have h0 : AllP Judg (fun _ => True) { r.sh with stampIdCounter := r.sh.stampIdCounter + 1 } := hi.2
    exact memAddTask_P judg_closed hadd h0 (fun hp => by cases hp)

theorem moreNar_calm_only {ops : List NarOp} {r r' : Reasoner} (h : moreNar env r ops = .ok r')
    (hp : ∀ op ∈ ops, Calm op) (h0 : OnlyAsked T r.sh) : OnlyAsked T r'.sh := by
  unfold moreNar at h
  refine foldlM_inv (fun r => OnlyAsked T r.sh) h h0 ?_
  intro op hop a b ha hs
  obtain ⟨s, tv, rfl | ⟨v, rfl⟩ | rfl⟩ := hp op hop
  · exact inputT2_only hs ha
  · exact cycle_only hs ha
  · cases hs; exact declWork_only ha

end Nar
