import Verif.Spec.Thinks
import Verif.Lemmas.Task3
/-! # Helper lemmas: tasks and questions are kept by every action -/
namespace Nar
open Term

/-- the same task, with other counters and credits -/
def SameSent (t t' : Task) : Prop := t'.sentence = { t.sentence with usage := t'.sentence.usage }

theorem SameSent.rfl' (t : Task) : SameSent t t := rfl

theorem SameSent.trans {a b c : Task} (h : SameSent a b) (h' : SameSent b c) : SameSent a c := by
  unfold SameSent at *; rw [h', h]

theorem SameSent.of_eq {t t' : Task} (h : t'.sentence = t.sentence) : SameSent t t' := by
  unfold SameSent; rw [h]

/-- every task is still there -/
def HeapKept (h h' : List Task) : Prop := ∀ (r : Nat) (t : Task), h[r]? = some t → ∃ t', h'[r]? = some t' ∧ SameSent t t'

theorem HeapKept.refl (h : List Task) : HeapKept h h := fun _ t ht => ⟨t, ht, .rfl' t⟩

theorem HeapKept.trans {a b c : List Task} (h : HeapKept a b) (h' : HeapKept b c) : HeapKept a c := by
  intro r t ht
  obtain ⟨t1, h1, s1⟩ := h r t ht
  obtain ⟨t2, h2, s2⟩ := h' r t1 h1
  exact ⟨t2, h2, s1.trans s2⟩

theorem HeapKept.append (h l : List Task) : HeapKept h (h ++ l) := by
  intro r t ht
  have : r < h.length := (List.getElem?_eq_some_iff.1 ht).1
  exact ⟨t, by rw [List.getElem?_append_left this]; exact ht, .rfl' t⟩

theorem HeapKept.map (h : List Task) (f : Task → Task) (hf : ∀ t, SameSent t (f t)) : HeapKept h (h.map f) := by
  intro r t ht
  exact ⟨f t, by rw [List.getElem?_map, ht]; rfl, hf t⟩

theorem HeapKept.modify (h : List Task) (i : Nat) (f : Task → Task) (hf : ∀ t, h[i]? = some t → SameSent t (f t)) :
    HeapKept h (h.modify i f) := by
  intro r t ht
  rw [List.getElem?_modify]
  by_cases hir : i = r
  · subst hir
    exact ⟨f t, by simp [ht], hf t ht⟩
  · exact ⟨t, by simp [ht, hir], .rfl' t⟩

theorem HeapKept.foldl {α} (f : Shared → α → Shared) (l : List α) (hf : ∀ sh a, HeapKept sh.heap (f sh a).heap) (sh : Shared) :
    HeapKept sh.heap (l.foldl f sh).heap := by
  induction l generalizing sh with
  | nil => exact .refl _
  | cons a l ih => exact (hf sh a).trans (ih (f sh a))

theorem creditQuestions_kept (sh : Shared) : HeapKept sh.heap (creditQuestions sh).heap := by
  unfold creditQuestions
  apply HeapKept.foldl
  intro sh q
  unfold creditQuestion
  apply HeapKept.foldl
  intro sh t
  split
  · apply HeapKept.foldl
    intro sh r
    exact .modify _ _ _ (fun _ _ => .of_eq rfl)
  · exact .refl _

theorem divCredit_sent {t t' : Task} (h : divCreditByComplexity t = .ok t') : t'.sentence = t.sentence := by
  unfold divCreditByComplexity at h
  split at h
  · cases h
  · cases h; rfl

theorem payCredit_sent {cc : Bool} {t t' : Task} (h : payCredit cc t = .ok t') : t'.sentence = t.sentence := by
  unfold payCredit at h
  split at h
  · exact divCredit_sent h
  · cases h; rfl

theorem baseCredit_kept {sh sh' : Shared} (h : baseCredit sh = .ok sh') : HeapKept sh.heap sh'.heap := by
  unfold baseCredit at h
  refine HeapKept.trans (HeapKept.foldl (fun sh r => sh.modifyTask r (fun t => { t with credit := t.credit + 1/2 }))
    sh.judgementTasks (fun sh r => .modify _ _ _ (fun _ _ => .of_eq rfl)) sh) ?_
  refine foldlM_inv (fun x : Shared => HeapKept _ x.heap) h (.refl _) ?_
  intro r _ a b hab hstep
  obtain ⟨t, ht, hstep⟩ := R.bind_ok.1 hstep
  obtain ⟨t', ht', hstep⟩ := R.bind_ok.1 hstep
  cases hstep
  refine hab.trans (.modify _ _ _ ?_)
  intro t1 h1
  rw [indexAt_ok.1 ht] at h1
  cases h1
  exact .of_eq (divCredit_sent ht')

theorem useTask_kept (now : Int) (sh : Shared) (r : Nat) : HeapKept sh.heap (useTask now sh r).heap := by
  rcases useTask_cases now sh r with ⟨_, h⟩ | ⟨task, _, h⟩
  · rw [h]; exact .refl _
  · rw [h]
    refine .map _ _ fun t => ?_
    unfold SameSent
    simp only [Sentence.useCell]
    split <;> rfl

theorem updateUsage_kept (sh : Shared) (msg : Msg) (now : Int) : HeapKept sh.heap (updateUsage sh msg now).heap :=
  updateUsage_inv (fun x => HeapKept sh.heap x.heap) msg now (.refl _) fun a r h => h.trans (useTask_kept now a r)

theorem addTasks_kept {cc : Bool} {mc : Rat} {ss : List Sentence} {sh sh' : Shared}
    (h : addTasks sh cc mc ss = .ok sh') : HeapKept sh.heap sh'.heap := by
  induction ss generalizing sh with
  | nil => cases h; exact .refl _
  | cons s ss ih =>
    unfold addTasks at h
    cases hp : s.punct with
    | JUGEMENT =>
      rw [hp] at h
      simp only [R.bind_ok] at h
      obtain ⟨tasks, ht, h⟩ := h
      split at h
      · cases h; exact .refl _
      · rw [R.bind_ok] at h
        obtain ⟨task, htask, h⟩ := h
        exact (HeapKept.append _ _).trans (ih h)
    | QUESTION => rw [hp] at h; have := ih h; exact this
    | GOAL => rw [hp] at h; exact ih h

theorem memAddTask_kept {cfg : Cfg} {sh sh' : Shared} {s : Sentence} {cc : Bool} {mc : Rat} {now : Int}
    (h : memAddTask cfg sh s cc mc now = .ok sh') : HeapKept sh.heap sh'.heap := by
  rcases memAddTask_cases h with ⟨_, rfl⟩ | ⟨_, mem, rev, _, h3⟩
  · exact .refl _
  · have := addTasks_kept h3; exact this

theorem TaskOp.run_kept {cfg : Cfg} {sh sh' : Shared} {op : TaskOp} {calls : List AnswerCall}
    (h : op.run cfg sh = .ok (sh', calls)) : HeapKept sh.heap sh'.heap := by
  cases op with
  | add s cc mc now =>
    obtain ⟨x, h1, h2⟩ := R.map_ok.1 h
    cases h2
    exact memAddTask_kept h1
  | tick => cases h; exact .refl _
  | creditQuestions => cases h; exact creditQuestions_kept sh
  | baseCredit =>
    obtain ⟨x, h1, h2⟩ := R.map_ok.1 h
    cases h2; exact baseCredit_kept h1
  | answer v => obtain ⟨qs, hq⟩ := answerSampled_frame h; simp only at hq; rw [hq]; exact .refl _
  | offer c => obtain ⟨qs, hq⟩ := offerConclusion_frame h; simp only at hq; rw [hq]; exact .refl _
  | select =>
    obtain ⟨r', h1, h2⟩ := R.map_ok.1 h
    cases h2
    rcases selectPrimary_cases h1 with ⟨_, rfl⟩ | ⟨_, _, _, _, rfl⟩ <;> exact .refl _
  | usage msg now => cases h; exact updateUsage_kept sh msg now
  | cleanup =>
    obtain ⟨x, h1, h2⟩ := R.map_ok.1 h
    cases h2
    obtain ⟨_, _, _, _, rfl⟩ := cleanupTasks_spec h1
    exact .refl _
  | rebuild =>
    obtain ⟨x, h1, h2⟩ := R.map_ok.1 h
    cases h2
    unfold rebuildLookup at h1
    rw [R.bind_ok] at h1
    obtain ⟨_, _, h1⟩ := h1
    cases h1; exact .refl _
  | forget n => obtain ⟨m, h1, h2⟩ := R.map_ok.1 h; cases h2; exact .refl _
  | flush => cases h; exact .refl _
  | newStampId => cases h; exact .refl _
  | procMem m => cases h; exact .refl _

/-! ## questions -/

/-- every question is still there, and was offered candidates; the handlers were told about better answers -/
def QKept (n : Nat) (qs qs' : List Task2) (new : List AnswerCall) : Prop :=
  ∀ (i : Nat) (q : Task2), qs[i]? = some q →
    ∃ q' cands calls, qs'[i]? = some q' ∧ qaTryAll n q cands = .ok (q', calls) ∧ calls.Sublist new

theorem QKept.refl (n : Nat) (qs : List Task2) : QKept n qs qs [] := fun _ q hq => ⟨q, [], [], hq, rfl, .refl _⟩

theorem QKept.trans {n : Nat} {a b c : List Task2} {x y : List AnswerCall} (h : QKept n a b x) (h' : QKept n b c y) :
    QKept n a c (x ++ y) := by
  intro i q hq
  obtain ⟨q1, d1, c1, h1, e1, e2⟩ := h i q hq
  obtain ⟨q2, d2, c2, h2, f1, f2⟩ := h' i q1 h1
  exact ⟨q2, d1 ++ d2, c1 ++ c2, h2, qaTryAll_append e1 f1, e2.append f2⟩

theorem QStep.kept {n : Nat} {qs qs' : List Task2} {calls : List AnswerCall} (h : QStep n qs qs' calls) : QKept n qs qs' calls := by
  intro i q hq
  have hi : i < qs'.length := lt_of_lt_of_le (List.getElem?_eq_some_iff.1 hq).1 h.1
  obtain ⟨cands, cs, h1, h2⟩ := h.2.1 i q qs'[i] hq (List.getElem?_eq_getElem hi)
  exact ⟨qs'[i], cands, cs, List.getElem?_eq_getElem hi, h1, h2⟩

/-- what every continuation keeps -/
structure Kept (cfg : Cfg) (sh : Shared) (log : List AnswerCall) (sh' : Shared) (log' : List AnswerCall) : Prop where
  heap : HeapKept sh.heap sh'.heap
  inv : Inv cfg sh → Inv cfg sh'
  questions : ∃ new, log' = log ++ new ∧ QKept cfg.nGlobal sh.questionTasks sh'.questionTasks new

theorem Kept.refl (cfg : Cfg) (sh : Shared) (log : List AnswerCall) : Kept cfg sh log sh log :=
  ⟨.refl _, id, [], by simp, .refl _ _⟩

theorem Kept.trans {cfg : Cfg} {a b c : Shared} {x y z : List AnswerCall} (h : Kept cfg a x b y) (h' : Kept cfg b y c z) :
    Kept cfg a x c z := by
  obtain ⟨n1, e1, q1⟩ := h.questions
  obtain ⟨n2, e2, q2⟩ := h'.questions
  exact ⟨h.heap.trans h'.heap, fun i => h'.inv (h.inv i), n1 ++ n2, by rw [e2, e1, List.append_assoc], q1.trans q2⟩

theorem moreTasks_kept {cfg : Cfg} {st st' : Shared × List AnswerCall} {ops : List TaskOp}
    (h : moreTasks cfg st ops = .ok st') : Kept cfg st.1 st.2 st'.1 st'.2 := by
  refine foldlM_inv (fun s : Shared × List AnswerCall => Kept cfg st.1 st.2 s.1 s.2) h (.refl _ _ _) ?_
  rintro op hop ⟨sh, log⟩ b h1 hstep
  obtain ⟨⟨sh', calls⟩, h3, h4⟩ := R.bind_ok.1 hstep
  cases h4
  exact h1.trans ⟨TaskOp.run_kept h3, fun hi => (by have := TaskOp.run_inv h3 hi; exact this), calls, rfl, (TaskOp.run_questions h3).kept⟩

theorem SysOp.run_kept {cfg : Cfg} {s s' : Sys} {op : SysOp} (h : op.run cfg s = .ok s') : Kept cfg s.sh s.log s'.sh s'.log := by
  obtain ⟨ops, h1, _⟩ := SysOp.run_more h
  exact moreTasks_kept h1

theorem moreSys_kept {cfg : Cfg} {s s' : Sys} {ops : List SysOp} (h : moreSys cfg s ops = .ok s') :
    Kept cfg s.sh s.log s'.sh s'.log := by
  refine foldlM_inv (fun x : Sys => Kept cfg s.sh s.log x.sh x.log) h (.refl _ _ _) ?_
  rintro op hop a b h1 hstep
  exact h1.trans (SysOp.run_kept hstep)

theorem moreSys_append {cfg : Cfg} {s s' : Sys} {a b : List SysOp} (h : moreSys cfg s (a ++ b) = .ok s') :
    ∃ s1, moreSys cfg s a = .ok s1 ∧ moreSys cfg s1 b = .ok s' := by
  unfold moreSys at *
  rw [List.foldlM_append] at h
  exact R.bind_ok.1 h

theorem runSys_moreSys {cfg : Cfg} {s s' : Sys} {a b : List SysOp} (h : runSys cfg a = .ok s) (h' : moreSys cfg s b = .ok s') :
    runSys cfg (a ++ b) = .ok s' := by
  unfold runSys at *
  rw [List.foldlM_append]
  exact R.bind_ok.2 ⟨s, h, h'⟩

/-- the system satisfies the invariant of the task system -/
theorem runSys_inv {cfg : Cfg} {ops : List SysOp} {s : Sys} (h : runSys cfg ops = .ok s) : Inv cfg s.sh := by
  obtain ⟨tops, ht⟩ := runSys_history' h
  exact (runTasks_inv (fun _ => True) ht trivial (fun _ _ _ _ _ _ _ _ _ => trivial)).1

end Nar
