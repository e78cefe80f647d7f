import Verif.Spec.Chance
import Verif.Lemmas.Task3
/-! # Lemmas: declarative reasoning does not depend on how well questions were answered -/
namespace Nar
open Term

/-- a question without how well it was answered -/
def Task2.blank (q : Task2) : Task2 := { q with bestAnswerExp := 0 }

/-- a state without how well questions were answered, and without the link to procedural memory -/
def Shared.blank (sh : Shared) : Shared := { sh with questionTasks := sh.questionTasks.map Task2.blank, procMem := [] }

theorem blank_iff {q q' : Task2} : q.blank = q'.blank ↔ q.sentence = q'.sentence ∧ q.handler = q'.handler ∧ q.prio = q'.prio := by
  cases q; cases q'
  simp [Task2.blank]

theorem blanks_iff {l l' : List Task2} : l.map Task2.blank = l'.map Task2.blank ↔
    l.map (fun q => (q.sentence, q.handler, q.prio)) = l'.map (fun q => (q.sentence, q.handler, q.prio)) := by
  induction l generalizing l' with
  | nil => cases l' <;> simp
  | cons q l ih =>
    cases l' with
    | nil => simp
    | cons q' l' => simp only [List.map_cons, List.cons.injEq, ih, blank_iff, Prod.mk.injEq]

theorem sameKnowledge_iff {s s' : Shared} : SameKnowledge s s' ↔ s.blank = s'.blank := by
  constructor
  · rintro ⟨h1, h2, h3, h4, h5, h6, h7, h8⟩
    cases s; cases s'
    simp only at h1 h2 h3 h4 h5 h6 h7 h8
    subst h1 h2 h3 h4 h5 h6 h7
    simp only [Shared.blank, blanks_iff.2 h8]
  · intro h
    cases s; cases s'
    simp only [Shared.blank, Shared.mk.injEq] at h
    obtain ⟨h1, h2, h3, h4, h5, h6, h7, h8, _⟩ := h
    exact ⟨h1, h2, h3, h5, h6, h7, h8, blanks_iff.1 h4⟩

theorem addTasks_blank (cc : Bool) (mul : Rat) (l : List Sentence) : ∀ sh : Shared,
    addTasks sh.blank cc mul l = (addTasks sh cc mul l).map Shared.blank := by
  induction l with
  | nil => intro sh; rfl
  | cons s rest ih =>
    intro sh
    simp only [addTasks]
    cases s.punct with
    | GOAL => exact ih sh
    | QUESTION =>
      simp only
      rw [← ih]
      congr 1
      simp [Shared.blank, Task2.blank]
    | JUGEMENT =>
      simp only
      show ((sh.derefs sh.judgementTasks) >>= _) = _
      cases sh.derefs sh.judgementTasks with
      | error e => rfl
      | ok tasks =>
        simp only [bind, Except.bind]
        split
        · rfl
        · show (payCredit cc { sentence := shallowCopySentence s, credit := 1, qaCredit := 0,
                               mulCredit := mul, id := sh.taskIdCounter, derivTime := sh.cycleCounter }).bind _ = _
          cases payCredit cc { sentence := shallowCopySentence s, credit := 1, qaCredit := 0,
                               mulCredit := mul, id := sh.taskIdCounter, derivTime := sh.cycleCounter } with
          | error e => rfl
          | ok task =>
            exact ih { sh with
                       heap := sh.heap ++ [task]
                       judgementTasks := sh.judgementTasks ++ [sh.heap.length]
                       judgementTasksByTerm := populateTaskByTermLookup sh.judgementTasksByTerm s.term sh.heap.length
                       taskIdCounter := sh.taskIdCounter + 1 }

theorem memAddTask_blank (cfg : Cfg) (n : Nat) (sh : Shared) (s : Sentence) (cc : Bool) (mul : Rat) (t : Int) :
    memAddTask { cfg with nGlobal := n } sh.blank s cc mul t = (memAddTask cfg sh s cc mul t).map Shared.blank := by
  simp only [memAddTask]
  split
  · rfl
  · show (addBelief sh.mem s cfg.nBeliefs t >>= _) = _
    cases addBelief sh.mem s cfg.nBeliefs t with
    | error e => rfl
    | ok x => exact addTasks_blank cc mul _ { sh with mem := x.1 }

theorem foldl_blank {α : Type} (f : Shared → α → Shared) (hf : ∀ sh a, f sh.blank a = (f sh a).blank) (l : List α) : ∀ sh : Shared,
    l.foldl f sh.blank = (l.foldl f sh).blank := by
  induction l with
  | nil => intro sh; rfl
  | cons a l ih =>
    intro sh
    rw [List.foldl_cons, List.foldl_cons, hf, ih]

theorem creditQuestion_blank (sh : Shared) (q : Task2) : creditQuestion sh.blank q.blank = (creditQuestion sh q).blank := by
  unfold creditQuestion
  refine foldl_blank _ ?_ _ sh
  intro sh t
  show (match lookupRefs sh.judgementTasksByTerm t with | some refs => _ | none => _) = _
  cases lookupRefs sh.judgementTasksByTerm t with
  | none => rfl
  | some refs => exact foldl_blank _ (fun _ _ => rfl) refs sh

theorem creditQuestions_blank (sh : Shared) : creditQuestions sh.blank = (creditQuestions sh).blank := by
  unfold creditQuestions
  show (sh.questionTasks.map Task2.blank).foldl creditQuestion sh.blank = _
  rw [List.foldl_map]
  have : ∀ (l : List Task2) (sh : Shared), l.foldl (fun x q => creditQuestion x q.blank) sh.blank = (l.foldl creditQuestion sh).blank := by
    intro l
    induction l with
    | nil => intro sh; rfl
    | cons a l ih =>
      intro sh
      rw [List.foldl_cons, List.foldl_cons, creditQuestion_blank, ih]
  exact this _ sh

theorem foldlM_blank {α : Type} (f : Shared → α → R Shared) (hf : ∀ sh a, f sh.blank a = (f sh a).map Shared.blank) (l : List α) :
    ∀ sh : Shared, l.foldlM f sh.blank = (l.foldlM f sh).map Shared.blank := by
  induction l with
  | nil => intro sh; rfl
  | cons a l ih =>
    intro sh
    rw [List.foldlM_cons, List.foldlM_cons, hf]
    cases f sh a with
    | error e => rfl
    | ok x => exact ih x

theorem baseCredit_blank (sh : Shared) : baseCredit sh.blank = (baseCredit sh).map Shared.blank := by
  unfold baseCredit
  simp only
  have h1 := foldl_blank (fun sh r => sh.modifyTask r (fun t => { t with credit := t.credit + 1/2 })) (fun _ _ => rfl)
    sh.judgementTasks sh
  have h1' : List.foldl (fun sh r => sh.modifyTask r (fun t => { t with credit := t.credit + 1/2 })) sh.blank sh.blank.judgementTasks =
    (List.foldl (fun sh r => sh.modifyTask r (fun t => { t with credit := t.credit + 1/2 })) sh sh.judgementTasks).blank := h1
  rw [h1']
  refine foldlM_blank _ ?_ _ _
  intro sh r
  show (indexAt sh.heap r >>= _) = _
  cases indexAt sh.heap r with
  | error e => rfl
  | ok t =>
    show (divCreditByComplexity t >>= _) = ((divCreditByComplexity t >>= _ : R Shared)).map _
    cases divCreditByComplexity t with
    | error e => rfl
    | ok t' => rfl

theorem selectPrimary_blank (cfg : Cfg) (n : Nat) (sh : Shared) : selectPrimary { cfg with nGlobal := n } sh.blank =
    (selectPrimary cfg sh).map (fun x => (x.1.blank, x.2)) := by
  unfold selectPrimary
  show (if sh.judgementTasks.length > 0 then _ else _) = _
  split
  · show (sh.derefs sh.judgementTasks >>= _) = _
    cases sh.derefs sh.judgementTasks with
    | error e => rfl
    | ok tasks =>
      simp only [bind, Except.bind]
      show (indexAt sh.judgementTasks (taskSelByCreditTop cfg.decay tasks sh.cycleCounter)).bind _ = _
      cases indexAt sh.judgementTasks (taskSelByCreditTop cfg.decay tasks sh.cycleCounter) with
      | error e => rfl
      | ok r => rfl
  · rfl

theorem secondaryElligable_blank (sh : Shared) (p : Nat) : secondaryElligable sh.blank p = secondaryElligable sh p := rfl

theorem buildMsg_blank (cfg : Cfg) (n : Nat) (sh : Shared) : buildMsg { cfg with nGlobal := n } sh.blank =
    (buildMsg cfg sh).map (fun x => (x.1.blank, x.2)) := by
  unfold buildMsg
  rw [selectPrimary_blank]
  cases selectPrimary cfg sh with
  | error e => rfl
  | ok x =>
    obtain ⟨s1, o⟩ := x
    cases o with
    | none => rfl
    | some p =>
      show (secondaryElligable s1.blank p >>= _) = (secondaryElligable s1 p >>= _ : R (Shared × Option Msg)).map _
      rw [secondaryElligable_blank]
      cases secondaryElligable s1 p with
      | error e => rfl
      | ok l => rfl

theorem useTask_blank (t : Int) (sh : Shared) (r : Nat) : useTask t sh.blank r = (useTask t sh r).blank := by
  unfold useTask
  show (match sh.heap[r]? with | some task => _ | none => _) = _
  cases sh.heap[r]? <;> rfl

theorem useMsg_blank (t : Int) (sh : Shared) (m : Option Msg) : useMsg sh.blank t m = (useMsg sh t m).blank := by
  cases m with
  | none => rfl
  | some m => exact foldl_blank _ (useTask_blank t) _ sh

theorem cleanupTasks_blank (cfg : Cfg) (n : Nat) (sh : Shared) : cleanupTasks { cfg with nGlobal := n } sh.blank =
    (cleanupTasks cfg sh).map Shared.blank := by
  unfold cleanupTasks
  show (sh.judgementTasks.mapM (fun r => do
    let t ← indexAt sh.heap r
    .ok (taskCalcCredit cfg.decay t sh.cycleCounter, r)) >>= _) = _
  cases sh.judgementTasks.mapM (fun r => (do
    let t ← indexAt sh.heap r
    .ok (taskCalcCredit cfg.decay t sh.cycleCounter, r) : R (Rat × Nat))) with
  | error e => rfl
  | ok l => rfl

theorem rebuildLookup_blank (sh : Shared) : rebuildLookup sh.blank = (rebuildLookup sh).map Shared.blank := by
  unfold rebuildLookup
  show (sh.judgementTasks.mapM (fun r => do let t ← indexAt sh.heap r; .ok (t.sentence.term, r)) >>= _) = _
  cases sh.judgementTasks.mapM (fun r => (do let t ← indexAt sh.heap r; .ok (t.sentence.term, r) : R (Term × Nat))) with
  | error e => rfl
  | ok l => rfl

theorem everyCleanup_blank (cfg : Cfg) (n : Nat) (sh : Shared) : everyCleanup { cfg with nGlobal := n } sh.blank =
    (everyCleanup cfg sh).map Shared.blank := by
  unfold everyCleanup
  show (if sh.cycleCounter % 111 = 0 then _ else _) = _
  split
  · rw [cleanupTasks_blank]
    cases cleanupTasks cfg sh with
    | error e => rfl
    | ok x => exact rebuildLookup_blank x
  · rfl

theorem everyForget_blank (sh : Shared) : everyForget sh.blank = (everyForget sh).map Shared.blank := by
  unfold everyForget
  show (if sh.cycleCounter % 173 = 0 then _ else _) = _
  split
  · show (limitMemory sh.mem 3000 >>= _) = _
    cases limitMemory sh.mem 3000 with
    | error e => rfl
    | ok x => rfl
  · rfl

theorem qaTryAnswer_blank (n : Nat) (q : Task2) (c : Sentence) : (qaTryAnswer n q c).map (·.1.blank) =
    if c.punct ≠ .JUGEMENT then .ok q.blank else (expOf c).map (fun _ => q.blank) := by
  unfold qaTryAnswer
  split
  · rfl
  · cases expOf c with
    | error e => rfl
    | ok e =>
      simp only [bind, Except.bind]
      split
      · split <;> rfl
      · rfl

theorem qaTryAll_blank (n : Nat) (l : List Sentence) : ∀ {q q' : Task2} {calls : List AnswerCall},
    qaTryAll n q l = .ok (q', calls) → q'.blank = q.blank := by
  induction l with
  | nil => intro q q' calls h; cases h; rfl
  | cons b bs ih =>
    intro q q' calls h
    obtain ⟨⟨q1, c1⟩, h1, h⟩ := R.bind_ok.1 h
    obtain ⟨⟨q2, c2⟩, h2, h⟩ := R.bind_ok.1 h
    cases h
    rw [ih h2]
    have := qaTryAnswer_blank n q b
    rw [h1] at this
    split at this
    · exact Except.ok.inj this
    · obtain ⟨_, _, k⟩ := R.map_ok.1 this.symm
      exact k.symm

theorem answerSampled_blank {cfg : Cfg} {v : Rat} {sh sh' : Shared} {calls : List AnswerCall}
    (h : answerSampled cfg v sh = .ok (sh', calls)) : sh'.blank = sh.blank := by
  unfold answerSampled at h
  split at h
  · obtain ⟨i, h1, h⟩ := R.bind_ok.1 h
    obtain ⟨q, h2, h⟩ := R.bind_ok.1 h
    obtain ⟨⟨q', c⟩, h3, h⟩ := R.bind_ok.1 h
    cases h
    have hq := qaTryAll_blank _ _ h3
    have : (sh.questionTasks.set i q').map Task2.blank = sh.questionTasks.map Task2.blank := by
      rw [List.map_set, hq]
      have h2 := indexAt_ok.1 h2
      refine List.ext_getElem? fun j => ?_
      rw [List.getElem?_set]
      split
      · rename_i hj
        subst hj
        rw [List.getElem?_map, h2]
        split
        · rfl
        · rename_i hn
          have := (List.getElem?_eq_some_iff.1 h2).1
          simp at hn
          omega
      · rfl
    simp only [Shared.blank, this]
  · cases h; rfl

/-- a cycle without answering questions -/
def thinkCycle (cfg : Cfg) (currentTime : Int) (sh : Shared) : R (Shared × Option Msg) := do
  let sh ← baseCredit (creditQuestions { sh with cycleCounter := sh.cycleCounter + 1 })
  let (sh, msg) ← buildMsg cfg sh
  let sh ← everyCleanup cfg (useMsg sh currentTime msg)
  let sh ← everyForget sh
  .ok (sh, msg)

theorem reasonCycle_blank {cfg : Cfg} (n : Nat) {v : Rat} {t : Int} {sh sh' : Shared} {m : Option Msg} {calls : List AnswerCall}
    (h : reasonCycle cfg v t sh = .ok (sh', m, calls)) : thinkCycle { cfg with nGlobal := n } t sh.blank = .ok (sh'.blank, m) := by
  unfold reasonCycle at h
  obtain ⟨s1, h1, h⟩ := R.bind_ok.1 h
  obtain ⟨⟨s2, c2⟩, h2, h⟩ := R.bind_ok.1 h
  obtain ⟨⟨s3, m3⟩, h3, h⟩ := R.bind_ok.1 h
  obtain ⟨s4, h4, h⟩ := R.bind_ok.1 h
  obtain ⟨s5, h5, h⟩ := R.bind_ok.1 h
  cases h
  unfold thinkCycle
  have e1 : baseCredit (creditQuestions { sh.blank with cycleCounter := sh.blank.cycleCounter + 1 }) = .ok s1.blank := by
    have := creditQuestions_blank { sh with cycleCounter := sh.cycleCounter + 1 }
    have k : creditQuestions { sh.blank with cycleCounter := sh.blank.cycleCounter + 1 } =
      (creditQuestions { sh with cycleCounter := sh.cycleCounter + 1 }).blank := this
    rw [k, baseCredit_blank, h1]; rfl
  rw [e1, ← answerSampled_blank h2]
  show (buildMsg { cfg with nGlobal := n } s2.blank >>= _) = _
  rw [buildMsg_blank, h3]
  show (everyCleanup { cfg with nGlobal := n } (useMsg s3.blank t m) >>= _) = _
  rw [useMsg_blank, everyCleanup_blank, h4]
  show (everyForget s4.blank >>= _) = _
  rw [everyForget_blank, h5]
  rfl

theorem qaOffer_blank (n : Nat) (c : Sentence) (hc : c.punct = .JUGEMENT) (qs : List Task2) :
    (qaOffer n c qs).map (·.1.map Task2.blank) = if qs = [] then .ok [] else (expOf c).map (fun _ => qs.map Task2.blank) := by
  induction qs with
  | nil => rfl
  | cons q qs ih =>
    have hq := qaTryAnswer_blank n q c
    simp only [hc, ne_eq, not_true_eq_false, if_false] at hq
    simp only [qaOffer, reduceCtorEq, if_false]
    cases hx : expOf c with
    | error e =>
      rw [hx] at hq
      cases hy : qaTryAnswer n q c with
      | error e' => rw [hy] at hq; cases hq; rfl
      | ok x => rw [hy] at hq; cases hq
    | ok e =>
      rw [hx] at hq ih
      cases hy : qaTryAnswer n q c with
      | error e' => rw [hy] at hq; cases hq
      | ok x =>
        rw [hy] at hq
        have hq : x.1.blank = q.blank := Except.ok.inj hq
        cases hz : qaOffer n c qs with
        | error e' =>
          rw [hz] at ih
          split at ih <;> cases ih
        | ok y =>
          rw [hz] at ih
          have : y.1.map Task2.blank = qs.map Task2.blank := by
            split at ih
            · rename_i hnil
              subst hnil
              exact Except.ok.inj ih
            · exact Except.ok.inj ih
          simp only [bind, Except.bind, Except.map, List.map_cons, hq, this]

theorem offerConclusion_blank (cfg : Cfg) (sh : Shared) (c : Sentence) : (offerConclusion cfg sh c).map (·.1.blank) =
    if c.punct = .JUGEMENT ∧ sh.questionTasks ≠ [] then (expOf c).map (fun _ => sh.blank) else .ok sh.blank := by
  unfold offerConclusion
  by_cases hc : c.punct = .JUGEMENT
  · have h := qaOffer_blank cfg.nGlobal c hc sh.questionTasks
    simp only [hc, if_true, true_and]
    by_cases hq : sh.questionTasks = []
    · simp only [hq, ne_eq, not_true_eq_false, if_false]
      rw [show qaOffer cfg.nGlobal c [] = .ok ([], []) from rfl]
      cases sh
      simp only at hq
      subst hq
      rfl
    · simp only [hq, ne_eq, not_false_eq_true, if_true, if_false] at h ⊢
      cases hx : expOf c with
      | error e =>
        rw [hx] at h
        cases hy : qaOffer cfg.nGlobal c sh.questionTasks with
        | error e' => rw [hy] at h; cases h; rfl
        | ok y => rw [hy] at h; cases h
      | ok e =>
        rw [hx] at h
        cases hy : qaOffer cfg.nGlobal c sh.questionTasks with
        | error e' => rw [hy] at h; cases h
        | ok y =>
          rw [hy] at h
          have h : y.1.map Task2.blank = sh.questionTasks.map Task2.blank := Except.ok.inj h
          simp only [bind, Except.bind, Except.map, Shared.blank, h]
  · simp [hc, Except.map]

theorem offerAll_blank (cfg cfg' : Cfg) (cs : List Sentence) : ∀ (sh sh' : Shared), sh.blank = sh'.blank →
    (offerAll cfg sh cs).map (·.1.blank) = (offerAll cfg' sh' cs).map (·.1.blank) := by
  induction cs with
  | nil => intro sh sh' h; simp only [offerAll, Except.map, h]
  | cons c cs ih =>
    intro sh sh' h
    have h1 := offerConclusion_blank cfg sh c
    have h2 := offerConclusion_blank cfg' sh' c
    have hn : (sh.questionTasks ≠ []) = (sh'.questionTasks ≠ []) := by
      have := congrArg (fun s => s.questionTasks.length) h
      simp only [Shared.blank, List.length_map] at this
      rw [eq_iff_iff, ← List.length_pos_iff, ← List.length_pos_iff, this]
    simp only [hn, h] at h1
    rw [← h2] at h1
    simp only [offerAll]
    cases ha : offerConclusion cfg sh c with
    | error e =>
      rw [ha] at h1
      cases hb : offerConclusion cfg' sh' c with
      | error e' => rw [hb] at h1; cases h1; rfl
      | ok y => rw [hb] at h1; cases h1
    | ok x =>
      rw [ha] at h1
      cases hb : offerConclusion cfg' sh' c with
      | error e' => rw [hb] at h1; cases h1
      | ok y =>
        rw [hb] at h1
        have := ih x.1 y.1 (Except.ok.inj h1)
        simp only [bind, Except.bind]
        cases hc : offerAll cfg x.1 cs with
        | error e =>
          rw [hc] at this
          cases hd : offerAll cfg' y.1 cs with
          | error e' => rw [hd] at this; cases this; rfl
          | ok z => rw [hd] at this; cases this
        | ok w =>
          rw [hc] at this
          cases hd : offerAll cfg' y.1 cs with
          | error e' => rw [hd] at this; cases this
          | ok z => rw [hd] at this; exact this

theorem work_blank (cfg : Cfg) (n : Nat) (sh sh' : Shared) (h : sh.blank = sh'.blank) (m : Msg) :
    (work { cfg with nGlobal := n } sh' m).map (·.1.blank) = (work cfg sh m).map (·.1.blank) := by
  have hh : sh'.heap = sh.heap := (congrArg (fun s : Shared => s.heap) h : sh.blank.heap = sh'.blank.heap).symm
  have hm : sh'.mem = sh.mem := (congrArg (fun s : Shared => s.mem) h : sh.blank.mem = sh'.blank.mem).symm
  have hw : workConclusions sh' m = workConclusions sh m := by
    unfold workConclusions Shared.derefs
    rw [hh, hm]
  unfold work
  rw [hw, hh]
  cases workConclusions sh m with
  | error e => rfl
  | ok concl =>
    simp only [bind, Except.bind]
    cases indexAt sh.heap m.primary with
    | error e => rfl
    | ok p =>
      simp only
      have ho := offerAll_blank { cfg with nGlobal := n } cfg (concl.map (·.1)) sh' sh h.symm
      cases ha : offerAll { cfg with nGlobal := n } sh' (concl.map (·.1)) with
      | error e =>
        rw [ha] at ho
        cases hb : offerAll cfg sh (concl.map (·.1)) with
        | error e' => rw [hb] at ho; cases ho; rfl
        | ok y => rw [hb] at ho; cases ho
      | ok x =>
        rw [ha] at ho
        cases hb : offerAll cfg sh (concl.map (·.1)) with
        | error e' => rw [hb] at ho; cases ho
        | ok y =>
          rw [hb] at ho
          have ho : x.1.blank = y.1.blank := Except.ok.inj ho
          simp only
          have f1 := foldlM_blank (fun sh c => memAddTask { cfg with nGlobal := n } sh c.1 true (1 * p.mulCredit * c.2) m.cycleCounter)
            (fun s c => memAddTask_blank { cfg with nGlobal := n } n s c.1 true _ _) concl x.1
          have f2 := foldlM_blank (fun sh c => memAddTask cfg sh c.1 true (1 * p.mulCredit * c.2) m.cycleCounter)
            (fun s c => memAddTask_blank cfg cfg.nGlobal s c.1 true _ _) concl y.1
          have f3 : ∀ z : Shared, concl.foldlM (fun sh c => memAddTask { cfg with nGlobal := n } sh c.1 true (1 * p.mulCredit * c.2) m.cycleCounter) z =
            concl.foldlM (fun sh c => memAddTask cfg sh c.1 true (1 * p.mulCredit * c.2) m.cycleCounter) z := fun z => rfl
          rw [ho, f3, f2] at f1
          cases hc : concl.foldlM (fun sh c => memAddTask { cfg with nGlobal := n } sh c.1 true (1 * p.mulCredit * c.2) m.cycleCounter) x.1 with
          | error e =>
            rw [hc] at f1
            cases hd : concl.foldlM (fun sh c => memAddTask cfg sh c.1 true (1 * p.mulCredit * c.2) m.cycleCounter) y.1 with
            | error e' => rw [hd] at f1; cases f1; rfl
            | ok z => rw [hd] at f1; cases f1
          | ok w =>
            rw [hc] at f1
            cases hd : concl.foldlM (fun sh c => memAddTask cfg sh c.1 true (1 * p.mulCredit * c.2) m.cycleCounter) y.1 with
            | error e' => rw [hd] at f1; cases f1
            | ok z => rw [hd] at f1; exact f1.symm

end Nar
