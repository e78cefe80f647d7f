import Verif.Lemmas.Nar
import Verif.Lemmas.Task2
import Verif.Lemmas.Proc4
import Verif.Spec.Whole
/-! # The reasoner as a whole, seen as its two parts -/
namespace Nar
open Term

/-! ## the declarative part -/

theorem trail_closed : SentClosed (fun s => s.stamp.ids ≠ []) where
  pool := by
    intro _ b s r hb hs _ hn hr
    obtain ⟨_, _, _, _, _, _, rfl⟩ := revisedBelief_ok hr
    show (Stamp.merge b.stamp s.stamp).ids ≠ []
    rw [Stamp.merge_ids]
    intro h
    have h1 := congrArg List.length h
    rw [List.length_take, Stamp.interleave_length] at h1
    have := List.length_pos_iff.2 hb
    rw [List.length_nil] at h1; omega
  used := fun s u h => h
  two := by
    intro p s c w hp hs h
    rw [(follows_stamp h).2, Stamp.merge_ids]
    intro h
    have h1 := congrArg List.length h
    rw [List.length_take, Stamp.interleave_length] at h1
    have := List.length_pos_iff.2 hp
    rw [List.length_nil] at h1; omega
  alone := by
    intro p c w hp h
    rw [followsAlone_stamp h]; exact hp

/-- a state with sane credits and evidence trails, reached from a given one -/
structure DSt (env : Env) (sh0 : Shared) (log0 : List AnswerCall) (sh : Shared) (log : List AnswerCall) : Prop where
  reach : DeclMore env sh0 log0 sh log
  credit : CreditOk sh
  trailed : AllP (fun s => s.stamp.ids ≠ []) (fun _ => True) sh

theorem DSt.act {env : Env} {sh0 : Shared} {log0 : List AnswerCall} {sh sh' : Shared} {log calls : List AnswerCall}
    (cfg : Cfg) (op : TaskOp) (h : DSt env sh0 log0 sh log) (hcfg : LineCfg env cfg) (hc : op.CreditSane)
    (ht : op.Trailed) (hr : op.run cfg sh = .ok (sh', calls)) : DSt env sh0 log0 sh' (log ++ calls) := by
  refine ⟨.act cfg op h.reach hcfg hc ht hr, TaskOp.run_credit hr h.credit hc, (TaskOp.run_P trail_closed hr h.trailed ?_).1⟩
  cases op <;> first | exact fun _ => ht | exact ht | trivial | exact fun _ _ => ⟨fun _ _ => trivial, fun _ _ => trivial⟩

theorem DSt.more {env : Env} {sh0 : Shared} {log0 : List AnswerCall} {sh : Shared} {log : List AnswerCall} (h : DSt env sh0 log0 sh log) {cfg : Cfg}
    (hcfg : LineCfg env cfg) {ops : List TaskOp} {st : Shared × List AnswerCall} (hm : moreTasks cfg (sh, log) ops = .ok st)
    (hc : ∀ op ∈ ops, op.CreditSane) (ht : ∀ op ∈ ops, op.Trailed) : DSt env sh0 log0 st.1 st.2 := by
  refine foldlM_inv (fun st : Shared × List AnswerCall => DSt env sh0 log0 st.1 st.2) hm h ?_
  rintro op hop ⟨sh, log⟩ b ha hs
  obtain ⟨⟨sh', calls⟩, h3, h4⟩ := R.bind_ok.1 hs
  cases h4
  exact DSt.act cfg op ha hcfg (hc op hop) (ht op hop) h3

/-- state, answers and limits of the declarative part -/
structure WDecl (env : Env) (sh0 : Shared) (log0 : List AnswerCall) (r : Reasoner) : Prop where
  hist : DSt env sh0 log0 r.sh r.answers
  complexity : r.maxComplexity = 64
  beliefs : r.nConceptBeliefs = 20

theorem WDecl.cfg {env : Env} {sh0 : Shared} {log0 : List AnswerCall} {r : Reasoner} (h : WDecl env sh0 log0 r) : LineCfg env (r.cfg env) :=
  ⟨h.complexity, .inl h.beliefs, rfl⟩

theorem WDecl.same {env : Env} {sh0 : Shared} {log0 : List AnswerCall} {r r' : Reasoner} (h : WDecl env sh0 log0 r) (h1 : r'.sh = r.sh) (h2 : r'.answers = r.answers)
    (h3 : r'.maxComplexity = r.maxComplexity) (h4 : r'.nConceptBeliefs = r.nConceptBeliefs) : WDecl env sh0 log0 r' :=
  ⟨by rw [h1, h2]; exact h.hist, by rw [h3]; exact h.complexity, by rw [h4]; exact h.beliefs⟩

theorem cycleOps_sane {cycle : Int} {v : Rat} {now : Int} {msg : Option Msg} :
    ∀ o ∈ cycleOps cycle v now msg, o.CreditSane ∧ o.Trailed := by
  intro o ho
  simp only [cycleOps, maintenance] at ho
  split at ho <;> split at ho <;> cases msg <;> simp at ho <;>
    (try rcases ho with rfl | rfl | rfl | rfl | rfl | rfl | rfl | rfl | rfl) <;> simp_all [TaskOp.CreditSane, TaskOp.Trailed]

theorem procMem_act {env : Env} {sh0 : Shared} {log0 : List AnswerCall} {sh : Shared} {log : List AnswerCall} {cfg : Cfg} (h : DSt env sh0 log0 sh log)
    (hcfg : LineCfg env cfg) (m : Mem) : DSt env sh0 log0 { sh with procMem := m } log := by
  have := DSt.act (sh' := { sh with procMem := m }) (calls := []) cfg (.procMem m) h hcfg trivial trivial rfl
  simpa using this

theorem newId_act {env : Env} {sh0 : Shared} {log0 : List AnswerCall} {sh : Shared} {log : List AnswerCall} {cfg : Cfg} (h : DSt env sh0 log0 sh log)
    (hcfg : LineCfg env cfg) : DSt env sh0 log0 { sh with stampIdCounter := sh.stampIdCounter + 1 } log := by
  have := DSt.act (sh' := { sh with stampIdCounter := sh.stampIdCounter + 1 }) (calls := []) cfg .newStampId h hcfg
    trivial trivial rfl
  simpa using this

theorem cycle_WDecl {env : Env} {sh0 : Shared} {log0 : List AnswerCall} {r r' : Reasoner} {v : Rat} (h : cycle env r v = .ok r') (hi : WDecl env sh0 log0 r) : WDecl env sh0 log0 r' := by
  unfold cycle at h
  obtain ⟨⟨sh, msg, calls⟩, h1, h⟩ := R.bind_ok.1 h
  have key : r'.sh = { sh with procMem := r.sh.procMem } ∧ r'.answers = r.answers ++ calls ∧
      r'.maxComplexity = r.maxComplexity ∧ r'.nConceptBeliefs = r.nConceptBeliefs := by
    cases msg with
    | none => cases h; exact ⟨rfl, rfl, rfl, rfl⟩
    | some m =>
      simp only [sendMsg] at h
      split at h
      · cases h; exact ⟨rfl, rfl, rfl, rfl⟩
      · cases h
  have hlook : DSt env sh0 log0 r.look r.answers := by
    unfold Reasoner.look
    split
    · exact procMem_act hi.hist hi.cfg _
    · exact hi.hist
  have hd := hlook.more hi.cfg (reasonCycle_more r.answers h1) (fun o ho => (cycleOps_sane o ho).1)
    (fun o ho => (cycleOps_sane o ho).2)
  refine ⟨?_, by rw [key.2.2.1]; exact hi.complexity, by rw [key.2.2.2]; exact hi.beliefs⟩
  rw [key.1, key.2.1]
  exact procMem_act hd hi.cfg _

theorem declWork_WDecl (env : Env) {sh0 : Shared} {log0 : List AnswerCall} {r : Reasoner} (hi : WDecl env sh0 log0 r) : WDecl env sh0 log0 (declWork env r) := by
  unfold declWork
  split
  · split
    · exact hi
    · split
      · rename_i m rest hq sh calls hw
        obtain ⟨concl, p, hc, hp, hm⟩ := work_more r.answers hw
        refine ⟨hi.hist.more hi.cfg hm ?_ ?_, hi.complexity, hi.beliefs⟩
        · intro o ho
          simp only [workOps, List.mem_append, List.mem_map] at ho
          rcases ho with ⟨c, _, rfl⟩ | ⟨c, hcm, rfl⟩
          · trivial
          · have hw := (workConclusions_weight hc hcm).1
            exact mul_nonneg (hi.hist.credit.1 p (List.mem_of_getElem? hp)).2.2 hw
        · have key : ∀ c ∈ concl, c.1.stamp.ids ≠ [] := by
            intro c hcm
            exact workConclusions_P trail_closed hc hcm hi.hist.trailed
          intro o ho
          simp only [workOps, List.mem_append, List.mem_map] at ho
          rcases ho with ⟨c, hcm, rfl⟩ | ⟨c, hcm, rfl⟩
          · exact key c hcm
          · exact key c hcm
      · exact hi.same rfl rfl rfl rfl
  · exact hi

theorem declWorkN_WDecl (env : Env) {sh0 : Shared} {log0 : List AnswerCall} {r : Reasoner} (n : Nat) (hi : WDecl env sh0 log0 r) : WDecl env sh0 log0 (declWorkN env r n) := by
  induction n generalizing r with
  | zero => exact hi
  | succ n ih => exact ih (declWork_WDecl env hi)

theorem cyclesLoop_WDecl {env : Env} {sh0 : Shared} {log0 : List AnswerCall} {draws : Nat → Rat × Nat} {n i : Nat} {r r' : Reasoner}
    (h : cyclesLoop env draws n i r = .ok r') (hi : WDecl env sh0 log0 r) : WDecl env sh0 log0 r' := by
  induction n generalizing r i with
  | zero => cases h; exact hi
  | succ n ih =>
    unfold cyclesLoop at h
    obtain ⟨r1, h1, h⟩ := R.bind_ok.1 h
    exact ih h (cycle_WDecl h1 (declWorkN_WDecl env _ hi))

theorem tell_act {env : Env} {sh0 : Shared} {log0 : List AnswerCall} {sh sh' : Shared} {log : List AnswerCall} {cfg : Cfg} {s : Sentence} {now : Int}
    (h : DSt env sh0 log0 sh log) (hcfg : LineCfg env cfg) (hs : s.stamp.ids ≠ [])
    (hr : memAddTask cfg { sh with stampIdCounter := sh.stampIdCounter + 1 } s true 1 now = .ok sh') :
    DSt env sh0 log0 sh' log := by
  have := DSt.act (sh' := sh') (calls := []) cfg (.add s true 1 now) (newId_act h hcfg) hcfg
    (show (0 : Rat) ≤ 1 by norm_num) hs (by simp only [TaskOp.run]; rw [hr]; rfl)
  simpa using this

theorem inputT2_WDecl {env : Env} {sh0 : Shared} {log0 : List AnswerCall} {r r' : Reasoner} {term : Term} {punct : Punct} {tv : Tv} {isEvent : Bool} {rng : List Nat}
    (h : inputT2 env r term punct tv isEvent rng = .ok r') (hi : WDecl env sh0 log0 r) : WDecl env sh0 log0 r' := by
  obtain ⟨_, _, ha, _, hb, hm, _, hsh | ⟨hadd, _, _⟩⟩ := inputT2_cases h
  · refine ⟨?_, by rw [hm]; exact hi.complexity, by rw [hb]; exact hi.beliefs⟩
    rw [hsh, ha]; exact newId_act hi.hist hi.cfg
  · refine ⟨?_, by rw [hm]; exact hi.complexity, by rw [hb]; exact hi.beliefs⟩
    rw [ha]; exact tell_act hi.hist hi.cfg (by simp [newEternalSentenceByTv]) hadd

theorem inputN_WDecl {env : Env} {sh0 : Shared} {log0 : List AnswerCall} {r r' : Reasoner} {txt : List Char} {ok : Bool} {rng : List Nat}
    (h : inputN env r txt rng = .ok (r', ok)) (hi : WDecl env sh0 log0 r) : WDecl env sh0 log0 r' := by
  unfold inputN at h
  obtain ⟨p, hp, h⟩ := R.bind_ok.1 h
  split at h
  · obtain ⟨r1, h1, h⟩ := R.bind_ok.1 h
    cases h; exact inputT2_WDecl h1 hi
  · cases h; exact hi

theorem nlpProcess_WDecl {env : Env} {sh0 : Shared} {log0 : List AnswerCall} {r r' : Reasoner} {rels : List Relation} {rng : List Nat}
    (h : nlpProcess env r rels rng = .ok r') (hi : WDecl env sh0 log0 r) : WDecl env sh0 log0 r' := by
  unfold nlpProcess at h
  refine foldlM_inv (WDecl env sh0 log0) h hi ?_
  rintro rel hrel a b ha hstep
  obtain ⟨txt, ht, hstep⟩ := R.bind_ok.1 hstep
  obtain ⟨⟨r1, ok⟩, h1, hstep⟩ := R.bind_ok.1 hstep
  cases hstep
  exact inputN_WDecl h1 ha

theorem declEffects_WDecl {env : Env} {sh0 : Shared} {log0 : List AnswerCall} {r r' : Reasoner} {ops : List Op} {t : Int} {executed : Option Term}
    (h : declEffects env r ops t executed = .ok r') (hi : WDecl env sh0 log0 r) : WDecl env sh0 log0 r' := by
  unfold declEffects at h
  split at h
  · cases h; exact hi
  · split at h
    · cases h; exact hi
    · obtain ⟨effs, he, h⟩ := R.bind_ok.1 h
      obtain ⟨sh, h1, h⟩ := R.bind_ok.1 h
      cases h
      refine ⟨?_, hi.complexity, hi.beliefs⟩
      refine foldlM_inv (fun x : Shared => DSt env sh0 log0 x r.answers) h1 hi.hist ?_
      rintro eff hmem a b ha hstep
      cases eff with
      | inject e => cases hstep; exact ha
      | relate rel =>
        exact tell_act ha (cfg := { r.cfg env with maxComplexity := 64, nBeliefs := 60 }) ⟨rfl, .inr rfl, rfl⟩
          (by simp [newEternalSentenceByTv]) hstep

theorem procStep1_WDecl {env : Env} {sh0 : Shared} {log0 : List AnswerCall} {r r' : Reasoner} {d : LineDraws} (h : procStep1 env r d = .ok r')
    (hi : WDecl env sh0 log0 r) : WDecl env sh0 log0 r' := by
  unfold procStep1 at h
  obtain ⟨⟨p, executed⟩, hn, h⟩ := R.bind_ok.1 h
  exact declEffects_WDecl h (hi.same rfl rfl rfl rfl)

theorem procStep_WDecl {env : Env} {sh0 : Shared} {log0 : List AnswerCall} {r r' : Reasoner} {d : LineDraws} (h : procStep env r d = .ok r')
    (hi : WDecl env sh0 log0 r) : WDecl env sh0 log0 r' := by
  unfold procStep at h
  obtain ⟨p, h0, h⟩ := R.bind_ok.1 h
  rw [procWork_fold] at h
  exact procStep1_WDecl h (hi.same rfl rfl rfl rfl)

theorem runCommand_WDecl {env : Env} {sh0 : Shared} {log0 : List AnswerCall} {r r' : Reasoner} {d : LineDraws} {s : List Char} {c : Command} {out : List (List Char)}
    (h : runCommand env r d s c = .ok (r', out)) (hi : WDecl env sh0 log0 r) : WDecl env sh0 log0 r' := by
  cases c with
  | comment => cases h; exact hi
  | step =>
    obtain ⟨r1, h1, h⟩ := R.bind_ok.1 h
    cases h; exact procStep_WDecl h1 hi
  | stepA =>
    obtain ⟨p, _, h⟩ := R.bind_ok.1 h
    cases h; exact hi.same rfl rfl rfl rfl
  | stepB =>
    obtain ⟨r1, h1, h⟩ := R.bind_ok.1 h
    cases h; exact procStep1_WDecl h1 hi
  | cycles arg =>
    obtain ⟨n, _, h⟩ := R.bind_ok.1 h
    obtain ⟨r1, h1, h⟩ := R.bind_ok.1 h
    cases h; exact cyclesLoop_WDecl h1 hi
  | flush =>
    cases h
    refine ⟨?_, hi.complexity, hi.beliefs⟩
    have := DSt.act (sh' := flushTasks r.sh) (calls := []) _ .flush hi.hist hi.cfg trivial trivial rfl
    simpa using this
  | register arg =>
    simp only [runCommand] at h
    split at h
    · cases h; exact hi.same rfl rfl rfl rfl
    · cases h; exact hi
  | showEvidence =>
    obtain ⟨_, _, h⟩ := R.bind_ok.1 h
    cases h; exact hi
  | babbleOff => cases h; exact hi.same rfl rfl rfl rfl
  | babbleOn => cases h; exact hi.same rfl rfl rfl rfl
  | nlp a =>
    obtain ⟨r1, h1, h⟩ := R.bind_ok.1 h
    cases h; exact nlpProcess_WDecl h1 hi
  | debugTasks =>
    obtain ⟨_, _, h⟩ := R.bind_ok.1 h
    cases h; exact hi
  | debugMemory => cases h; exact hi
  | quit => cases h; exact hi
  | empty => cases h; exact hi
  | narsese =>
    obtain ⟨⟨r1, ok⟩, h1, h⟩ := R.bind_ok.1 h
    cases h; exact inputN_WDecl h1 hi

theorem NarOp.run_WDecl {env : Env} {sh0 : Shared} {log0 : List AnswerCall} {r r' : Reasoner} {op : NarOp} (h : op.run env r = .ok r') (hi : WDecl env sh0 log0 r) :
    WDecl env sh0 log0 r' := by
  cases op with
  | line l d =>
    obtain ⟨x, h1, rfl⟩ := R.map_ok.1 h
    unfold input at h1
    obtain ⟨c, hc, h1⟩ := R.bind_ok.1 h1
    obtain ⟨⟨r1, out⟩, h2, h1⟩ := R.bind_ok.1 h1
    cases h1
    exact runCommand_WDecl h2 hi
  | tell term punct tv isEvent rng => exact inputT2_WDecl h hi
  | cycle v => exact cycle_WDecl h hi
  | declWork => cases h; exact declWork_WDecl env hi
  | procWork rng => cases h; exact hi.same rfl rfl rfl rfl
  | handlers n => cases h; exact hi.same rfl rfl rfl rfl
  | verbosity v => cases h; exact hi.same rfl rfl rfl rfl
  | workerLost => cases h; exact hi.same rfl rfl rfl rfl
  | link => cases h; exact hi.same rfl rfl rfl rfl

theorem moreNar_WDecl {env : Env} {sh0 : Shared} {log0 : List AnswerCall} {ops : List NarOp} {r r' : Reasoner}
    (h : moreNar env r ops = .ok r') (hi : WDecl env sh0 log0 r) : WDecl env sh0 log0 r' :=
  foldlM_inv (WDecl env sh0 log0) h hi (fun _ _ _ _ ha hs => NarOp.run_WDecl hs ha)

theorem runNar_WDecl {env : Env} {ops : List NarOp} {r : Reasoner} (h : runNar env ops = .ok r) :
    WDecl env createShared [] r :=
  moreNar_WDecl h ⟨⟨.start, by simp [CreditOk, createNar, createShared],
    ⟨by simp [createNar, createShared], by simp [createNar, createShared, MemP], by simp [createNar, createShared, MemP]⟩⟩, rfl, rfl⟩

theorem runNar_more {env : Env} {ops more : List NarOp} {r r' : Reasoner} (h : runNar env ops = .ok r)
    (h' : moreNar env r more = .ok r') : DeclMore env r.sh r.answers r'.sh r'.answers := by
  have hw := runNar_WDecl h
  exact (moreNar_WDecl (sh0 := r.sh) (log0 := r.answers) h'
    ⟨⟨.start, hw.hist.credit, hw.hist.trailed⟩, hw.complexity, hw.beliefs⟩).hist.reach

/-! ## the procedural part -/

theorem registeredOp_evi {args : List (List Char)} {op : Op} (h : registeredOp args = some op) : op.eviCnt = 3 := by
  unfold registeredOp at h
  split at h
  · split at h
    · cases h; rfl
    · split at h
      · cases h; rfl
      · cases h
  · split at h
    · cases h; rfl
    · cases h
  · cases h

/-- a predicate of the procedural part kept by all that can happen to it -/
structure PKept (env : Env) (S : Proc → Prop) : Prop where
  act : ∀ (p p' : Proc) (op : ProcOp), S p → op.Outside → op.run libCall env.goalDecay p = .ok p' → S p'
  step : ∀ (p p1 p2 : Proc) (draws : Nat → SampleDraws) (between : List (List Nat)) (rng : List Nat)
    (infs : List (Rat × Rat × List Nat)), S p → ProcOp.run libCall env.goalDecay p (.step0 draws) = .ok p1 →
      ProcOp.run libCall env.goalDecay (between.foldl workerStep p1) (.step1 rng infs) = .ok p2 → S p2
  register : ∀ (p : Proc) (op : Op), S p → op.eviCnt = 3 → S { p with ops := p.ops ++ [op] }
  babbling : ∀ (p : Proc) (b : Bool), S p → S { p with enBabbling := b }

theorem ProcMore.kept (env : Env) (p0 : Proc) : PKept env (ProcMore env p0) :=
  ⟨fun _ _ op h ho hr => .act op h ho hr, fun _ _ _ d b r i h h1 h2 => .step d b r i h h1 h2,
    fun _ op h he => .register op h he, fun _ b h => .babbling b h⟩

theorem ProcMore.induct {env : Env} {S : Proc → Prop} (hS : PKept env S) {p0 p : Proc} (h : ProcMore env p0 p) (h0 : S p0) :
    S p := by
  induction h with
  | start => exact h0
  | act op _ ho hr ih => exact hS.act _ _ op ih ho hr
  | step d b r i _ h1 h2 ih => exact hS.step _ _ _ d b r i ih h1 h2
  | register op _ he ih => exact hS.register _ op ih he
  | babbling b _ ih => exact hS.babbling _ b ih

section
variable {env : Env} {S : Proc → Prop} (hS : PKept env S)
include hS

theorem inputT2_WProc {r r' : Reasoner} {term : Term} {punct : Punct} {tv : Tv} {isEvent : Bool} {rng : List Nat}
    (h : inputT2 env r term punct tv isEvent rng = .ok r') (hb : r.nConceptBeliefs = 20) (hi : S r.proc) : S r'.proc := by
  unfold inputT2 at h
  obtain ⟨_, _, h⟩ := R.bind_ok.1 h
  cases isEvent with
  | true =>
    simp only [if_true] at h
    unfold inputEventT at h
    cases punct with
    | GOAL =>
      obtain ⟨g, hg, h⟩ := R.bind_ok.1 h
      cases h
      exact hS.act r.proc _ (.goal term tv r.sh.stampIdCounter) hi trivial (by
        simp only [ProcOp.run, inputGoal]
        exact R.bind_ok.2 ⟨g, hg, rfl⟩)
    | QUESTION =>
      simp only [newEternalSentenceByTv] at h
      unfold addInputTask at h
      obtain ⟨sh, hs, h⟩ := R.bind_ok.1 h
      cases h; exact hi
    | JUGEMENT => cases h; exact hS.act r.proc _ (.event term) hi trivial rfl
  | false =>
    simp only [Bool.false_eq_true, if_false] at h
    unfold inputEternalT at h
    split at h
    · cases punct with
      | GOAL => cases h; exact hi
      | QUESTION => cases h; exact hi
      | JUGEMENT =>
        obtain ⟨m, hm, h⟩ := R.bind_ok.1 h
        cases h
        exact hS.act r.proc _ (.rule term tv r.sh.stampIdCounter r.nConceptBeliefs rng) hi hb (by
          simp only [ProcOp.run, inputRule]
          exact R.bind_ok.2 ⟨m, hm, rfl⟩)
    · cases punct with
      | GOAL => cases h; exact hi
      | QUESTION => cases h; exact hi
      | JUGEMENT =>
        simp only [newEternalSentenceByTv] at h
        unfold addInputTask at h
        obtain ⟨sh, hs, h⟩ := R.bind_ok.1 h
        cases h; exact hi

theorem inputN_WProc {r r' : Reasoner} {txt : List Char} {ok : Bool} {rng : List Nat}
    (h : inputN env r txt rng = .ok (r', ok)) (hb : r.nConceptBeliefs = 20) (hi : S r.proc) :
    r'.nConceptBeliefs = 20 ∧ S r'.proc := by
  unfold inputN at h
  obtain ⟨p, hp, h⟩ := R.bind_ok.1 h
  split at h
  · obtain ⟨r1, h1, h⟩ := R.bind_ok.1 h
    cases h
    obtain ⟨_, _, _, _, hb', _⟩ := inputT2_cases h1
    exact ⟨hb'.trans hb, inputT2_WProc hS h1 hb hi⟩
  · cases h; exact ⟨hb, hi⟩

theorem nlpProcess_WProc {r r' : Reasoner} {rels : List Relation} {rng : List Nat}
    (h : nlpProcess env r rels rng = .ok r') (hb : r.nConceptBeliefs = 20) (hi : S r.proc) : S r'.proc := by
  unfold nlpProcess at h
  refine (foldlM_inv (fun r : Reasoner => r.nConceptBeliefs = 20 ∧ S r.proc) h ⟨hb, hi⟩ ?_).2
  rintro rel hrel a b ha hstep
  obtain ⟨txt, ht, hstep⟩ := R.bind_ok.1 hstep
  obtain ⟨⟨r1, ok⟩, h1, hstep⟩ := R.bind_ok.1 hstep
  cases hstep
  exact inputN_WProc hS h1 ha.1 ha.2

omit hS in
theorem declEffects_proc {r r' : Reasoner} {ops : List Op} {t : Int} {executed : Option Term}
    (h : declEffects env r ops t executed = .ok r') : r'.proc = r.proc := by
  unfold declEffects at h
  split at h
  · cases h; rfl
  · split at h
    · cases h; rfl
    · obtain ⟨effs, he, h⟩ := R.bind_ok.1 h
      obtain ⟨sh, h1, h⟩ := R.bind_ok.1 h
      cases h; rfl

theorem procStep_WProc {r r' : Reasoner} {d : LineDraws} (h : procStep env r d = .ok r') (hi : S r.proc) : S r'.proc := by
  unfold procStep at h
  obtain ⟨p, h0, h⟩ := R.bind_ok.1 h
  rw [procWork_fold] at h
  unfold procStep1 at h
  obtain ⟨⟨p2, executed⟩, hn, h⟩ := R.bind_ok.1 h
  rw [declEffects_proc h]
  exact hS.step r.proc p p2 d.perceive d.between d.decide d.infs hi h0 (by simp only [ProcOp.run]; rw [hn]; rfl)

omit hS in
theorem cyclesLoop_proc {draws : Nat → Rat × Nat} {n i : Nat} {r r' : Reasoner}
    (h : cyclesLoop env draws n i r = .ok r') : r'.proc = r.proc := by
  induction n generalizing r i with
  | zero => cases h; rfl
  | succ n ih =>
    unfold cyclesLoop at h
    obtain ⟨r1, h1, h⟩ := R.bind_ok.1 h
    rw [ih h, (cycle_same h1).1, (declWorkN_same env _ r).1]

theorem runCommand_WProc {r r' : Reasoner} {d : LineDraws} {s : List Char} {c : Command} {out : List (List Char)}
    (h : runCommand env r d s c = .ok (r', out)) (hA : c ≠ .stepA) (hB : c ≠ .stepB)
    (hb : r.nConceptBeliefs = 20) (hi : S r.proc) : S r'.proc := by
  cases c with
  | comment => cases h; exact hi
  | step =>
    obtain ⟨r1, h1, h⟩ := R.bind_ok.1 h
    cases h; exact procStep_WProc hS h1 hi
  | stepA =>
    exact absurd rfl hA
  | stepB =>
    exact absurd rfl hB
  | cycles arg =>
    obtain ⟨n, _, h⟩ := R.bind_ok.1 h
    obtain ⟨r1, h1, h⟩ := R.bind_ok.1 h
    cases h; rw [cyclesLoop_proc h1]; exact hi
  | flush => cases h; exact hi
  | register arg =>
    simp only [runCommand] at h
    split at h
    · rename_i op hop
      cases h; exact hS.register r.proc op hi (registeredOp_evi hop)
    · cases h; exact hi
  | showEvidence =>
    obtain ⟨_, _, h⟩ := R.bind_ok.1 h
    cases h; exact hi
  | babbleOff => cases h; exact hS.babbling _ _ hi
  | babbleOn => cases h; exact hS.babbling _ _ hi
  | nlp a =>
    obtain ⟨r1, h1, h⟩ := R.bind_ok.1 h
    cases h; exact nlpProcess_WProc hS h1 hb hi
  | debugTasks =>
    obtain ⟨_, _, h⟩ := R.bind_ok.1 h
    cases h; exact hi
  | debugMemory => cases h; exact hi
  | quit => cases h; exact hi
  | empty => cases h; exact hi
  | narsese =>
    obtain ⟨⟨r1, ok⟩, h1, h⟩ := R.bind_ok.1 h
    cases h; exact (inputN_WProc hS h1 hb hi).2

theorem NarOp.run_WProc {r r' : Reasoner} {op : NarOp} (h : op.run env r = .ok r') (hb : r.nConceptBeliefs = 20)
    (hi : S r.proc) : S r'.proc := by
  cases op with
  | line l d =>
    obtain ⟨x, h1, rfl⟩ := R.map_ok.1 h
    unfold input at h1
    obtain ⟨c, hc, h1⟩ := R.bind_ok.1 h1
    obtain ⟨⟨r1, out⟩, h2, h1⟩ := R.bind_ok.1 h1
    cases h1
    exact runCommand_WProc hS h2 (by rintro rfl; exact dispatch_ne_stepA _ hc) (by rintro rfl; exact dispatch_ne_stepB _ hc)
      hb hi
  | tell term punct tv isEvent rng => exact inputT2_WProc hS h hb hi
  | cycle v => rw [(cycle_same h).1]; exact hi
  | declWork => cases h; rw [(declWork_same env r).1]; exact hi
  | procWork rng => cases h; exact hS.act r.proc _ (.worker rng) hi trivial rfl
  | handlers n => cases h; exact hi
  | verbosity v => cases h; exact hi
  | workerLost => cases h; exact hi
  | link => cases h; exact hi

theorem moreNar_WProc {ops : List NarOp} {r r' : Reasoner} (h : moreNar env r ops = .ok r') {sh0 : Shared}
    {log0 : List AnswerCall} (hd : WDecl env sh0 log0 r) (hi : S r.proc) : S r'.proc :=
  (foldlM_inv (fun r : Reasoner => WDecl env sh0 log0 r ∧ S r.proc) h ⟨hd, hi⟩
    (fun _ _ _ _ ha hs => ⟨NarOp.run_WDecl hs ha.1, NarOp.run_WProc hS hs ha.1.beliefs ha.2⟩)).2

end

theorem runNar_procMore {env : Env} {ops more : List NarOp} {r r' : Reasoner} (h : runNar env ops = .ok r)
    (h' : moreNar env r more = .ok r') : ProcMore env r.proc r'.proc :=
  moreNar_WProc (ProcMore.kept env r.proc) h' (runNar_WDecl h) .start

end Nar
