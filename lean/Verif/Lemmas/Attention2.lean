import Verif.Lemmas.Attention
import Verif.Lemmas.Whole2
import Verif.Lemmas.Asked
/-! # Lemmas about attention, for the whole reasoner -/
namespace Nar
open Term

theorem DSt.inv {env : Env} {sh : Shared} {log : List AnswerCall} (h : DSt env createShared [] sh log) {cfg : Cfg}
    (hc : cfg.maxComplexity = 64) : Inv cfg sh := h.reach.inv cfg hc (createShared_inv cfg)

theorem WDecl.inv {env : Env} {r : Reasoner} (h : WDecl env createShared [] r) : Inv (r.cfg env) r.sh := h.hist.inv h.complexity

theorem reasonCycle_aged {cfg : Cfg} {v : Rat} {now : Int} {sh sh' : Shared} {msg : Option Msg} {calls : List AnswerCall}
    (h : reasonCycle cfg v now sh = .ok (sh', msg, calls)) (hi : Inv cfg sh) (hc : OwnAged sh) : OwnAged sh' := by
  have : SysOp.run cfg ⟨sh, [], []⟩ (.cycle v now) = .ok ⟨sh', [] ++ msg.toList, [] ++ calls⟩ := by
    simp only [SysOp.run]; rw [h]; rfl
  exact SysOp.run_aged this hi trivial hc

theorem work_aged {cfg : Cfg} {sh sh' : Shared} {m : Msg} {calls : List AnswerCall} (h : Nar.work cfg sh m = .ok (sh', calls))
    (hi : Inv cfg sh) (hc : OwnAged sh) : OwnAged sh' := by
  have : SysOp.run cfg ⟨sh, [m], []⟩ .work = .ok ⟨sh', [], [] ++ calls⟩ := by
    simp only [SysOp.run]; rw [h]; rfl
  exact SysOp.run_aged this hi trivial hc

/-- a predicate of the declarative part kept by everything the reasoner does with it -/
structure DKept (env : Env) (P : Shared → Prop) : Prop where
  add : ∀ {cfg : Cfg} {sh sh' : Shared} {s : Sentence} {now : Int}, LineCfg env cfg → Inv cfg sh → P sh →
    memAddTask cfg sh s true 1 now = .ok sh' → P sh'
  cycle : ∀ {cfg : Cfg} {v : Rat} {now : Int} {sh sh' : Shared} {msg : Option Msg} {calls : List AnswerCall}, LineCfg env cfg →
    Inv cfg sh → P sh → reasonCycle cfg v now sh = .ok (sh', msg, calls) → P sh'
  work : ∀ {cfg : Cfg} {sh sh' : Shared} {m : Msg} {calls : List AnswerCall}, LineCfg env cfg → Inv cfg sh → CreditOk sh → P sh →
    Nar.work cfg sh m = .ok (sh', calls) → P sh'
  flush : ∀ {sh : Shared}, P sh → P (flushTasks sh)
  newId : ∀ {sh : Shared}, P sh → P { sh with stampIdCounter := sh.stampIdCounter + 1 }
  procMem : ∀ {sh : Shared} (m : Mem), P sh → P { sh with procMem := m }

/-- the reasoner, with a kept predicate -/
structure WKept (env : Env) (P : Shared → Prop) (r : Reasoner) : Prop where
  decl : WDecl env createShared [] r
  aged : P r.sh

theorem WKept.same {env : Env} {P : Shared → Prop} {r r' : Reasoner} (h : WKept env P r) (h1 : r'.sh = r.sh) (h2 : r'.answers = r.answers)
    (h3 : r'.maxComplexity = r.maxComplexity) (h4 : r'.nConceptBeliefs = r.nConceptBeliefs) : WKept env P r' :=
  ⟨h.decl.same h1 h2 h3 h4, by rw [h1]; exact h.aged⟩

theorem look_fields (r : Reasoner) : r.look.heap = r.sh.heap ∧ r.look.judgementTasks = r.sh.judgementTasks ∧
    r.look.judgementTasksByTerm = r.sh.judgementTasksByTerm ∧ r.look.questionTasks = r.sh.questionTasks ∧
    r.look.cycleCounter = r.sh.cycleCounter := by
  unfold Reasoner.look; split <;> exact ⟨rfl, rfl, rfl, rfl, rfl⟩

theorem look_inv {cfg : Cfg} {r : Reasoner} (h : Inv cfg r.sh) : Inv cfg r.look := by
  unfold Reasoner.look
  split
  · exact ⟨h.valid, h.ids, h.fresh, h.nodup, h.complexity, h.diff, h.sound, h.complete, h.keys⟩
  · exact h

/-- a cycle of the reasoner, as one of the declarative part -/
theorem cycle_parts {env : Env} {r r' : Reasoner} {v : Rat} (h : cycle env r v = .ok r') :
    ∃ sh msg calls, reasonCycle (r.cfg env) v (r.currentTime + 1) r.look = .ok (sh, msg, calls) ∧
      r'.sh = { sh with procMem := r.sh.procMem } ∧ r'.queue = r.queue ++ msg.toList := by
  unfold cycle at h
  obtain ⟨⟨sh, msg, calls⟩, h1, h⟩ := R.bind_ok.1 h
  refine ⟨sh, msg, calls, h1, ?_⟩
  cases msg with
  | none => cases h; exact ⟨rfl, by simp⟩
  | some m =>
    simp only [sendMsg] at h
    split at h
    · cases h; exact ⟨rfl, rfl⟩
    · cases h

theorem cycle_WKept {env : Env} {P : Shared → Prop} (hP : DKept env P) {r r' : Reasoner} {v : Rat} (h : cycle env r v = .ok r') (hi : WKept env P r) : WKept env P r' := by
  refine ⟨cycle_WDecl h hi.decl, ?_⟩
  obtain ⟨sh, msg, calls, h1, h2, _⟩ := cycle_parts h
  rw [h2]
  have hl : P r.look := by
    unfold Reasoner.look
    split
    · exact hP.procMem _ hi.aged
    · exact hi.aged
  exact hP.procMem _ (hP.cycle hi.decl.cfg (look_inv hi.decl.inv) hl h1)

theorem declWork_WKept (env : Env) {P : Shared → Prop} (hP : DKept env P) {r : Reasoner} (hi : WKept env P r) : WKept env P (declWork env r) := by
  refine ⟨declWork_WDecl env hi.decl, ?_⟩
  unfold declWork
  split
  · split
    · exact hi.aged
    · split
      · rename_i m rest hq sh calls hw
        exact hP.work hi.decl.cfg hi.decl.inv hi.decl.hist.credit hi.aged hw
      · exact hi.aged
  · exact hi.aged

theorem declWorkN_WKept (env : Env) {P : Shared → Prop} (hP : DKept env P) {r : Reasoner} (n : Nat) (hi : WKept env P r) : WKept env P (declWorkN env r n) := by
  induction n generalizing r with
  | zero => exact hi
  | succ n ih => exact ih (declWork_WKept env hP hi)

theorem cyclesLoop_WKept {env : Env} {P : Shared → Prop} (hP : DKept env P) {draws : Nat → Rat × Nat} {n i : Nat} {r r' : Reasoner}
    (h : cyclesLoop env draws n i r = .ok r') (hi : WKept env P r) : WKept env P r' := by
  induction n generalizing r i with
  | zero => cases h; exact hi
  | succ n ih =>
    unfold cyclesLoop at h
    obtain ⟨r1, h1, h⟩ := R.bind_ok.1 h
    exact ih h (cycle_WKept hP h1 (declWorkN_WKept env hP _ hi))

theorem tell_kept {env : Env} {P : Shared → Prop} (hP : DKept env P) {sh sh' : Shared} {log : List AnswerCall} {cfg : Cfg} {s : Sentence}
    {now : Int} (h : DSt env createShared [] sh log) (hcfg : LineCfg env cfg) (hc : P sh)
    (hr : memAddTask cfg { sh with stampIdCounter := sh.stampIdCounter + 1 } s true 1 now = .ok sh') : P sh' :=
  hP.add hcfg ((newId_act h hcfg).inv hcfg.1) (hP.newId hc) hr

theorem inputT2_WKept {env : Env} {P : Shared → Prop} (hP : DKept env P) {r r' : Reasoner} {term : Term} {punct : Punct} {tv : Tv} {isEvent : Bool} {rng : List Nat}
    (h : inputT2 env r term punct tv isEvent rng = .ok r') (hi : WKept env P r) : WKept env P r' := by
  refine ⟨inputT2_WDecl h hi.decl, ?_⟩
  obtain ⟨_, _, ha, _, hb, hm, _, hsh | ⟨hadd, _, _⟩⟩ := inputT2_cases h
  · rw [hsh]; exact hP.newId hi.aged
  · exact tell_kept hP hi.decl.hist hi.decl.cfg hi.aged hadd

theorem inputN_WKept {env : Env} {P : Shared → Prop} (hP : DKept env P) {r r' : Reasoner} {txt : List Char} {ok : Bool} {rng : List Nat}
    (h : inputN env r txt rng = .ok (r', ok)) (hi : WKept env P r) : WKept env P r' := by
  unfold inputN at h
  obtain ⟨p, hp, h⟩ := R.bind_ok.1 h
  split at h
  · obtain ⟨r1, h1, h⟩ := R.bind_ok.1 h
    cases h; exact inputT2_WKept hP h1 hi
  · cases h; exact hi

theorem nlpProcess_WKept {env : Env} {P : Shared → Prop} (hP : DKept env P) {r r' : Reasoner} {rels : List Relation} {rng : List Nat}
    (h : nlpProcess env r rels rng = .ok r') (hi : WKept env P r) : WKept env P r' := by
  unfold nlpProcess at h
  refine foldlM_inv (WKept env P) h hi ?_
  rintro rel hrel a b ha hstep
  obtain ⟨txt, ht, hstep⟩ := R.bind_ok.1 hstep
  obtain ⟨⟨r1, ok⟩, h1, hstep⟩ := R.bind_ok.1 hstep
  cases hstep
  exact inputN_WKept hP h1 ha

theorem declEffects_WKept {env : Env} {P : Shared → Prop} (hP : DKept env P) {r r' : Reasoner} {ops : List Op} {t : Int} {executed : Option Term}
    (h : declEffects env r ops t executed = .ok r') (hi : WKept env P r) : WKept env P r' := by
  refine ⟨declEffects_WDecl h hi.decl, ?_⟩
  unfold declEffects at h
  split at h
  · cases h; exact hi.aged
  · split at h
    · cases h; exact hi.aged
    · obtain ⟨effs, he, h⟩ := R.bind_ok.1 h
      obtain ⟨sh, h1, h⟩ := R.bind_ok.1 h
      cases h
      refine (foldlM_inv (fun x : Shared => DSt env createShared [] x r.answers ∧ P x) h1 ⟨hi.decl.hist, hi.aged⟩ ?_).2
      rintro eff hmem a b ha hstep
      cases eff with
      | inject e => cases hstep; exact ha
      | relate rel =>
        have hl : LineCfg env { r.cfg env with maxComplexity := 64, nBeliefs := 60 } := ⟨rfl, .inr rfl, rfl⟩
        exact ⟨tell_act ha.1 hl (by simp [newEternalSentenceByTv]) hstep, tell_kept hP ha.1 hl ha.2 hstep⟩

theorem procStep1_WKept {env : Env} {P : Shared → Prop} (hP : DKept env P) {r r' : Reasoner} {d : LineDraws} (h : procStep1 env r d = .ok r')
    (hi : WKept env P r) : WKept env P r' := by
  unfold procStep1 at h
  obtain ⟨⟨p, executed⟩, hn, h⟩ := R.bind_ok.1 h
  exact declEffects_WKept hP h (hi.same rfl rfl rfl rfl)

theorem procStep_WKept {env : Env} {P : Shared → Prop} (hP : DKept env P) {r r' : Reasoner} {d : LineDraws} (h : procStep env r d = .ok r')
    (hi : WKept env P r) : WKept env P r' := by
  unfold procStep at h
  obtain ⟨p, h0, h⟩ := R.bind_ok.1 h
  rw [procWork_fold] at h
  exact procStep1_WKept hP h (hi.same rfl rfl rfl rfl)

theorem runCommand_WKept {env : Env} {P : Shared → Prop} (hP : DKept env P) {r r' : Reasoner} {d : LineDraws} {s : List Char} {c : Command} {out : List (List Char)}
    (h : runCommand env r d s c = .ok (r', out)) (hi : WKept env P r) : WKept env P r' := by
  cases c with
  | comment => cases h; exact hi
  | step =>
    obtain ⟨r1, h1, h⟩ := R.bind_ok.1 h
    cases h; exact procStep_WKept hP h1 hi
  | stepA =>
    obtain ⟨p, _, h⟩ := R.bind_ok.1 h
    cases h; exact hi.same rfl rfl rfl rfl
  | stepB =>
    obtain ⟨r1, h1, h⟩ := R.bind_ok.1 h
    cases h; exact procStep1_WKept hP h1 hi
  | cycles arg =>
    obtain ⟨n, _, h⟩ := R.bind_ok.1 h
    obtain ⟨r1, h1, h⟩ := R.bind_ok.1 h
    cases h; exact cyclesLoop_WKept hP h1 hi
  | flush =>
    refine ⟨runCommand_WDecl h hi.decl, ?_⟩
    cases h
    exact hP.flush hi.aged
  | register arg =>
    simp only [runCommand] at h
    split at h
    · cases h; exact hi.same rfl rfl rfl rfl
    · cases h; exact hi
  | showEvidence =>
    obtain ⟨_, _, h⟩ := R.bind_ok.1 h
    cases h; exact hi
  | babbleOff => cases h; exact hi.same rfl rfl rfl rfl
  | babbleOn => cases h; exact hi.same rfl rfl rfl rfl
  | nlp a =>
    obtain ⟨r1, h1, h⟩ := R.bind_ok.1 h
    cases h; exact nlpProcess_WKept hP h1 hi
  | debugTasks =>
    obtain ⟨_, _, h⟩ := R.bind_ok.1 h
    cases h; exact hi
  | debugMemory => cases h; exact hi
  | quit => cases h; exact hi
  | empty => cases h; exact hi
  | narsese =>
    obtain ⟨⟨r1, ok⟩, h1, h⟩ := R.bind_ok.1 h
    cases h; exact inputN_WKept hP h1 hi

theorem NarOp.run_WKept {env : Env} {P : Shared → Prop} (hP : DKept env P) {r r' : Reasoner} {op : NarOp} (h : op.run env r = .ok r') (hi : WKept env P r) : WKept env P r' := by
  cases op with
  | line l d =>
    obtain ⟨x, h1, rfl⟩ := R.map_ok.1 h
    unfold input at h1
    obtain ⟨c, hc, h1⟩ := R.bind_ok.1 h1
    obtain ⟨⟨r1, out⟩, h2, h1⟩ := R.bind_ok.1 h1
    cases h1
    exact runCommand_WKept hP h2 hi
  | tell term punct tv isEvent rng => exact inputT2_WKept hP h hi
  | cycle v => exact cycle_WKept hP h hi
  | declWork => cases h; exact declWork_WKept env hP hi
  | procWork rng => cases h; exact hi.same rfl rfl rfl rfl
  | handlers n => cases h; exact hi.same rfl rfl rfl rfl
  | verbosity v => cases h; exact hi.same rfl rfl rfl rfl
  | workerLost => cases h; exact hi.same rfl rfl rfl rfl
  | link => cases h; exact hi.same rfl rfl rfl rfl

theorem runNar_kept {env : Env} {P : Shared → Prop} (hP : DKept env P) (h0 : P createShared) {ops : List NarOp} {r : Reasoner}
    (h : runNar env ops = .ok r) : P r.sh :=
  (foldlM_inv (WKept env P) h ⟨runNar_WDecl (ops := []) rfl, h0⟩ (fun _ _ _ _ ha hs => NarOp.run_WKept hP hs ha)).aged

theorem aged_kept (env : Env) : DKept env OwnAged where
  add := fun _ hi hc h => memAddTask_aged h hi hc
  cycle := fun _ hi hc h => reasonCycle_aged h hi hc
  work := fun _ hi _ hc h => work_aged h hi hc
  flush := fun _ i hi => by cases hi
  newId := fun h => h
  procMem := fun _ h => h

theorem runNar_aged {env : Env} {ops : List NarOp} {r : Reasoner} (h : runNar env ops = .ok r) : OwnAged r.sh :=
  runNar_kept (aged_kept env) (fun i hi => by cases hi) h

theorem runNar_counted {env : Env} {ops : List NarOp} {r : Reasoner} (h : runNar env ops = .ok r) : RefsCounted r.sh := by
  have hm := (runNar_WDecl h).hist.reach
  generalize r.sh = sh, r.answers = log at hm
  induction hm with
  | start => intro i hi; cases hi
  | act cfg op hp hcfg _ _ hr ih => exact TaskOp.run_counted hr (hp.inv cfg hcfg.1 (createShared_inv cfg)) ih

theorem runNar_unasked {env : Env} {ops : List NarOp} {r : Reasoner} (h : runNar env ops = .ok r) : Unasked r.sh := by
  have hm := (runNar_WDecl h).hist.reach
  generalize r.sh = sh, r.answers = log at hm
  induction hm with
  | start => intro _ t ht; cases ht
  | act cfg op hp hcfg _ _ hr ih => exact TaskOp.run_unasked hr ih

theorem runNar_credit {env : Env} {ops : List NarOp} {r : Reasoner} (h : runNar env ops = .ok r) : CreditOk r.sh :=
  (runNar_WDecl h).hist.credit

end Nar
