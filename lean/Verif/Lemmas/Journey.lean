import Verif.Lemmas.Decl4
/-! # A relation between earlier and later memories, kept by everything a reasoner does -/
namespace Nar
open Term

/-- the relation holds between a memory and what becomes of it, when everything known and told has the property `P` -/
structure MemRel (P : Sentence → Prop) (M : Mem → Mem → Prop) : Prop where
  closed : SentClosed P
  refl : ∀ m, M m m
  trans : ∀ a b c, M a b → M b c → M a c
  add : ∀ n m s now m' r, n = 20 ∨ n = 60 → MemP P m → (s.punct = .JUGEMENT → P s) → addBelief m s n now = .ok (m', r) → M m m'
  forget : ∀ m m', limitMemory m 3000 = .ok m' → M m m'
  touch : ∀ g m, M m (touchMem g m)

theorem MemRel.id {P : Sentence → Prop} {M : Mem → Mem → Prop} (hM : MemRel P M) : IdClosed (fun _ => P) :=
  ⟨fun _ => hM.closed, fun _ _ _ _ h => h⟩

theorem memAddTask_rel {P : Sentence → Prop} {M : Mem → Mem → Prop} (hM : MemRel P M) {cfg : Cfg} (hn : cfg.nBeliefs = 20 ∨ cfg.nBeliefs = 60)
    {sh sh' : Shared} {s : Sentence} {cc : Bool} {mc : Rat} {now : Int} (h : memAddTask cfg sh s cc mc now = .ok sh')
    (hp : MemP P sh.mem) (hs : s.punct = .JUGEMENT → P s) : M sh.mem sh'.mem := by
  rcases memAddTask_cases h with ⟨_, rfl⟩ | ⟨hc, mem, rev, h3, h4⟩
  · exact hM.refl _
  · have h5 := addTasks_mem h4
    rw [h5]
    exact hM.add _ _ _ _ _ _ hn hp hs h3

/-- a reasoner on its way from a memory -/
structure Going (P Q : Sentence → Prop) (M : Mem → Mem → Prop) (m0 : Mem) (r : Reasoner) : Prop where
  inv : RInv (fun _ => P) Q r
  rel : M m0 r.sh.mem
  beliefs : r.nConceptBeliefs = 20

theorem cycle_beliefs {env : Env} {r r' : Reasoner} {v : Rat} (h : cycle env r v = .ok r') : r'.nConceptBeliefs = r.nConceptBeliefs := by
  unfold cycle at h
  obtain ⟨⟨sh, msg, calls⟩, h1, h⟩ := R.bind_ok.1 h
  cases msg with
  | none => cases h; rfl
  | some m =>
    simp only [sendMsg] at h
    split at h
    · cases h; rfl
    · cases h

theorem cycle_mem {env : Env} {r r' : Reasoner} {v : Rat} (h : cycle env r v = .ok r') :
    ∃ sh msg calls, reasonCycle (r.cfg env) v (r.currentTime + 1) r.look = .ok (sh, msg, calls) ∧ r'.sh.mem = sh.mem := by
  unfold cycle at h
  obtain ⟨⟨sh, msg, calls⟩, h1, h⟩ := R.bind_ok.1 h
  refine ⟨sh, msg, calls, h1, ?_⟩
  cases msg with
  | none => cases h; rfl
  | some m =>
    simp only [sendMsg] at h
    split at h
    · cases h; rfl
    · cases h

/-- an action of a cycle changes memory by counting uses or by forgetting -/
theorem cycleOp_rel {P : Sentence → Prop} {M : Mem → Mem → Prop} (hM : MemRel P M) {cfg : Cfg} {cyc : Int} {v : Rat} {now : Int}
    {msg : Option Msg} {op : TaskOp} (hop : op ∈ cycleOps cyc v now msg) {sh sh' : Shared} {calls : List AnswerCall}
    (h : op.run cfg sh = .ok (sh', calls)) : M sh.mem sh'.mem := by
  have key : (∃ mm, op = .usage mm now) ∨ op = .forget 3000 ∨ (op = .tick ∨ op = .creditQuestions ∨ op = .baseCredit ∨ op = .answer v ∨
      op = .select ∨ op = .cleanup ∨ op = .rebuild) := by
    simp only [cycleOps, maintenance, List.mem_append, List.mem_cons, List.not_mem_nil, or_false, List.mem_map] at hop
    rcases hop with ((rfl | rfl | rfl | rfl | rfl) | ⟨mm, _, rfl⟩) | hop | hop
    · simp
    · simp
    · simp
    · simp
    · simp
    · exact .inl ⟨mm, rfl⟩
    · split at hop
      · simp at hop; rcases hop with rfl | rfl <;> simp
      · cases hop
    · split at hop
      · simp at hop; subst hop; simp
      · cases hop
  rcases key with ⟨mm, rfl⟩ | rfl | key
  · cases h
    obtain ⟨g, hg⟩ := (updateUsage_same sh mm now).mem
    rw [hg]; exact hM.touch g _
  · obtain ⟨m, h1, h2⟩ := R.map_ok.1 h; cases h2
    exact hM.forget _ _ h1
  · have : sh'.mem = sh.mem := by
      rcases key with rfl | rfl | rfl | rfl | rfl | rfl | rfl
      · cases h; rfl
      · cases h; exact (creditQuestions_same sh).2.2.2.2.2
      · obtain ⟨x, h1, h2⟩ := R.map_ok.1 h
        cases h2; exact (baseCredit_same h1).2.2.2.2.2
      · obtain ⟨qs, hq⟩ := answerSampled_frame h; simp only at hq; rw [hq]
      · obtain ⟨r', h1, h2⟩ := R.map_ok.1 h
        cases h2
        rcases selectPrimary_cases h1 with ⟨_, rfl⟩ | ⟨_, _, _, _, rfl⟩ <;> rfl
      · obtain ⟨x, h1, h2⟩ := R.map_ok.1 h
        cases h2
        obtain ⟨_, _, _, _, rfl⟩ := cleanupTasks_spec h1
        rfl
      · obtain ⟨x, h1, h2⟩ := R.map_ok.1 h
        cases h2
        unfold rebuildLookup at h1
        rw [R.bind_ok] at h1
        obtain ⟨_, _, h1⟩ := h1
        cases h1; rfl
    rw [this]; exact hM.refl _

theorem cycle_going {P Q : Sentence → Prop} {M : Mem → Mem → Prop} (hM : MemRel P M) {m0 : Mem} {env : Env} {r r' : Reasoner} {v : Rat}
    (h : cycle env r v = .ok r') (hQ : ∀ s, KnowsRule r s → Q s) (hi : Going P Q M m0 r) : Going P Q M m0 r' := by
  refine ⟨(cycle_RInv hM.id h hQ hi.inv).1, ?_, by rw [cycle_beliefs h]; exact hi.beliefs⟩
  obtain ⟨sh, msg, calls, h1, h2⟩ := cycle_mem h
  have hm := reasonCycle_more [] h1
  rw [h2]
  have h0 : M m0 r.look.mem := by
    have : r.look.mem = r.sh.mem := by unfold Reasoner.look; split <;> rfl
    rw [this]; exact hi.rel
  refine foldlM_inv (fun st : Shared × List AnswerCall => M m0 st.1.mem) hm h0 ?_
  rintro op hop ⟨sh, log⟩ b ha hs
  obtain ⟨⟨sh', calls⟩, h3, h4⟩ := R.bind_ok.1 hs
  cases h4
  exact hM.trans _ _ _ ha (cycleOp_rel hM hop h3)

theorem declWork_beliefs (env : Env) (r : Reasoner) : (declWork env r).nConceptBeliefs = r.nConceptBeliefs := by
  unfold declWork
  split
  · split
    · rfl
    · split <;> rfl
  · rfl

theorem declWork_going {P Q : Sentence → Prop} {M : Mem → Mem → Prop} (hM : MemRel P M) {m0 : Mem} (env : Env) {r : Reasoner}
    (hi : Going P Q M m0 r) : Going P Q M m0 (declWork env r) := by
  refine ⟨(declWork_RInv hM.id env hi.inv).1, ?_, by rw [declWork_beliefs]; exact hi.beliefs⟩
  unfold declWork
  split
  · split
    · exact hi.rel
    · split
      · rename_i m rest hq sh calls hw
        unfold work at hw
        obtain ⟨concl, h1, hw⟩ := R.bind_ok.1 hw
        obtain ⟨p, h2, hw⟩ := R.bind_ok.1 hw
        obtain ⟨⟨sh1, calls1⟩, h3, hw⟩ := R.bind_ok.1 hw
        obtain ⟨sh2, h4, hw⟩ := R.bind_ok.1 hw
        cases hw
        have hmore := offerAll_more [] h3
        have k1 : AllP P (fun _ => False) sh1 ∧ sh1.mem = r.sh.mem := by
          refine foldlM_inv (fun st : Shared × List AnswerCall => AllP P (fun _ => False) st.1 ∧ st.1.mem = r.sh.mem) hmore ⟨hi.inv.all, rfl⟩ ?_
          rintro op hop ⟨sh, log⟩ b ⟨ha, hb⟩ hs
          obtain ⟨⟨sh', calls⟩, h5, h6⟩ := R.bind_ok.1 hs
          cases h6
          obtain ⟨c, hc, rfl⟩ := List.mem_map.1 hop
          obtain ⟨x, hx, rfl⟩ := List.mem_map.1 hc
          refine ⟨(TaskOp.run_P hM.closed h5 ha (workConclusions_P hM.closed h1 hx hi.inv.all)).1, ?_⟩
          obtain ⟨qs, hq⟩ := offerConclusion_frame h5
          simp only at hq hb
          rw [hq]; exact hb
        have k2 : AllP P (fun _ => False) sh ∧ M m0 sh.mem := by
          refine foldlM_inv (fun sh : Shared => AllP P (fun _ => False) sh ∧ M m0 sh.mem) h4 ⟨k1.1, by rw [k1.2]; exact hi.rel⟩ ?_
          rintro c hc a b ⟨ha, hb⟩ hs
          have hp : P c.1 := workConclusions_P hM.closed h1 hc hi.inv.all
          exact ⟨memAddTask_P hM.closed hs ha (fun _ => hp),
            hM.trans _ _ _ hb (memAddTask_rel hM (.inl hi.beliefs) hs ha.2.1 (fun _ => hp))⟩
        exact k2.2
      · exact hi.rel
  · exact hi.rel

theorem declWorkN_going {P Q : Sentence → Prop} {M : Mem → Mem → Prop} (hM : MemRel P M) {m0 : Mem} (env : Env) (n : Nat) {r : Reasoner}
    (hi : Going P Q M m0 r) : Going P Q M m0 (declWorkN env r n) := by
  induction n generalizing r with
  | zero => exact hi
  | succ n ih => exact ih (declWork_going hM env hi)

theorem cyclesLoop_going {P Q : Sentence → Prop} {M : Mem → Mem → Prop} (hM : MemRel P M) {m0 : Mem} {env : Env} {draws : Nat → Rat × Nat}
    {n i : Nat} {r r' : Reasoner} (h : cyclesLoop env draws n i r = .ok r') (hQ : ∀ s, KnowsRule r s → Q s)
    (hi : Going P Q M m0 r) : Going P Q M m0 r' := by
  induction n generalizing r i with
  | zero => cases h; exact hi
  | succ n ih =>
    unfold cyclesLoop at h
    obtain ⟨r1, h1, h⟩ := R.bind_ok.1 h
    have hp := (declWorkN_same env (draws i).2 r).1
    exact ih h (fun s hs => hQ s (knowsRule_proc ((cycle_same h1).1.trans hp) hs))
      (cycle_going hM h1 (fun s hs => hQ s (knowsRule_proc hp hs)) (declWorkN_going hM env _ hi))

theorem inputT2_going {P Q : Sentence → Prop} {M : Mem → Mem → Prop} (hM : MemRel P M) {m0 : Mem} {env : Env} {r r' : Reasoner} {term : Term}
    {punct : Punct} {tv : Tv} {isEvent : Bool} {rng : List Nat} (h : inputT2 env r term punct tv isEvent rng = .ok r')
    (hs : punct = .JUGEMENT → isEvent = false → ¬ IsTemporal term → ∀ n, P (newEternalSentenceByTv term .JUGEMENT tv ⟨[n]⟩))
    (hi : Going P Q M m0 r) : Going P Q M m0 r' := by
  have h1 := (inputT2_RInv hM.id h (fun a b c => hs a b c _) hi.inv).1
  obtain ⟨_, _, _, _, hb, _, _, hsh | ⟨hadd, _, hk⟩⟩ := inputT2_cases h
  · exact ⟨h1, by rw [hsh]; exact hi.rel, by rw [hb]; exact hi.beliefs⟩
  · refine ⟨h1, hM.trans _ _ _ hi.rel (memAddTask_rel (sh := { r.sh with stampIdCounter := r.sh.stampIdCounter + 1 }) hM (.inl hi.beliefs) hadd hi.inv.all.2.1 ?_), by rw [hb]; exact hi.beliefs⟩
    intro hj
    rcases hk with ⟨rfl, _⟩ | ⟨rfl, he, ht⟩
    · cases hj
    · exact hs rfl he ht _

theorem inputN_going {P Q : Sentence → Prop} {M : Mem → Mem → Prop} (hM : MemRel P M) {m0 : Mem} {env : Env} {r r' : Reasoner} {txt : List Char}
    {ok : Bool} {rng : List Nat} (h : inputN env r txt rng = .ok (r', ok))
    (hs : ∀ term tv, parseNarsese env.pf txt = .ok (some (term, tv, .JUGEMENT, false)) → ¬ IsTemporal term →
      ∀ n, P (newEternalSentenceByTv term .JUGEMENT tv ⟨[n]⟩))
    (hi : Going P Q M m0 r) : Going P Q M m0 r' := by
  unfold inputN at h
  obtain ⟨p, hp, h⟩ := R.bind_ok.1 h
  split at h
  · rename_i term tv punct isEvent
    obtain ⟨r1, h1, h⟩ := R.bind_ok.1 h
    cases h
    exact inputT2_going hM h1 (by rintro rfl rfl ht; exact hs term tv hp ht) hi
  · cases h; exact hi

theorem nlpProcess_going {P Q : Sentence → Prop} {M : Mem → Mem → Prop} (hM : MemRel P M) {m0 : Mem} {env : Env} {r r' : Reasoner}
    {rels : List Relation} {rng : List Nat} (h : nlpProcess env r rels rng = .ok r')
    (hs : ∀ rel ∈ rels, ∀ txt, convRelToNarsese env.sf rel = .ok txt → ∀ term tv,
      parseNarsese env.pf txt = .ok (some (term, tv, .JUGEMENT, false)) → ¬ IsTemporal term →
      ∀ n, P (newEternalSentenceByTv term .JUGEMENT tv ⟨[n]⟩))
    (hi : Going P Q M m0 r) : Going P Q M m0 r' := by
  unfold nlpProcess at h
  refine foldlM_inv (Going P Q M m0) h hi ?_
  rintro rel hrel a b ha hstep
  obtain ⟨txt, ht, hstep⟩ := R.bind_ok.1 hstep
  obtain ⟨⟨r1, ok⟩, h1, hstep⟩ := R.bind_ok.1 hstep
  cases hstep
  exact inputN_going hM h1 (hs rel hrel txt ht) ha

theorem declEffects_going {P Q : Sentence → Prop} {M : Mem → Mem → Prop} (hM : MemRel P M) {m0 : Mem} {env : Env} {r r' : Reasoner} {ops : List Op}
    {t : Int} {executed : Option Term} (h : declEffects env r ops t executed = .ok r')
    (hs : ∀ act args name effs, executed = some act → decodeOp act = some (args, name) → opEffects ops name args = .ok effs →
      ∀ rel, OpEffect.relate rel ∈ effs → ∀ n, P (newEternalSentenceByTv rel .JUGEMENT ⟨1, 9/10⟩ ⟨[n]⟩))
    (hi : Going P Q M m0 r) : Going P Q M m0 r' := by
  have h0 := (declEffects_RInv hM.id h (fun act args name effs a b c rel d n _ => hs act args name effs a b c rel d n) hi.inv).1
  unfold declEffects at h
  split at h
  · cases h; exact hi
  · rename_i act
    split at h
    · cases h; exact hi
    · rename_i args name hd
      obtain ⟨effs, he, h⟩ := R.bind_ok.1 h
      obtain ⟨sh, h1, h⟩ := R.bind_ok.1 h
      cases h
      refine ⟨h0, ?_, hi.beliefs⟩
      refine (foldlM_inv (fun x : Shared => AllP P (fun _ => False) x ∧ M m0 x.mem) h1 ⟨hi.inv.all, hi.rel⟩ ?_).2
      rintro eff hmem a b ⟨ha, hb⟩ hstep
      cases eff with
      | inject e => cases hstep; exact ⟨ha, hb⟩
      | relate rel =>
        have hp := hs act args name effs rfl hd he rel hmem
        exact ⟨memAddTask_P hM.closed hstep (ha.counter _) (fun _ => hp _),
          hM.trans _ _ _ hb (memAddTask_rel hM (cfg := { r.cfg env with maxComplexity := 64, nBeliefs := 60 })
            (sh := { a with stampIdCounter := a.stampIdCounter + 1 }) (.inr rfl) hstep ha.2.1
            (fun _ => hp _))⟩

theorem Going.proc {P Q : Sentence → Prop} {M : Mem → Mem → Prop} {m0 : Mem} {r : Reasoner} (hi : Going P Q M m0 r) (p : Proc) :
    Going P Q M m0 { r with proc := p } := ⟨hi.inv.proc p, hi.rel, hi.beliefs⟩

theorem procStep1_going {P Q : Sentence → Prop} {M : Mem → Mem → Prop} (hM : MemRel P M) {m0 : Mem} {env : Env} {r r' : Reasoner} {d : LineDraws}
    (h : procStep1 env r d = .ok r')
    (hs : ∀ p2 act args name effs, narStep1 libCall env.goalDecay r.proc d.decide d.infs = .ok (p2, some act) →
      decodeOp act = some (args, name) → opEffects r.proc.ops name args = .ok effs →
      ∀ rel, OpEffect.relate rel ∈ effs → ∀ n, P (newEternalSentenceByTv rel .JUGEMENT ⟨1, 9/10⟩ ⟨[n]⟩))
    (hi : Going P Q M m0 r) : Going P Q M m0 r' := by
  unfold procStep1 at h
  obtain ⟨⟨p, executed⟩, hn, h⟩ := R.bind_ok.1 h
  refine declEffects_going (r := { r with proc := p }) hM h ?_ (hi.proc p)
  rintro act args name effs rfl hd he
  exact hs p act args name effs hn hd he

theorem procStep_going {P Q : Sentence → Prop} {M : Mem → Mem → Prop} (hM : MemRel P M) {m0 : Mem} {env : Env} {r r' : Reasoner} {d : LineDraws}
    (h : procStep env r d = .ok r') (hs : ∀ rel, StepReports env r d rel → ∀ n, P (newEternalSentenceByTv rel .JUGEMENT ⟨1, 9/10⟩ ⟨[n]⟩))
    (hi : Going P Q M m0 r) : Going P Q M m0 r' := by
  unfold procStep at h
  obtain ⟨p, h0, h⟩ := R.bind_ok.1 h
  rw [procWork_fold] at h
  refine procStep1_going (r := { r with proc := d.between.foldl workerStep p }) hM h ?_ (hi.proc _)
  intro p2 act args name effs h1 hd he rel hrel
  exact hs rel ⟨p, _, p2, act, args, name, effs, h0, rfl, h1, hd, he, hrel⟩

theorem runCommand_going {P Q : Sentence → Prop} {M : Mem → Mem → Prop} (hM : MemRel P M) {m0 : Mem} {env : Env} {r r' : Reasoner} {d : LineDraws}
    {s : List Char} {c : Command} {out : List (List Char)} (h : runCommand env r d s c = .ok (r', out))
    (hn : c = .narsese → ∀ term tv, parseNarsese env.pf s = .ok (some (term, tv, .JUGEMENT, false)) → ¬ IsTemporal term →
      ∀ n, P (newEternalSentenceByTv term .JUGEMENT tv ⟨[n]⟩))
    (hb : c ≠ .stepB)
    (hr : c = .step → ∀ rel, StepReports env r d rel → ∀ n, P (newEternalSentenceByTv rel .JUGEMENT ⟨1, 9/10⟩ ⟨[n]⟩))
    (hl : (∃ a, c = .nlp a) → ∀ rel ∈ d.rels, ∀ txt, convRelToNarsese env.sf rel = .ok txt → ∀ term tv,
      parseNarsese env.pf txt = .ok (some (term, tv, .JUGEMENT, false)) → ¬ IsTemporal term →
      ∀ n, P (newEternalSentenceByTv term .JUGEMENT tv ⟨[n]⟩))
    (hQ : ∀ s, KnowsRule r s → Q s) (hi : Going P Q M m0 r) : Going P Q M m0 r' := by
  cases c with
  | comment => cases h; exact hi
  | step =>
    obtain ⟨r1, h1, h⟩ := R.bind_ok.1 h
    cases h; exact procStep_going hM h1 (hr rfl) hi
  | stepA =>
    obtain ⟨p, _, h⟩ := R.bind_ok.1 h
    cases h; exact hi.proc p
  | stepB => exact absurd rfl hb
  | cycles arg =>
    obtain ⟨n, _, h⟩ := R.bind_ok.1 h
    obtain ⟨r1, h1, h⟩ := R.bind_ok.1 h
    cases h
    exact cyclesLoop_going hM h1 hQ hi
  | flush => cases h; exact ⟨⟨hi.inv.all, hi.inv.answers, hi.inv.link, hi.inv.pos⟩, hi.rel, hi.beliefs⟩
  | register arg =>
    simp only [runCommand] at h
    split at h
    · cases h; exact hi.proc _
    · cases h; exact hi
  | showEvidence =>
    obtain ⟨_, _, h⟩ := R.bind_ok.1 h
    cases h; exact hi
  | babbleOff => cases h; exact hi.proc _
  | babbleOn => cases h; exact hi.proc _
  | nlp a =>
    obtain ⟨r1, h1, h⟩ := R.bind_ok.1 h
    cases h; exact nlpProcess_going hM h1 (hl ⟨a, rfl⟩) hi
  | debugTasks =>
    obtain ⟨_, _, h⟩ := R.bind_ok.1 h
    cases h; exact hi
  | debugMemory => cases h; exact hi
  | quit => cases h; exact hi
  | empty => cases h; exact hi
  | narsese =>
    obtain ⟨⟨r1, ok⟩, h1, h⟩ := R.bind_ok.1 h
    cases h; exact inputN_going hM h1 (hn rfl) hi

theorem NarOp.run_going {P Q : Sentence → Prop} {M : Mem → Mem → Prop} (hM : MemRel P M) {m0 : Mem} {env : Env} {r r' : Reasoner} {op : NarOp}
    (h : op.run env r = .ok r') (hs : ∀ term tv, Told env r op term tv → ∀ n, P (newEternalSentenceByTv term .JUGEMENT tv ⟨[n]⟩))
    (hQ : ∀ s, KnowsRule r s → Q s) (hi : Going P Q M m0 r) : Going P Q M m0 r' := by
  cases op with
  | line l d =>
    obtain ⟨x, h1, rfl⟩ := R.map_ok.1 h
    unfold input at h1
    obtain ⟨c, hc, h1⟩ := R.bind_ok.1 h1
    obtain ⟨⟨r1, out⟩, h2, h1⟩ := R.bind_ok.1 h1
    cases h1
    refine runCommand_going hM h2 ?_ (by rintro rfl; exact dispatch_ne_stepB _ hc) ?_ ?_ hQ hi
    · rintro rfl term tv hp ht
      exact hs term tv (.inl ⟨hc, hp, ht⟩)
    · rintro rfl rel hrel
      exact hs rel _ (.inr (.inr ⟨hc, rfl, hrel⟩))
    · rintro ⟨a, rfl⟩ rel hrel txt ht term tv hp hnt
      exact hs term tv (.inr (.inl ⟨⟨a, hc⟩, rel, hrel, txt, ht, hp, hnt⟩))
  | tell term punct tv isEvent rng =>
    exact inputT2_going hM h (by rintro rfl rfl ht; exact hs term tv ⟨rfl, rfl, rfl, rfl, ht⟩) hi
  | cycle v => exact cycle_going hM h hQ hi
  | declWork => cases h; exact declWork_going hM env hi
  | procWork rng => cases h; exact hi.proc _
  | handlers n => cases h; exact ⟨⟨hi.inv.all, hi.inv.answers, hi.inv.link, hi.inv.pos⟩, hi.rel, hi.beliefs⟩
  | verbosity v => cases h; exact ⟨⟨hi.inv.all, hi.inv.answers, hi.inv.link, hi.inv.pos⟩, hi.rel, hi.beliefs⟩
  | workerLost => cases h; exact ⟨⟨hi.inv.all, hi.inv.answers, hi.inv.link, hi.inv.pos⟩, hi.rel, hi.beliefs⟩
  | link =>
    cases h
    refine ⟨⟨hi.inv.all, fun c hc => ?_, hi.inv.link, hi.inv.pos⟩, hi.rel, hi.beliefs⟩
    rcases hi.inv.answers c hc with h | h
    · exact .inl h
    · exact .inr ⟨rfl, h.2⟩

theorem moreNar_going {P Q : Sentence → Prop} {M : Mem → Mem → Prop} (hM : MemRel P M) {m0 : Mem} {env : Env} {ops : List NarOp}
    {r r' : Reasoner} (h : moreNar env r ops = .ok r')
    (hs : ∀ pre post op r0, ops = pre ++ op :: post → moreNar env r pre = .ok r0 → ∀ term tv, Told env r0 op term tv →
      ∀ n, P (newEternalSentenceByTv term .JUGEMENT tv ⟨[n]⟩))
    (hQ : ∀ pre post r0, ops = pre ++ post → moreNar env r pre = .ok r0 → ∀ s, KnowsRule r0 s → Q s)
    (hi : Going P Q M m0 r) : Going P Q M m0 r' := by
  induction ops generalizing r with
  | nil => cases h; exact hi
  | cons op ops ih =>
    obtain ⟨r1, h1, h2⟩ := foldlM_cons_ok.1 h
    refine ih h2 ?_ ?_ (NarOp.run_going hM h1 (hs [] ops op r rfl rfl) (hQ [] _ r rfl rfl) hi)
    · intro pre post op' r0 he hr
      exact hs (op :: pre) post op' r0 (by rw [he]; rfl) (foldlM_cons_ok.2 ⟨r1, h1, hr⟩)
    · intro pre post r0 he hr
      exact hQ (op :: pre) post r0 (by rw [he]; rfl) (foldlM_cons_ok.2 ⟨r1, h1, hr⟩)

/-- the relation holds between the memories of a reasoner at two moments -/
theorem moreNar_rel {P : Sentence → Prop} {M : Mem → Mem → Prop} (hM : MemRel P M) {env : Env} {ops more : List NarOp} {r r' : Reasoner}
    (h : runNar env ops = .ok r) (h' : moreNar env r more = .ok r')
    (hs : ∀ pre post op r0, ops ++ more = pre ++ op :: post → runNar env pre = .ok r0 → ∀ term tv, Told env r0 op term tv →
      ∀ n, P (newEternalSentenceByTv term .JUGEMENT tv ⟨[n]⟩)) : M r.sh.mem r'.sh.mem := by
  have h0 : RInv (fun _ => P) (fun _ => True) r := by
    refine (moreNar_RInv hM.id h ?_ (fun _ _ _ _ _ _ _ => trivial) (createNar_RInv _ _)).1
    intro pre post op r0 he hr term tv ht n _
    exact hs pre (post ++ more) op r0 (by rw [he]; simp) hr term tv ht n
  refine (moreNar_going hM h' ?_ (fun _ _ _ _ _ _ _ => trivial) ⟨h0, hM.refl _, (runNar_WDecl h).beliefs⟩).rel
  intro pre post op r0 he hr term tv ht n
  exact hs (ops ++ pre) post op r0 (by rw [he]; simp) (moreNar_append.2 ⟨r, h, hr⟩) term tv ht n

end Nar
