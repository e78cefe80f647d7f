import Verif.Lemmas.Serving
import Verif.Lemmas.Whole3
/-! # Lemmas: what is kept by all that can happen to the procedural part, if only some goals are given -/
namespace Nar
open Term

/-- a predicate of the procedural part kept by all that can happen to it, if only goals with `goal` are given -/
structure PKeptFor (env : Env) (goal : Term → Prop) (S : Proc → Prop) : Prop where
  act : ∀ (p p' : Proc) (op : ProcOp), (∀ t tv id, op = .goal t tv id → goal t) → S p → op.Outside →
    op.run libCall env.goalDecay p = .ok p' → S p'
  step : ∀ (p p1 p2 : Proc) (draws : Nat → SampleDraws) (between : List (List Nat)) (rng : List Nat)
    (infs : List (Rat × Rat × List Nat)), S p → ProcOp.run libCall env.goalDecay p (.step0 draws) = .ok p1 →
      ProcOp.run libCall env.goalDecay (between.foldl workerStep p1) (.step1 rng infs) = .ok p2 → S p2
  register : ∀ (p : Proc) (op : Op), S p → op.eviCnt = 3 → S { p with ops := p.ops ++ [op] }
  babbling : ∀ (p : Proc) (b : Bool), S p → S { p with enBabbling := b }

section
variable {env : Env} {S : Proc → Prop} {goal : Term → Prop} (hS : PKeptFor env goal S)
include hS

theorem inputT2_for {r r' : Reasoner} {term : Term} {punct : Punct} {tv : Tv} {isEvent : Bool} {rng : List Nat}
    (h : inputT2 env r term punct tv isEvent rng = .ok r')
    (hg : isEvent = true → punct = .GOAL → goal term) (hb : r.nConceptBeliefs = 20) (hi : S r.proc) : S r'.proc := by
  unfold inputT2 at h
  obtain ⟨_, _, h⟩ := R.bind_ok.1 h
  cases isEvent with
  | true =>
    simp only [if_true] at h
    unfold inputEventT at h
    cases punct with
    | GOAL =>
      obtain ⟨g, ha, h⟩ := R.bind_ok.1 h
      cases h
      exact hS.act r.proc _ (.goal term tv r.sh.stampIdCounter) (by rintro _ _ _ ⟨⟩; exact hg rfl rfl) hi trivial (by
        simp only [ProcOp.run, inputGoal]
        exact R.bind_ok.2 ⟨g, ha, rfl⟩)
    | QUESTION =>
      simp only [newEternalSentenceByTv] at h
      unfold addInputTask at h
      obtain ⟨sh, hs, h⟩ := R.bind_ok.1 h
      cases h; exact hi
    | JUGEMENT => cases h; exact hS.act r.proc _ (.event term) (by rintro _ _ _ ⟨⟩) hi trivial rfl
  | false =>
    simp only [Bool.false_eq_true, if_false] at h
    unfold inputEternalT at h
    split at h
    · cases punct with
      | GOAL => cases h; exact hi
      | QUESTION => cases h; exact hi
      | JUGEMENT =>
        obtain ⟨m, hm, h⟩ := R.bind_ok.1 h
        cases h
        exact hS.act r.proc _ (.rule term tv r.sh.stampIdCounter r.nConceptBeliefs rng) (by rintro _ _ _ ⟨⟩) hi hb (by
          simp only [ProcOp.run, inputRule]
          exact R.bind_ok.2 ⟨m, hm, rfl⟩)
    · cases punct with
      | GOAL => cases h; exact hi
      | QUESTION => cases h; exact hi
      | JUGEMENT =>
        simp only [newEternalSentenceByTv] at h
        unfold addInputTask at h
        obtain ⟨sh, hs, h⟩ := R.bind_ok.1 h
        cases h; exact hi

theorem inputN_for {r r' : Reasoner} {txt : List Char} {ok : Bool} {rng : List Nat}
    (h : inputN env r txt rng = .ok (r', ok))
    (hg : ∀ t tv, parseNarsese env.pf txt = .ok (some (t, tv, .GOAL, true)) → goal t) (hb : r.nConceptBeliefs = 20) (hi : S r.proc) :
    r'.nConceptBeliefs = 20 ∧ S r'.proc := by
  unfold inputN at h
  obtain ⟨p, hp, h⟩ := R.bind_ok.1 h
  split at h
  · obtain ⟨r1, h1, h⟩ := R.bind_ok.1 h
    cases h
    obtain ⟨_, _, _, _, hb', _⟩ := inputT2_cases h1
    exact ⟨hb'.trans hb, inputT2_for hS h1 (by rintro rfl rfl; exact hg _ _ hp) hb hi⟩
  · cases h; exact ⟨hb, hi⟩

theorem nlpProcess_for {r r' : Reasoner} {rels : List Relation} {rng : List Nat}
    (h : nlpProcess env r rels rng = .ok r')
    (hg : ∀ rel ∈ rels, ∀ txt t tv, convRelToNarsese env.sf rel = .ok txt →
      parseNarsese env.pf txt = .ok (some (t, tv, .GOAL, true)) → goal t) (hb : r.nConceptBeliefs = 20) (hi : S r.proc) : S r'.proc := by
  unfold nlpProcess at h
  refine (foldlM_inv (fun r : Reasoner => r.nConceptBeliefs = 20 ∧ S r.proc) h ⟨hb, hi⟩ ?_).2
  rintro rel hrel a b ha hstep
  obtain ⟨txt, ht, hstep⟩ := R.bind_ok.1 hstep
  obtain ⟨⟨r1, ok⟩, h1, hstep⟩ := R.bind_ok.1 hstep
  cases hstep
  exact inputN_for hS h1 (fun t tv k => hg rel hrel txt t tv ht k) ha.1 ha.2

theorem procStep_for {r r' : Reasoner} {d : LineDraws} (h : procStep env r d = .ok r') (hi : S r.proc) : S r'.proc := by
  unfold procStep at h
  obtain ⟨p, h0, h⟩ := R.bind_ok.1 h
  rw [procWork_fold] at h
  unfold procStep1 at h
  obtain ⟨⟨p2, executed⟩, hn, h⟩ := R.bind_ok.1 h
  rw [declEffects_proc h]
  exact hS.step r.proc p p2 d.perceive d.between d.decide d.infs hi h0 (by simp only [ProcOp.run]; rw [hn]; rfl)

theorem runCommand_for {r r' : Reasoner} {d : LineDraws} {s : List Char} {c : Command} {out : List (List Char)}
    (h : runCommand env r d s c = .ok (r', out)) (hA : c ≠ .stepA) (hB : c ≠ .stepB)
    (hg : ∀ t, (c = .narsese ∧ ∃ tv, parseNarsese env.pf s = .ok (some (t, tv, .GOAL, true))) ∨
      ((∃ text, c = .nlp text) ∧ ∃ rel ∈ d.rels, ∃ txt tv, convRelToNarsese env.sf rel = .ok txt ∧
        parseNarsese env.pf txt = .ok (some (t, tv, .GOAL, true))) → goal t)
    (hb : r.nConceptBeliefs = 20) (hi : S r.proc) : S r'.proc := by
  cases c with
  | comment => cases h; exact hi
  | step =>
    obtain ⟨r1, h1, h⟩ := R.bind_ok.1 h
    cases h; exact procStep_for hS h1 hi
  | stepA =>
    exact absurd rfl hA
  | stepB =>
    exact absurd rfl hB
  | cycles arg =>
    obtain ⟨n, _, h⟩ := R.bind_ok.1 h
    obtain ⟨r1, h1, h⟩ := R.bind_ok.1 h
    cases h; rw [cyclesLoop_proc h1]; exact hi
  | flush => cases h; exact hi
  | register arg =>
    simp only [runCommand] at h
    split at h
    · rename_i op hop
      cases h; exact hS.register r.proc op hi (registeredOp_evi hop)
    · cases h; exact hi
  | showEvidence =>
    obtain ⟨_, _, h⟩ := R.bind_ok.1 h
    cases h; exact hi
  | babbleOff => cases h; exact hS.babbling _ _ hi
  | babbleOn => cases h; exact hS.babbling _ _ hi
  | nlp a =>
    obtain ⟨r1, h1, h⟩ := R.bind_ok.1 h
    cases h; exact nlpProcess_for hS h1
      (fun rel hr txt t tv k1 k2 => hg t (.inr ⟨⟨_, rfl⟩, rel, hr, txt, tv, k1, k2⟩)) hb hi
  | debugTasks =>
    obtain ⟨_, _, h⟩ := R.bind_ok.1 h
    cases h; exact hi
  | debugMemory => cases h; exact hi
  | quit => cases h; exact hi
  | empty => cases h; exact hi
  | narsese =>
    obtain ⟨⟨r1, ok⟩, h1, h⟩ := R.bind_ok.1 h
    cases h; exact (inputN_for hS h1 (fun t tv k => hg t (.inl ⟨rfl, tv, k⟩)) hb hi).2

theorem NarOp.run_for {r r' : Reasoner} {op : NarOp} (h : op.run env r = .ok r')
    (hg : ∀ t, GivesGoal env op t → goal t) (hb : r.nConceptBeliefs = 20)
    (hi : S r.proc) : S r'.proc := by
  cases op with
  | line l d =>
    obtain ⟨x, h1, rfl⟩ := R.map_ok.1 h
    unfold input at h1
    obtain ⟨c, hc, h1⟩ := R.bind_ok.1 h1
    obtain ⟨⟨r1, out⟩, h2, h1⟩ := R.bind_ok.1 h1
    cases h1
    exact runCommand_for hS h2 (by rintro rfl; exact dispatch_ne_stepA _ hc) (by rintro rfl; exact dispatch_ne_stepB _ hc)
      (fun t k => hg t (by
        rcases k with ⟨rfl, k⟩ | ⟨⟨x, rfl⟩, k⟩
        · exact .inl ⟨hc, k⟩
        · exact .inr ⟨⟨x, hc⟩, k⟩)) hb hi
  | tell term punct tv isEvent rng => exact inputT2_for hS h (fun h1 h2 => hg term ⟨rfl, h2, h1⟩) hb hi
  | cycle v => rw [(cycle_same h).1]; exact hi
  | declWork => cases h; rw [(declWork_same env r).1]; exact hi
  | procWork rng => cases h; exact hS.act r.proc _ (.worker rng) (by rintro _ _ _ ⟨⟩) hi trivial rfl
  | handlers n => cases h; exact hi
  | verbosity v => cases h; exact hi
  | workerLost => cases h; exact hi
  | link => cases h; exact hi

theorem moreNar_for {ops : List NarOp} {r r' : Reasoner} (h : moreNar env r ops = .ok r')
    (hg : ∀ op ∈ ops, ∀ t, GivesGoal env op t → goal t) {sh0 : Shared}
    {log0 : List AnswerCall} (hd : WDecl env sh0 log0 r) (hi : S r.proc) : S r'.proc :=
  (foldlM_inv (fun r : Reasoner => WDecl env sh0 log0 r ∧ S r.proc) h ⟨hd, hi⟩
    (fun op ho _ _ ha hs => ⟨NarOp.run_WDecl hs ha.1, NarOp.run_for hS hs (hg op ho) ha.1.beliefs ha.2⟩)).2

end


/-- in the state every goal serves one for which `goal` holds -/
def PServes (env : Env) (goal : Term → Prop) (p : Proc) : Prop := PWhole env p ∧ Serves goal (KnownRule p) p.goals

theorem workers_serve {env : Env} {goal : Term → Prop} {p : Proc} (h : ProcInv p ∧ (∀ o ∈ p.ops, 1 ≤ o.eviCnt) ∧
    Serves goal (KnownRule p) p.goals) (between : List (List Nat)) :
    ProcInv (between.foldl workerStep p) ∧ (∀ o ∈ (between.foldl workerStep p).ops, 1 ≤ o.eviCnt) ∧
      Serves goal (KnownRule (between.foldl workerStep p)) (between.foldl workerStep p).goals := by
  induction between generalizing p with
  | nil => exact h
  | cons rng l ih =>
    have hr : ProcOp.run libCall env.goalDecay p (.worker rng) = .ok (workerStep p rng) := rfl
    obtain ⟨k1, k2, -⟩ := ProcOp.run_inv libCall_reports hr h.1 h.2.1
    exact ih ⟨k1, k2 ▸ h.2.1, ProcOp.run_serves libCall_reports h.1 h.2.1 (by rintro _ _ _ ⟨⟩) h.2.2 hr⟩

theorem PServes.mid {env : Env} {goal : Term → Prop} {p p1 : Proc} (h : PServes env goal p) {draws : Nat → SampleDraws}
    (h0 : ProcOp.run libCall env.goalDecay p (.step0 draws) = .ok p1) (between : List (List Nat)) :
    ProcInv (between.foldl workerStep p1) ∧ (∀ o ∈ (between.foldl workerStep p1).ops, 1 ≤ o.eviCnt) ∧
      Serves goal (KnownRule (between.foldl workerStep p1)) (between.foldl workerStep p1).goals := by
  obtain ⟨k1, k2, -⟩ := ProcOp.run_inv libCall_reports h0 h.1.inv h.1.evi
  exact workers_serve (env := env) ⟨k1, k2 ▸ h.1.evi,
    ProcOp.run_serves libCall_reports h.1.inv h.1.evi (by rintro _ _ _ ⟨⟩) h.2 h0⟩ between

theorem PServes.kept (env : Env) (goal : Term → Prop) : PKeptFor env goal (PServes env goal) where
  act := fun p p' op hg h ho hr => ⟨(PWhole.kept env).act p p' op h.1 ho hr,
    ProcOp.run_serves libCall_reports h.1.inv h.1.evi hg h.2 hr⟩
  step := fun p p1 p2 draws between rng infs h h0 h1 => by
    obtain ⟨k1, k2, k3⟩ := h.mid h0 between
    exact ⟨(PWhole.kept env).step p p1 p2 draws between rng infs h.1 h0 h1,
      ProcOp.run_serves libCall_reports k1 k2 (by rintro _ _ _ ⟨⟩) k3 h1⟩
  register := fun p op h he => ⟨(PWhole.kept env).register p op h.1 he, h.2⟩
  babbling := fun p b h => ⟨(PWhole.kept env).babbling p b h.1, h.2⟩

theorem makeGoalSystem_empty (n d : Int) (e : Entry) : ¬ Stored (makeGoalSystem n d) e := by
  rintro (h | ⟨i, level, gr, h1, h2, -⟩)
  · simp [makeGoalSystem] at h
  · simp [makeGoalSystem, List.getElem?_replicate] at h1
    rw [h1.2] at h2
    cases h2

theorem Wanted.of_none {goal known : Term → Prop} (hg : ∀ t, ¬ goal t) {t : Term} (h : Wanted goal known t) : False := by
  induction h with
  | given h => exact hg _ h
  | condition _ _ ih => exact ih
  | first _ ih => exact ih
  | last _ ih => exact ih
  | filled _ _ ih => exact ih

theorem runNar_serves {env : Env} {ops : List NarOp} {r : Reasoner} (h : runNar env ops = .ok r) :
    PServes env (fun t => ∃ op ∈ ops, GivesGoal env op t) r.proc := by
  refine moreNar_for (PServes.kept env _) h (fun op ho t ht => ⟨op, ho, ht⟩) (sh0 := createShared) (log0 := [])
    (runNar_WDecl (ops := []) rfl) ⟨PWhole.init env, ?_⟩
  intro e he
  exact absurd he (makeGoalSystem_empty _ _ e)

end Nar
