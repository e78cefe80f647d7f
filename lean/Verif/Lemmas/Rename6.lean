import Verif.Lemmas.Rename5
import Mathlib.Data.List.Forall2
import Mathlib.Logic.Equiv.Basic
/-! # Other names: operators, the reasoner as a whole, and renamings which exist -/
namespace Nar
open Term

theorem R.ok_then {α β} (x : α) (k : α → R β) : ((Except.ok x : R α) >>= k) = k x := rfl

namespace Renaming
variable (ρ : Renaming)

/-! ## operators of the library -/

section
variable (hf : ρ.Fixes)
include hf

theorem rewriteRight (t : Term) : Nar.rewriteRight (ρ.term t) = ρ.term (Nar.rewriteRight t) := by
  cases t with
  | Seq ts =>
    match ts with
    | [] => rfl
    | [a] => rfl
    | [a, b] => rfl
    | [a, b, c] =>
      simp only [term, terms, Nar.rewriteRight]
      have e := ρ.checkEq b (.Name "and")
      simp only [term, hf.and] at e
      rw [e]
      split <;> simp only [term, terms]
    | _ :: _ :: _ :: _ :: _ => rfl
  | _ => rfl

theorem rewriteRel (t : Term) : Nar.rewriteRel (ρ.term t) = (Nar.rewriteRel t).map ρ.term := by
  cases t with
  | Stmt c s p =>
    cases c <;> try rfl
    cases s <;> try rfl
    rename_i ts
    match ts with
    | [] => rfl
    | [a] => rfl
    | a :: b :: ts =>
      simp only [term, terms, Nar.rewriteRel, ρ.rewriteRight hf]
      rfl
  | _ => rfl

theorem nlpRel0 (args : List Term) : Nar.nlpRel0 (args.map ρ.term) = (Nar.nlpRel0 args).map (List.map ρ.effect) := by
  match args with
  | [] => rfl
  | [_] => rfl
  | [a, b] =>
    simp only [List.map_cons, List.map_nil, Nar.nlpRel0]
    refine R.bind_rel (ρ.rewriteRel hf b) fun r => ?_
    rw [printed, R.map_of_bind]; refine R.bind_same fun _ => ?_
    rw [printed, R.map_of_bind]; exact R.bind_same fun _ => rfl
  | _ :: _ :: _ :: _ => rfl

omit hf in
theorem execOne {k k' : Op → List Term → R (List OpEffect)} (hk : ∀ o args, k' (ρ.op o) (args.map ρ.term) = (k o args).map (List.map ρ.effect))
    (ops : List Op) (t : Term) : Nar.execOne k' (ops.map ρ.op) (ρ.term t) = (Nar.execOne k ops t).map (List.map ρ.effect) := by
  unfold Nar.execOne
  rw [decode]
  cases decodeOp t with
  | none => rfl
  | some r =>
    obtain ⟨args, n⟩ := r
    simp only [Option.map_some, opByName]
    cases retOpByName ops n with
    | none => rfl
    | some o =>
      simp only [Option.map_some]
      rw [printed, R.map_of_bind]
      exact R.bind_same fun _ => hk o args

omit hf in
theorem noExec {k : Op → List Term → R (List OpEffect)} (ops : List Op) (args : List Term) (h : ∀ a seq e, args ≠ [a, .Seq seq, e]) :
    Nar.execAndInject k ops args = .ok [] := by
  unfold Nar.execAndInject
  split
  · exact absurd rfl (h _ _ _)
  · rfl

omit hf in
theorem execAndInject {k k' : Op → List Term → R (List OpEffect)} (hk : ∀ o args, k' (ρ.op o) (args.map ρ.term) = (k o args).map (List.map ρ.effect))
    (ops : List Op) (args : List Term) :
    Nar.execAndInject k' (ops.map ρ.op) (args.map ρ.term) = (Nar.execAndInject k ops args).map (List.map ρ.effect) := by
  by_cases h : ∃ a seq e, args = [a, .Seq seq, e]
  · obtain ⟨a, seq, e, rfl⟩ := h
    simp only [List.map_cons, List.map_nil, term, terms_map, Nar.execAndInject]
    refine R.bind_rel (mapM_rel (fun t => ρ.execOne hk ops t) seq) fun effs => ?_
    simp only [Except.map, List.map_append, List.map_flatten, List.map_cons, List.map_nil, effect]
  · have h1 : ∀ a seq e, args ≠ [a, .Seq seq, e] := fun a seq e he => h ⟨a, seq, e, he⟩
    rw [noExec _ _ h1, noExec]
    · rfl
    · intro a seq e he
      match args with
      | [] => simp at he
      | [_] => simp at he
      | [_, _] => simp at he
      | _ :: _ :: _ :: _ :: _ => simp at he
      | [x, y, z] =>
        simp only [List.map_cons, List.map_nil, List.cons.injEq, and_true] at he
        obtain ⟨_, hy, _⟩ := he
        cases y <;> simp only [term, reduceCtorEq] at hy
        exact h1 _ _ _ rfl

theorem callOp (ops : List Op) (n : Nat) (o : Op) (args : List Term) :
    Nar.callOp (ops.map ρ.op) n (ρ.op o) (args.map ρ.term) = (Nar.callOp ops n o args).map (List.map ρ.effect) := by
  induction n generalizing o args with
  | zero => rfl
  | succ n ih =>
    simp only [Nar.callOp]
    rw [show (ρ.op o).babbleable = o.babbleable from rfl, show (ρ.op o).name = ρ.name o.name from rfl]
    have e1 := ρ.name_eq o.name "^nal9_exeAndInject"
    rw [hf.exec] at e1
    have e2 := ρ.name_eq o.name "^nlpRel0"
    rw [hf.rel] at e2
    rw [e1, e2]
    by_cases h1 : o.babbleable = true
    · simp only [h1, if_true]; rfl
    · simp only [h1, if_false]
      by_cases h2 : (o.name == "^nal9_exeAndInject") = true
      · simp only [h2, if_true]
        exact ρ.execAndInject ih ops args
      · simp only [h2, if_false]
        by_cases h3 : (o.name == "^nlpRel0") = true
        · simp only [h3, if_true]
          exact ρ.nlpRel0 hf args
        · simp only [h3, if_false]; rfl

omit hf in
theorem callDepth (args : List Term) : Nar.callDepth (args.map ρ.term) = Nar.callDepth args := by
  unfold Nar.callDepth
  rw [List.map_map]
  have : calcComplexity ∘ ρ.term = calcComplexity := funext ρ.complexity
  rw [this]

theorem opEffects (ops : List Op) (n : String) (args : List Term) :
    Nar.opEffects (ops.map ρ.op) (ρ.name n) (args.map ρ.term) = (Nar.opEffects ops n args).map (List.map ρ.effect) := by
  unfold Nar.opEffects
  rw [opByName]
  cases retOpByName ops n with
  | none => rfl
  | some o =>
    simp only [Option.map_some, callDepth]
    exact ρ.callOp hf ops _ o args

theorem libCall : ρ.SameCalls Nar.libCall Nar.libCall := by
  intro n args p
  unfold Nar.libCall
  refine R.bind_rel (ρ.opEffects hf p.ops n args) fun effs => ?_
  refine congrArg Except.ok (foldl_rel (g := ρ.proc) ?_ effs p)
  intro p e
  cases e with
  | inject e => simp only [effect, applyInject, eventHappened, proc, List.map_append, List.map_cons, List.map_nil, event]
  | relate r => rfl

end

theorem applyRelate (cfg : Cfg) (t : Int) (sh : Shared) (e : OpEffect) :
    Nar.applyRelate cfg t (ρ.shared sh) (ρ.effect e) = (Nar.applyRelate cfg t sh e).map ρ.shared := by
  cases e with
  | inject e => rfl
  | relate r =>
    exact ρ.memAddTask { cfg with maxComplexity := 64, nBeliefs := 60 } { sh with stampIdCounter := sh.stampIdCounter + 1 }
      (newEternalSentenceByTv r .JUGEMENT ⟨1, 9/10⟩ ⟨[sh.stampIdCounter]⟩) true 1 t

/-! ## the whole reasoner -/

theorem sentenceText (sf : Rat → List Char) (s : Sentence) (b : Bool) :
    (convSentenceTermPunctToStr sf (ρ.sentence s) b).map (fun _ => ()) = (convSentenceTermPunctToStr sf s b).map (fun _ => ()) := by
  have a := ρ.printable s.term
  unfold convSentenceTermPunctToStr
  rw [show (ρ.sentence s).term = ρ.term s.term from rfl, show (ρ.sentence s).punct = s.punct from rfl, retTv]
  cases h1 : convTermToStr s.term <;> cases h2 : convTermToStr (ρ.term s.term) <;> simp only [h1, h2, Option.isSome, reduceCtorEq] at a ⊢
  · split
    · rw [R.ok_then, R.ok_then, R.map_of_bind, R.map_of_bind]; refine R.bind_same fun _ => ?_
      rw [R.map_of_bind, R.map_of_bind]; exact R.bind_same fun _ => rfl
    · rfl

theorem bind_unit {α β} {x y : R α} (h : x.map (fun _ => ()) = y.map (fun _ => ())) (k : R β) : (x >>= fun _ => k) = (y >>= fun _ => k) := by
  cases x <;> cases y <;> simp only [Except.map, Except.error.injEq, reduceCtorEq] at h
  · rw [h]
  · rfl

theorem echo (env : Env) (r : Reasoner) (s : Sentence) : Nar.echo env (ρ.reasoner r) (ρ.sentence s) = Nar.echo env r s := by
  unfold Nar.echo
  rw [show (ρ.reasoner r).verbosity = r.verbosity from rfl]
  split
  · exact bind_unit (ρ.sentenceText env.sf s true) _
  · rfl

theorem addInputTask (env : Env) (r : Reasoner) (s : Sentence) :
    Nar.addInputTask env (ρ.reasoner r) (ρ.sentence s) = (Nar.addInputTask env r s).map ρ.reasoner := by
  unfold Nar.addInputTask
  exact R.bind_rel (ρ.memAddTask (r.cfg env) r.sh s true 1 r.proc.t) fun sh => rfl

theorem inputEventT (env : Env) (r : Reasoner) (s : Sentence) :
    Nar.inputEventT env (ρ.reasoner r) (ρ.sentence s) = (Nar.inputEventT env r s).map ρ.reasoner := by
  unfold Nar.inputEventT
  rw [show (ρ.sentence s).punct = s.punct from rfl]
  cases s.punct with
  | GOAL => exact R.bind_rel (ρ.addEntry r.proc.goals r.proc.t s none 0) fun g => rfl
  | QUESTION => exact ρ.addInputTask env r s
  | JUGEMENT => simp only [Except.map, reasoner, eventHappened, proc, List.map_append, List.map_cons, List.map_nil]; rfl

theorem inputEternalT (env : Env) (r : Reasoner) (s : Sentence) (rng : List Nat)
    (hv : isTemporalQuestion s.term = true → ∀ v, ρ.var v = v) :
    Nar.inputEternalT env (ρ.reasoner r) (ρ.sentence s) rng = (Nar.inputEternalT env r s rng).map ρ.reasoner := by
  unfold Nar.inputEternalT
  rw [show (ρ.sentence s).term = ρ.term s.term from rfl, isTemporal, show (ρ.sentence s).punct = s.punct from rfl]
  split
  · rename_i ht
    obtain ⟨a, b, punct, d, e, f, u⟩ := s
    cases punct with
    | JUGEMENT => exact R.bind_rel (f := ρ.pmem) (g := ρ.reasoner) (ρ.addEvidence (hv ht) r.proc.mem ⟨a, b, .JUGEMENT, d, e, some (.CNT 10 10), u⟩ r.nConceptBeliefs r.proc.t rng) fun m => rfl
    | GOAL => rfl
    | QUESTION => rfl
  · cases s.punct with
    | JUGEMENT => exact ρ.addInputTask env r s
    | GOAL => rfl
    | QUESTION => rfl

theorem newSentence_term (t : Term) (p : Punct) (tv : Tv) (st : Stamp) : (newEternalSentenceByTv t p tv st).term = t := by
  cases p <;> rfl

theorem newSentence (t : Term) (p : Punct) (tv : Tv) (st : Stamp) :
    newEternalSentenceByTv (ρ.term t) p tv st = ρ.sentence (newEternalSentenceByTv t p tv st) := by
  cases p <;> rfl

theorem inputT2 (env : Env) (r : Reasoner) (t : Term) (p : Punct) (tv : Tv) (e : Bool) (rng : List Nat)
    (hv : isTemporalQuestion t = true → ∀ v, ρ.var v = v) :
    Nar.inputT2 env (ρ.reasoner r) (ρ.term t) p tv e rng = (Nar.inputT2 env r t p tv e rng).map ρ.reasoner := by
  unfold Nar.inputT2
  simp only [newSentence]
  have h1 : Nar.echo env { ρ.reasoner r with sh := { (ρ.reasoner r).sh with stampIdCounter := (ρ.reasoner r).sh.stampIdCounter + 1 } }
      (ρ.sentence (newEternalSentenceByTv t p tv ⟨[(ρ.reasoner r).sh.stampIdCounter]⟩)) =
      Nar.echo env { r with sh := { r.sh with stampIdCounter := r.sh.stampIdCounter + 1 } } (newEternalSentenceByTv t p tv ⟨[r.sh.stampIdCounter]⟩) :=
    ρ.echo env { r with sh := { r.sh with stampIdCounter := r.sh.stampIdCounter + 1 } } _
  rw [h1, R.map_of_bind]
  refine R.bind_same fun _ => ?_
  cases e with
  | true => exact ρ.inputEventT env { r with sh := { r.sh with stampIdCounter := r.sh.stampIdCounter + 1 } } _
  | false =>
    exact ρ.inputEternalT env { r with sh := { r.sh with stampIdCounter := r.sh.stampIdCounter + 1 } } _ rng
      (by rw [newSentence_term]; exact hv)

theorem view (m : PMem) : (ρ.pmem m).view = ρ.mem m.view := by
  unfold PMem.view mem
  simp only [pmem, List.map_map]
  refine List.map_congr_left fun c _ => ?_
  have e : ∀ l : List Nat, l.filterMap ((m.heap.map ρ.sentence)[·]?) = (l.filterMap (m.heap[·]?)).map ρ.sentence := by
    intro l
    rw [List.map_filterMap]
    congr 1
    funext i
    rw [List.getElem?_map]
  simp only [Function.comp, concept, pconcept, e]

theorem look (r : Reasoner) : (ρ.reasoner r).look = ρ.shared r.look := by
  unfold Reasoner.look
  rw [show (ρ.reasoner r).linked = r.linked from rfl]
  split
  · rw [show (ρ.reasoner r).proc.mem = ρ.pmem r.proc.mem from rfl, view]
    rfl
  · rfl

theorem sendMsg (r : Reasoner) (m : Option Msg) : Nar.sendMsg (ρ.reasoner r) m = (Nar.sendMsg r m).map ρ.reasoner := by
  cases m with
  | none => rfl
  | some m =>
    simp only [Nar.sendMsg]
    rw [show (ρ.reasoner r).workerAlive = r.workerAlive from rfl]
    split <;> rfl

theorem cycle (env : Env) (r : Reasoner) (v : Rat) : Nar.cycle env (ρ.reasoner r) v = (Nar.cycle env r v).map ρ.reasoner := by
  unfold Nar.cycle
  rw [look]
  refine R.bind_rel (ρ.reasonCycle (r.cfg env) v (r.currentTime + 1) r.look) fun x => ?_
  obtain ⟨sh, msg, calls⟩ := x
  simp only [cycleRes]
  rw [← ρ.sendMsg]
  congr 1
  simp only [reasoner, List.map_append]
  rfl

theorem declWork (env : Env) (r : Reasoner) : Nar.declWork env (ρ.reasoner r) = ρ.reasoner (Nar.declWork env r) := by
  unfold Nar.declWork
  rw [show (ρ.reasoner r).workerAlive = r.workerAlive from rfl, show (ρ.reasoner r).queue = r.queue from rfl]
  split
  · cases r.queue with
    | nil => rfl
    | cons m rest =>
      simp only
      rw [show (ρ.reasoner r).cfg env = r.cfg env from rfl, show (ρ.reasoner r).sh = ρ.shared r.sh from rfl, work]
      cases Nar.work (r.cfg env) r.sh m with
      | error e => rfl
      | ok x => simp only [Except.map, shRes, reasoner, List.map_append]
  · rfl

theorem declWorkN (env : Env) (n : Nat) (r : Reasoner) : Nar.declWorkN env (ρ.reasoner r) n = ρ.reasoner (Nar.declWorkN env r n) := by
  induction n generalizing r with
  | zero => rfl
  | succ n ih => simp only [Nar.declWorkN, declWork, ih]

theorem cyclesLoop (env : Env) (draws : Nat → Rat × Nat) (n i : Nat) (r : Reasoner) :
    Nar.cyclesLoop env draws n i (ρ.reasoner r) = (Nar.cyclesLoop env draws n i r).map ρ.reasoner := by
  induction n generalizing i r with
  | zero => rfl
  | succ n ih =>
    simp only [Nar.cyclesLoop, declWorkN]
    exact R.bind_rel (ρ.cycle env _ _) fun r => ih _ _

theorem procWork (hv : ∀ v, ρ.var v = v) (r : Reasoner) (rng : List Nat) : Nar.procWork (ρ.reasoner r) rng = ρ.reasoner (Nar.procWork r rng) := by
  unfold Nar.procWork
  rw [show (ρ.reasoner r).proc = ρ.proc r.proc from rfl, ρ.workerStep hv]
  rfl

theorem debugEvidence (m : PMem) : Nar.debugEvidence (ρ.pmem m) = Nar.debugEvidence m := by
  unfold Nar.debugEvidence
  have e1 : (ρ.pmem m).concepts.flatMap (fun c => c.byExp ++ c.byUsage) = m.concepts.flatMap (fun c => c.byExp ++ c.byUsage) := by
    simp only [pmem, List.flatMap_map]; rfl
  have e2 : debugCell (ρ.pmem m) = debugCell m := by
    funext i
    unfold debugCell
    rw [show (ρ.pmem m).heap = m.heap.map ρ.sentence from rfl, indexAt_ren, R.bind_of_map]
    refine R.bind_same fun b => ?_
    rw [show (ρ.sentence b).term = ρ.term b.term from rfl, printed]
    rfl
  rw [e1, e2]

theorem debugTask (env : Env) (r : Reasoner) (ref : Nat) :
    (Nar.debugTask env (ρ.reasoner r) ref).map (fun _ => ()) = (Nar.debugTask env r ref).map (fun _ => ()) := by
  unfold Nar.debugTask
  rw [show (ρ.reasoner r).sh.heap = r.sh.heap.map ρ.task from rfl, indexAt_ren, R.bind_of_map, R.map_of_bind, R.map_of_bind]
  refine R.bind_same fun t => ?_
  have e := ρ.sentenceText env.sf t.sentence true
  rw [show (ρ.task t).sentence = ρ.sentence t.sentence from rfl, show (ρ.sentence t.sentence).stamp = t.sentence.stamp from rfl]
  cases h1 : convSentenceTermPunctToStr env.sf t.sentence true <;> cases h2 : convSentenceTermPunctToStr env.sf (ρ.sentence t.sentence) true <;>
    simp only [h1, h2, Except.map, Except.error.injEq, reduceCtorEq] at e
  · rw [e]; rfl
  · cases h3 : stampToStr t.sentence.stamp <;> rfl

theorem mapM_unit {α β} {k k' : α → R β} (h : ∀ a, (k' a).map (fun _ => ()) = (k a).map (fun _ => ())) (l : List α) :
    (l.mapM k').map (fun _ => ()) = (l.mapM k).map (fun _ => ()) := by
  induction l with
  | nil => rfl
  | cons a l ih =>
    rw [List.mapM_cons, List.mapM_cons]
    have ha := h a
    cases h1 : k a <;> cases h2 : k' a <;> simp only [h1, h2, Except.map, Except.error.injEq, reduceCtorEq] at ha
    · rw [ha]; rfl
    · cases h3 : l.mapM k <;> cases h4 : l.mapM k' <;> simp only [h3, h4, Except.map, Except.error.injEq, reduceCtorEq] at ih
      · rw [ih]; rfl
      · rfl

section
variable (hf : ρ.Fixes)
include hf

theorem declEffects (env : Env) (r : Reasoner) (ops : List Op) (t : Int) (o : Option Term) :
    Nar.declEffects env (ρ.reasoner r) (ops.map ρ.op) t (o.map ρ.term) = (Nar.declEffects env r ops t o).map ρ.reasoner := by
  unfold Nar.declEffects
  cases o with
  | none => rfl
  | some x =>
    simp only [Option.map_some]
    rw [decode]
    cases decodeOp x with
    | none => rfl
    | some y =>
      obtain ⟨args, n⟩ := y
      refine R.bind_rel (ρ.opEffects hf ops n args) fun effs => ?_
      exact R.bind_rel (foldlM_rel (fun sh e => ρ.applyRelate (r.cfg env) t sh e) effs r.sh) fun sh => rfl

theorem procStep1 (env : Env) (r : Reasoner) (d : LineDraws) : Nar.procStep1 env (ρ.reasoner r) d = (Nar.procStep1 env r d).map ρ.reasoner := by
  unfold Nar.procStep1
  refine R.bind_rel (ρ.narStep1 hf.self (ρ.libCall hf) env.goalDecay r.proc d.decide d.infs) fun x => ?_
  exact ρ.declEffects hf env { r with proc := x.1 } r.proc.ops r.proc.t x.2

theorem procStep (env : Env) (r : Reasoner) (d : LineDraws) : Nar.procStep env (ρ.reasoner r) d = (Nar.procStep env r d).map ρ.reasoner := by
  unfold Nar.procStep
  refine R.bind_rel (ρ.narStep0 r.proc d.perceive) fun p => ?_
  have e : d.between.foldl Nar.procWork { ρ.reasoner r with proc := ρ.proc p } = ρ.reasoner (d.between.foldl Nar.procWork { r with proc := p }) :=
    foldl_same (g := ρ.reasoner) (fun r rng => ρ.procWork hf.vars r rng) _ { r with proc := p }
  rw [e]
  exact ρ.procStep1 hf env _ d

theorem runCommand (env : Env) (r : Reasoner) (d : LineDraws) (s s' : List Char) (c : Command) (h1 : c ≠ .narsese)
    (h2 : ∀ a, c ≠ .register a) (h3 : ∀ t, c ≠ .nlp t) :
    (Nar.runCommand env (ρ.reasoner r) d s' c).map (·.1) = ((Nar.runCommand env r d s c).map (·.1)).map ρ.reasoner := by
  cases c with
  | narsese => exact absurd rfl h1
  | register a => exact absurd rfl (h2 a)
  | nlp t => exact absurd rfl (h3 t)
  | comment => rfl
  | quit => rfl
  | empty => rfl
  | step =>
    simp only [Nar.runCommand, ρ.procStep hf]
    cases Nar.procStep env r d <;> rfl
  | stepA =>
    simp only [Nar.runCommand]
    rw [show (ρ.reasoner r).proc = ρ.proc r.proc from rfl, narStep0]
    cases Nar.narStep0 r.proc d.perceive <;> rfl
  | stepB =>
    simp only [Nar.runCommand, ρ.procStep1 hf]
    cases Nar.procStep1 env r d <;> rfl
  | cycles a =>
    simp only [Nar.runCommand, ρ.cyclesLoop]
    cases nCycles a with
    | error e => rfl
    | ok n =>
      simp only [R.ok_then]
      cases Nar.cyclesLoop env d.cycles n.toNat 0 r <;> rfl
  | flush => rfl
  | showEvidence =>
    simp only [Nar.runCommand]
    rw [show (ρ.reasoner r).proc.mem = ρ.pmem r.proc.mem from rfl, debugEvidence]
    cases Nar.debugEvidence r.proc.mem <;> rfl
  | babbleOff => rfl
  | babbleOn => rfl
  | debugTasks =>
    simp only [Nar.runCommand]
    rw [show (ρ.reasoner r).sh.judgementTasks = r.sh.judgementTasks from rfl]
    have e := mapM_unit (k' := Nar.debugTask env (ρ.reasoner r)) (k := Nar.debugTask env r) (ρ.debugTask env r) r.sh.judgementTasks
    cases h1 : r.sh.judgementTasks.mapM (Nar.debugTask env r) <;>
      cases h2 : r.sh.judgementTasks.mapM (Nar.debugTask env (ρ.reasoner r)) <;>
      simp only [h1, h2, Except.map, Except.error.injEq, reduceCtorEq] at e
    · rw [e]; rfl
    · rfl
  | debugMemory => rfl

theorem inputN (env : Env) (r : Reasoner) (s s' : List Char) (rng : List Nat)
    (h : parseNarsese env.pf s' = (parseNarsese env.pf s).map (Option.map ρ.reading)) :
    (Nar.inputN env (ρ.reasoner r) s' rng).map (·.1) = ((Nar.inputN env r s rng).map (·.1)).map ρ.reasoner := by
  unfold Nar.inputN
  rw [h]
  cases parseNarsese env.pf s with
  | error e => rfl
  | ok x =>
    cases x with
    | none => rfl
    | some x =>
      obtain ⟨t, tv, p, e⟩ := x
      simp only [Except.map, Option.map_some, reading]
      rw [R.ok_then, R.ok_then]
      simp only []
      rw [ρ.inputT2 env r t p tv e rng (fun _ => hf.vars)]
      cases Nar.inputT2 env r t p tv e rng <;> rfl

theorem line (env : Env) (r : Reasoner) (l l' : List Char) (d : LineDraws) (h : ρ.SameLine env l l') :
    (Nar.input env (ρ.reasoner r) l' d).map (·.1) = ((Nar.input env r l d).map (·.1)).map ρ.reasoner := by
  have hi : ∀ (r : Reasoner) (l : List Char), (Nar.input env r l d).map (·.1) =
      (dispatch (trimNewline l)) >>= fun c => (Nar.runCommand env r d (trimNewline l) c).map (·.1) := by
    intro r l
    unfold Nar.input
    simp only []
    cases dispatch (trimNewline l) with
    | error e => rfl
    | ok c =>
      rw [R.ok_then, R.ok_then]
      cases Nar.runCommand env r d (trimNewline l) c <;> rfl
  rw [hi, hi]
  unfold SameLine at h
  cases h1 : dispatch (trimNewline l) with
  | error e =>
    rw [h1] at h
    cases h2 : dispatch (trimNewline l') with
    | error e' => rw [h2] at h; rw [Except.error.inj h]; rfl
    | ok c' => rw [h2] at h; cases h
  | ok c =>
    rw [h1] at h
    cases h2 : dispatch (trimNewline l') with
    | error e' => rw [h2] at h; cases c <;> cases h
    | ok c' =>
      rw [h2] at h
      rw [R.ok_then, R.ok_then]
      have same : c = c' → c ≠ .narsese → (∀ a, c ≠ .register a) → (∀ t, c ≠ .nlp t) →
          (Nar.runCommand env (ρ.reasoner r) d (trimNewline l') c').map (·.1) =
          ((Nar.runCommand env r d (trimNewline l) c).map (·.1)).map ρ.reasoner := by
        rintro rfl a b e
        exact ρ.runCommand hf env r d _ _ c a b e
      cases c with
      | narsese =>
        cases c' with
        | narsese =>
          simp only at h
          have := ρ.inputN hf env r _ _ d.rng h
          simp only [Nar.runCommand]
          cases hx : Nar.inputN env r (trimNewline l) d.rng <;> cases hy : Nar.inputN env (ρ.reasoner r) (trimNewline l') d.rng <;>
            simp only [hx, hy, Except.map, Except.error.injEq, Except.ok.injEq, reduceCtorEq] at this
          · rw [this]; rfl
          · exact congrArg Except.ok this
        | _ => simp at h
      | register a =>
        cases c' with
        | register a' =>
          simp only at h
          simp only [Nar.runCommand, h]
          cases registeredOp (splitWhitespace a []) with
          | none => rfl
          | some o => simp only [Option.map_some, Except.map, reasoner, proc, List.map_append, List.map_cons, List.map_nil]
        | _ => simp at h
      | nlp t => exact absurd h id
      | _ => exact same (Except.ok.inj h) (by simp) (by simp) (by simp)

theorem action (env : Env) (r : Reasoner) (o o' : NarOp) (h : ρ.SameAction env o o') :
    o'.run env (ρ.reasoner r) = (o.run env r).map ρ.reasoner := by
  cases h with
  | line d hl => exact ρ.line hf env r _ _ d hl
  | tell t p tv e rng => exact ρ.inputT2 env r t p tv e rng (fun _ => hf.vars)
  | cycle v => exact ρ.cycle env r v
  | declWork => exact congrArg Except.ok (ρ.declWork env r)
  | procWork rng => exact congrArg Except.ok (ρ.procWork hf.vars r rng)
  | handlers n => rfl
  | verbosity v => rfl
  | workerLost => rfl
  | link => rfl

theorem moreNar (env : Env) (ops ops' : List NarOp) (h : List.Forall₂ (ρ.SameAction env) ops ops') (r : Reasoner) :
    Nar.moreNar env (ρ.reasoner r) ops' = (Nar.moreNar env r ops).map ρ.reasoner := by
  unfold Nar.moreNar
  induction h generalizing r with
  | nil => rfl
  | cons ho _ ih =>
    rw [List.foldlM_cons, List.foldlM_cons]
    exact R.bind_rel (ρ.action hf env r _ _ ho) fun r => ih r

end

theorem created : ρ.reasoner createNar = createNar := rfl

/-! ## renamings exist -/

/-- a renaming from a permutation of the names -/
def ofPerm (e : Equiv.Perm String) : Renaming :=
  ⟨e, id, fun _ _ h => e.injective h, fun _ _ h => h⟩

theorem exists_perm (xs ys : List String) (hx : xs.Nodup) (hy : ys.Nodup) (hl : xs.length = ys.length) :
    ∃ e : Equiv.Perm String, xs.map e = ys := by
  induction xs generalizing ys with
  | nil => exact ⟨Equiv.refl _, by cases ys with | nil => rfl | cons => simp at hl⟩
  | cons x xs ih =>
    cases ys with
    | nil => simp at hl
    | cons y ys =>
      rw [List.nodup_cons] at hx hy
      obtain ⟨e, he⟩ := ih ys hx.2 hy.2 (by simpa using hl)
      refine ⟨e.trans (Equiv.swap (e x) y), ?_⟩
      simp only [List.map_cons, Equiv.trans_apply, Equiv.swap_apply_left, List.cons.injEq, true_and]
      rw [← he]
      refine List.map_congr_left fun z hz => ?_
      rw [Equiv.trans_apply]
      refine Equiv.swap_apply_of_ne_of_ne ?_ ?_
      · intro h
        rw [e.injective h] at hz
        exact hx.1 hz
      · intro h
        have : e z ∈ ys := by rw [← he]; exact List.mem_map_of_mem hz
        rw [h] at this
        exact hy.1 this

end Renaming
end Nar
