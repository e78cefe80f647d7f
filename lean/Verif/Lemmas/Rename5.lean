import Verif.Lemmas.Rename4
/-! # Other names: the procedural reasoner -/
namespace Nar
open Term

namespace Renaming
variable (ρ : Renaming)

/-! ## printing fails independent of the names -/

mutual
theorem printable : ∀ t : Term, (convTermToStr (ρ.term t)).isSome = (convTermToStr t).isSome
  | Stmt c s p => by
      have a := printable s
      have b := printable p
      simp only [term, convTermToStr]
      cases h1 : convTermToStr s <;> cases h2 : convTermToStr (ρ.term s) <;> simp [h1, h2] at a ⊢
      cases h1 : convTermToStr p <;> cases h2 : convTermToStr (ρ.term p) <;> simp [h1, h2] at b ⊢
  | Name n => by simp only [term, convTermToStr]; rfl
  | .Seq ts => by
      have a := printableL [' ', ',', ' '] ts
      simp only [term, convTermToStr]
      cases h1 : joinStr [' ', ',', ' '] ts <;> cases h2 : joinStr [' ', ',', ' '] (ρ.terms ts) <;> simp [h1, h2] at a ⊢
  | SetInt ts => by
      have a := printableL [' '] ts
      simp only [term, convTermToStr]
      cases h1 : joinStr [' '] ts <;> cases h2 : joinStr [' '] (ρ.terms ts) <;> simp [h1, h2] at a ⊢
  | SetExt ts => by
      have a := printableL [' '] ts
      simp only [term, convTermToStr]
      cases h1 : joinStr [' '] ts <;> cases h2 : joinStr [' '] (ρ.terms ts) <;> simp [h1, h2] at a ⊢
  | QVar n => by simp only [term, convTermToStr]; rfl
  | DepVar n => by simp only [term, convTermToStr]; rfl
  | IndepVar n => by simp only [term, convTermToStr]; rfl
  | Conj ts => by
      have a := printableL [' ', '&', '&', ' '] ts
      simp only [term, convTermToStr]
      cases h1 : joinStr [' ', '&', '&', ' '] ts <;> cases h2 : joinStr [' ', '&', '&', ' '] (ρ.terms ts) <;> simp [h1, h2] at a ⊢
  | .Prod ts => by
      have a := printableL [' ', '*', ' '] ts
      simp only [term, convTermToStr]
      cases h1 : joinStr [' ', '*', ' '] ts <;> cases h2 : joinStr [' ', '*', ' '] (ρ.terms ts) <;> simp [h1, h2] at a ⊢
  | Img r i ts => by
      have a := printableL [' '] ts
      have b := printable r
      simp only [term, convTermToStr]
      cases h1 : joinStr [' '] ts <;> cases h2 : joinStr [' '] (ρ.terms ts) <;> simp [h1, h2] at a ⊢
      cases h1 : convTermToStr r <;> cases h2 : convTermToStr (ρ.term r) <;> simp [h1, h2] at b ⊢
  | IntInt ts => by
      have a := printableL [' ', '|', ' '] ts
      simp only [term, convTermToStr]
      cases h1 : joinStr [' ', '|', ' '] ts <;> cases h2 : joinStr [' ', '|', ' '] (ρ.terms ts) <;> simp [h1, h2] at a ⊢
  | ExtInt ts => by
      have a := printableL [' ', '&', ' '] ts
      simp only [term, convTermToStr]
      cases h1 : joinStr [' ', '&', ' '] ts <;> cases h2 : joinStr [' ', '&', ' '] (ρ.terms ts) <;> simp [h1, h2] at a ⊢
  | Par ts => by
      have a := printableL [' ', ';', ' '] ts
      simp only [term, convTermToStr]
      cases h1 : joinStr [' ', ';', ' '] ts <;> cases h2 : joinStr [' ', ';', ' '] (ρ.terms ts) <;> simp [h1, h2] at a ⊢
  | .Neg t => by
      have a := printable t
      simp only [term, convTermToStr]
      cases h1 : convTermToStr t <;> cases h2 : convTermToStr (ρ.term t) <;> simp [h1, h2] at a ⊢
theorem printableL (sep : List Char) : ∀ ts : List Term, (joinStr sep (ρ.terms ts)).isSome = (joinStr sep ts).isSome
  | [] => by simp only [terms, joinStr]
  | [t] => by simp only [terms, joinStr]; exact printable t
  | t :: t2 :: ts => by
      have a := printable t
      have b := printableL sep (t2 :: ts)
      simp only [terms] at b
      simp only [terms, joinStr]
      cases h1 : convTermToStr t <;> cases h2 : convTermToStr (ρ.term t) <;> simp [h1, h2] at a ⊢
      cases h1 : joinStr sep (t2 :: ts) <;> cases h2 : joinStr sep (ρ.term t2 :: ρ.terms ts) <;> simp [h1, h2] at b ⊢
end

theorem printTerm (t : Term) : Nar.printTerm (ρ.term t) = Nar.printTerm t := by
  have a := ρ.printable t
  unfold Nar.printTerm
  cases h1 : convTermToStr t <;> cases h2 : convTermToStr (ρ.term t) <;> simp [h1, h2] at a ⊢

theorem printed (t : Term) : Nar.printed (ρ.term t) = Nar.printed t := ρ.printTerm t

/-! ## parts of rules -/

theorem retPred (t : Term) : Nar.retPred (ρ.term t) = (Nar.retPred t).map ρ.term := by
  cases t with
  | Stmt c s p => cases c <;> rfl
  | _ => rfl

theorem retImplSeqOp (t : Term) : Nar.retImplSeqOp (ρ.term t) = (Nar.retImplSeqOp t).map ρ.term := by
  cases t with
  | Stmt c s p =>
    cases c <;> try rfl
    cases s <;> try rfl
    simp only [term, Nar.retImplSeqOp, terms_map]
    exact indexAt_ren _ _ _
  | _ => rfl

theorem retSeqLast (t : Term) : Nar.retSeqLast (ρ.term t) = (Nar.retSeqLast t).map ρ.term := by
  cases t with
  | Seq ts =>
    simp only [term, Nar.retSeqLast, terms_map, List.getLast?_map]
    cases ts.getLast? <;> rfl
  | _ => rfl

theorem retSeqCond (t : Term) : Nar.retSeqCond (ρ.term t) = (Nar.retSeqCond t).map ρ.term := by
  cases t with
  | Stmt c s p =>
    cases c <;> try rfl
    cases s <;> try rfl
    simp only [term, Nar.retSeqCond, terms_map]
    exact indexAt_ren _ _ _
  | _ => rfl

theorem retSeqCond2 (t : Term) : Nar.retSeqCond2 (ρ.term t) = (Nar.retSeqCond2 t).map ρ.term := by
  cases t with
  | Seq ts =>
    simp only [term, Nar.retSeqCond2, terms_map]
    exact indexAt_ren _ _ _
  | _ => rfl

theorem isSeq (t : Term) : Nar.isSeq (ρ.term t) = Nar.isSeq t := by cases t <;> rfl

theorem isSeqAndLastOp (t : Term) : Nar.isSeqAndLastOp (ρ.term t) = Nar.isSeqAndLastOp t := by
  cases t with
  | Seq ts =>
    simp only [term, Nar.isSeqAndLastOp, terms_map, List.getLast?_map]
    cases ts.getLast? with
    | none => rfl
    | some t => simp only [Option.map_some, decode_isSome]
  | _ => rfl

theorem name_eq (a b : String) : (ρ.name a == ρ.name b) = (a == b) := by
  rw [Bool.eq_iff_iff, beq_iff_eq, beq_iff_eq]
  exact ⟨ρ.name_inj a b, fun h => by rw [h]⟩

theorem opByName (ops : List Op) (n : String) : retOpByName (ops.map ρ.op) (ρ.name n) = (retOpByName ops n).map ρ.op :=
  find?_ren (fun o => ρ.name_eq o.name n) ops

theorem callable (ops : List Op) (t : Term) : checkIsCallableOp (ops.map ρ.op) (ρ.term t) = checkIsCallableOp ops t := by
  unfold checkIsCallableOp
  rw [decode]
  cases decodeOp t with
  | none => rfl
  | some r => exact any_ren (fun o => ρ.name_eq o.name r.2) ops

/-! ## evidence -/

theorem addEvidenceInternal (m : PMem) (s : Sentence) (n : Nat) (now : Int) :
    memAddEvidenceInternal (ρ.pmem m) (ρ.sentence s) n now = (memAddEvidenceInternal m s n now).map ρ.pmem := by
  unfold memAddEvidenceInternal
  refine R.bind_rel (ρ.retSeqCond s.term) fun c => R.bind_rel (ρ.retPred s.term) fun p => ?_
  rw [subterms, subterms, ← List.map_append]
  exact ρ.storeInConcepts2P m s _ n now

theorem cntOf (s : Sentence) : Nar.cntOf (ρ.sentence s) = Nar.cntOf s := rfl

theorem supports (b s : Sentence) : Nar.supports (ρ.sentence b) (ρ.sentence s) = Nar.supports b s := by
  unfold Nar.supports
  simp only [sentence, ρ.checkEq]

theorem reviseCell (b s : Sentence) : Nar.reviseCell (ρ.sentence b) (ρ.sentence s) = (Nar.reviseCell b s).map ρ.sentence := by
  unfold Nar.reviseCell
  rw [cntOf, cntOf, R.map_of_bind]
  refine R.bind_same fun _ => ?_
  rw [R.map_of_bind]
  exact R.bind_same fun _ => rfl

theorem workerVisit (s : Sentence) (st : List Sentence × Bool) (r : Nat) :
    Nar.workerVisit (ρ.sentence s) (ρ.heapRes st) r = (Nar.workerVisit s st r).map ρ.heapRes := by
  unfold Nar.workerVisit
  refine R.bind_rel (indexAt_ren ρ.sentence st.1 r) fun b => ?_
  rw [supports, R.map_of_bind]
  refine R.bind_same fun sup => ?_
  cases sup with
  | false => rfl
  | true =>
    refine R.bind_rel (ρ.reviseCell b s) fun b' => ?_
    simp only [heapRes, Except.map, List.map_set]

theorem workerVisits (s : Sentence) (l : List Nat) (st : List Sentence × Bool) :
    Nar.workerVisits (ρ.sentence s) l (ρ.heapRes st) = (ρ.heapRes (Nar.workerVisits s l st).1, (Nar.workerVisits s l st).2) := by
  induction l generalizing st with
  | nil => rfl
  | cons r l ih =>
    simp only [Nar.workerVisits, workerVisit]
    cases Nar.workerVisit s st r with
    | error e => rfl
    | ok st => exact ih st

theorem condAndPred (t : Term) : Nar.condAndPred (ρ.term t) = (Nar.condAndPred t).map fun p => (ρ.term p.1, ρ.term p.2) := by
  unfold Nar.condAndPred
  exact R.bind_rel (ρ.retSeqCond t) fun c => R.bind_rel (ρ.retPred t) fun p => rfl

section
variable (hv : ∀ v, ρ.var v = v)
include hv

theorem addEvidence (m : PMem) (s : Sentence) (n : Nat) (now : Int) (rng : List Nat) :
    memAddEvidence (ρ.pmem m) (ρ.sentence s) n now rng = (memAddEvidence m s n now rng).map ρ.pmem := by
  unfold memAddEvidence
  refine R.bind_rel (ρ.addEvidenceInternal m s n now) fun m => R.bind_rel (ρ.matchVarS hv s rng) fun r => ?_
  exact foldlM_rel (fun m i => ρ.addEvidenceInternal m i n now) _ m

theorem workerAdd (m : PMem) (s : Sentence) (n : Nat) (now : Int) (rng : List Nat) :
    Nar.workerAdd (ρ.pmem m) (ρ.sentence s) n now rng = (ρ.pmem (Nar.workerAdd m s n now rng).1, (Nar.workerAdd m s n now rng).2) := by
  unfold Nar.workerAdd
  rw [addEvidenceInternal]
  cases memAddEvidenceInternal m s n now with
  | error e => rfl
  | ok m1 =>
    simp only [Except.map, ρ.matchVarS hv]
    cases matchandintroVar1Sentence s rng with
    | error e => rfl
    | ok r =>
      simp only [Except.map, sentsRes]
      have := foldlM_rel (g := ρ.pmem) (f := ρ.sentence) (k := fun m i => memAddEvidenceInternal m i n now)
        (k' := fun m i => memAddEvidenceInternal m i n now) (fun m i => ρ.addEvidenceInternal m i n now) r.1 m1
      simp only [this]
      cases r.1.foldlM (fun m i => memAddEvidenceInternal m i n now) m1 <;> rfl

theorem workerStore (m : PMem) (s : Sentence) (now : Int) (n : Nat) (rng : List Nat) :
    Nar.workerStore (ρ.pmem m) (ρ.sentence s) now n rng =
      (ρ.pmem (Nar.workerStore m s now n rng).1, (Nar.workerStore m s now n rng).2) := by
  unfold Nar.workerStore
  rw [show (ρ.sentence s).term = ρ.term s.term from rfl, condAndPred]
  cases Nar.condAndPred s.term with
  | error e => rfl
  | ok cp =>
    obtain ⟨c, p⟩ := cp
    simp only [Except.map]
    have e := ρ.beliefsByTerms m [c, p]
    simp only [List.map_cons, List.map_nil] at e
    have e2 := ρ.workerVisits s (retBeliefsByTermsNonuniqueP m [c, p]) (m.heap, true)
    simp only [heapRes] at e2
    rw [e, show (ρ.pmem m).heap = m.heap.map ρ.sentence from rfl, e2]
    obtain ⟨⟨heap, b⟩, er⟩ := Nar.workerVisits s (retBeliefsByTermsNonuniqueP m [c, p]) (m.heap, true)
    cases er with
    | some e => rfl
    | none => cases b with
      | false => rfl
      | true => exact ρ.workerAdd hv { m with heap := heap } s n now rng

theorem workerStep (p : Proc) (rng : List Nat) : Nar.workerStep (ρ.proc p) rng = ρ.proc (Nar.workerStep p rng) := by
  unfold Nar.workerStep
  rw [show (ρ.proc p).workerAlive = p.workerAlive from rfl]
  split
  · rw [show (ρ.proc p).queue = p.queue.map fun m => (ρ.sentence m.1, m.2) from rfl]
    cases hq : p.queue with
    | nil => simp only [List.map_nil]
    | cons m rest =>
      simp only [List.map_cons]
      rw [show (ρ.proc p).mem = ρ.pmem p.mem from rfl, show (ρ.proc p).nConceptBeliefs = p.nConceptBeliefs from rfl, ρ.workerStore hv]
      rfl
  · rfl

end

/-! ## perception -/

theorem traceLimit (l : List Event) : Nar.traceLimit (l.map ρ.event) = (Nar.traceLimit l).map ρ.event := by
  unfold Nar.traceLimit
  rw [List.length_map]
  split
  · rw [List.map_drop]
  · rfl

theorem lastEvents (l : List Event) : retLastEvents (l.map ρ.event) = (retLastEvents l).map (List.map ρ.event) := by
  unfold retLastEvents
  rw [List.getLast?_map]
  cases l.getLast? <;> rfl

theorem idxsOfOps (ops : List Op) (l : List Event) : calcIdxsOfOps (ops.map ρ.op) (l.map ρ.event) = calcIdxsOfOps ops l := by
  unfold calcIdxsOfOps
  rw [List.zipIdx_map, filter_ren (p := fun ei => checkIsCallableOp ops ei.1.name) (fun ei => ρ.callable ops ei.1.name), List.map_map]
  rfl

theorem tryBuild (ops : List Op) (l : List Term) :
    tryBuildImplSeq (ops.map ρ.op) (l.map ρ.term) = (tryBuildImplSeq ops l).map (Option.map ρ.term) := by
  unfold tryBuildImplSeq
  cases l with
  | nil => rfl
  | cons a l =>
    simp only [List.map_cons, List.getLast?_map]
    cases l.getLast? with
    | none => rfl
    | some z =>
      simp only [Option.map_some, ← List.map_dropLast, List.length_map]
      split
      · rfl
      · rw [all_ren (p := checkIsCallableOp ops) (ρ.callable ops), callable, callable, ρ.checkEq]
        split
        · simp only [Except.map, Option.map_some, term, terms, terms_map]
        · rfl

theorem lastIdx (p : Proc) (mx prev : Nat) : Nar.lastIdx (ρ.proc p) mx prev = Nar.lastIdx p mx prev := by
  unfold Nar.lastIdx
  rw [show (ρ.proc p).trace = p.trace.map ρ.event from rfl, List.length_map, indexAt_ren, R.bind_of_map]
  refine R.bind_same fun e => R.bind_same fun d => ?_
  rw [show (ρ.proc p).ops = p.ops.map ρ.op from rfl, show (ρ.event e).name = ρ.term e.name from rfl, callable]

theorem eviCntOf (ops : List Op) (t : Term) : Nar.eviCntOf (ops.map ρ.op) (ρ.term t) = Nar.eviCntOf ops t := by
  unfold Nar.eviCntOf
  rw [retImplSeqOp, R.bind_of_map]
  refine R.bind_same fun o => ?_
  rw [decode, unwrap_ren, R.bind_of_map]
  refine R.bind_same fun r => ?_
  simp only [opByName]
  cases retOpByName ops r.2 <;> rfl

theorem evidenceOf (p : Proc) (items : List Event) :
    Nar.evidenceOf (ρ.proc p) (items.map ρ.event) = (Nar.evidenceOf p items).map (Option.map ρ.sentence) := by
  unfold Nar.evidenceOf
  have e : (items.map ρ.event).map (·.name) = (items.map (·.name)).map ρ.term := by rw [List.map_map, List.map_map]; rfl
  rw [e, show (ρ.proc p).ops = p.ops.map ρ.op from rfl]
  refine R.bind_rel (ρ.tryBuild p.ops _) fun c => ?_
  cases c with
  | none => rfl
  | some c =>
    simp only [Option.map_some, List.length_map]
    refine R.bind_rel (indexAt_ren ρ.event items _) fun a => R.bind_rel (indexAt_ren ρ.event items _) fun b => ?_
    rw [eviCntOf, R.map_of_bind]
    refine R.bind_same fun n => ?_
    have e2 : (items.map ρ.event).map (·.evi) = items.map (·.evi) := by rw [List.map_map]; rfl
    simp only [e2]
    rfl

theorem selectItems (p : Proc) (d : SampleDraws) :
    Nar.selectItems (ρ.proc p) d = (Nar.selectItems p d).map (Option.map (List.map ρ.event)) := by
  unfold Nar.selectItems
  simp only [show (ρ.proc p).ops = p.ops.map ρ.op from rfl, show (ρ.proc p).trace = p.trace.map ρ.event from rfl, idxsOfOps, lastIdx]
  split
  · rfl
  · rw [show nSelOps (ρ.proc p) = nSelOps p from rfl, R.map_of_bind]
    refine R.bind_same fun sel => ?_
    rw [R.map_of_bind]; refine R.bind_same fun mn => ?_
    rw [R.map_of_bind]; refine R.bind_same fun mx => ?_
    split
    · rfl
    · rw [R.map_of_bind]; refine R.bind_same fun a => ?_
      rw [R.map_of_bind]; refine R.bind_same fun b => ?_
      exact R.bind_rel (mapM_same (fun i => indexAt_ren ρ.event p.trace i) _) fun items => rfl

theorem sendToWorker (p : Proc) (s : Sentence) : Nar.sendToWorker (ρ.proc p) (ρ.sentence s) = (Nar.sendToWorker p s).map ρ.proc := by
  unfold Nar.sendToWorker
  rw [show (ρ.proc p).workerAlive = p.workerAlive from rfl]
  split
  · simp only [Except.map, proc, List.map_append, List.map_cons, List.map_nil]
  · rfl

theorem perceiveSample (p : Proc) (d : SampleDraws) : Nar.perceiveSample (ρ.proc p) d = (Nar.perceiveSample p d).map ρ.proc := by
  unfold Nar.perceiveSample
  refine R.bind_rel (ρ.selectItems p d) fun items => ?_
  cases items with
  | none => rfl
  | some items =>
    refine R.bind_rel (ρ.evidenceOf p items) fun s => ?_
    cases s with
    | none => rfl
    | some s => exact ρ.sendToWorker p s

theorem satisfyLast (p : Proc) : Nar.satisfyLast (ρ.proc p) = ρ.goals (Nar.satisfyLast p) := by
  unfold Nar.satisfyLast
  rw [show (ρ.proc p).trace = p.trace.map ρ.event from rfl, List.getLast?_map]
  cases p.trace.getLast? with
  | none => rfl
  | some e => exact ρ.eventOccurred p.goals e.name

theorem traceStep (p : Proc) (draws : Nat → SampleDraws) : Nar.traceStep (ρ.proc p) draws = (Nar.traceStep p draws).map ρ.proc := by
  unfold Nar.traceStep
  rw [satisfyLast, show (ρ.proc p).trace = p.trace.map ρ.event from rfl, List.length_map]
  split
  · exact foldlM_same (g := ρ.proc) (k := fun p i => Nar.perceiveSample p (draws i)) (k' := fun p i => Nar.perceiveSample p (draws i))
      (fun p i => ρ.perceiveSample p (draws i)) _ { p with goals := Nar.satisfyLast p }
  · rfl

theorem recentEvent (l : List Event) (i : Nat) : Nar.recentEvent (l.map ρ.event) i = (Nar.recentEvent l i).map ρ.event := by
  unfold Nar.recentEvent
  rw [List.length_map]
  split
  · rw [List.getElem?_map]
  · rfl

theorem confirm (p : Proc) (as : List Anticipation) (i : Nat) : Nar.confirm (ρ.proc p) as i = Nar.confirm p as i := by
  unfold Nar.confirm
  rw [show (ρ.proc p).trace = p.trace.map ρ.event from rfl, recentEvent]
  cases Nar.recentEvent p.trace i with
  | none => rfl
  | some e =>
    refine filterR_same ?_ as
    intro a
    rw [show (ρ.proc p).mem.heap = p.mem.heap.map ρ.sentence from rfl, indexAt_ren, R.bind_of_map]
    refine R.bind_same fun b => ?_
    rw [show (ρ.sentence b).term = ρ.term b.term from rfl, retPred, R.bind_of_map]
    refine R.bind_same fun pr => ?_
    rw [show (ρ.event e).name = ρ.term e.name from rfl, ρ.checkEq]

theorem negConfirm (heap : List Sentence) (a : Anticipation) :
    Nar.negConfirm (heap.map ρ.sentence) a = (Nar.negConfirm heap a).map (List.map ρ.sentence) := by
  unfold Nar.negConfirm
  refine R.bind_rel (indexAt_ren ρ.sentence heap _) fun b => ?_
  rw [cntOf, R.map_of_bind]
  refine R.bind_same fun _ => ?_
  simp only [Except.map, List.map_set]
  rfl

theorem narStep0 (p : Proc) (draws : Nat → SampleDraws) : Nar.narStep0 (ρ.proc p) draws = (Nar.narStep0 p draws).map ρ.proc := by
  unfold Nar.narStep0
  have e : Nar.confirm (ρ.proc p) = Nar.confirm p := by funext as i; exact ρ.confirm p as i
  rw [e, R.map_of_bind]
  refine R.bind_same fun as => ?_
  refine R.bind_rel (f := List.map ρ.sentence) ?_ fun heap => ?_
  · exact foldlM_same (fun h a => ρ.negConfirm h a) _ p.mem.heap
  · exact ρ.traceStep { p with mem := { p.mem with heap := heap }, anticipated := as.filter fun a => decide (a.deadline > p.t) } draws

/-! ## decisions -/

def best (b : BestEntry) : BestEntry := { b with unifiedSeq := ρ.term b.unifiedSeq }
def bests {α} (r : Option BestEntry × α) : Option BestEntry × α := (r.1.map ρ.best, r.2)

theorem better (o : Option BestEntry) (b : BestEntry) : Nar.better (o.map ρ.best) (ρ.best b) = (Nar.better o b).map ρ.best := by
  cases o with
  | none => rfl
  | some a =>
    simp only [Option.map_some, Nar.better]
    rw [show (ρ.best b).exp = b.exp from rfl, show (ρ.best a).exp = a.exp from rfl]
    split <;> rfl

theorem bestByState (p : Proc) (o : Option BestEntry) (i : Nat) :
    Nar.bestByState (ρ.proc p) (o.map ρ.best) i = (Nar.bestByState p o i).map (Option.map ρ.best) := by
  unfold Nar.bestByState
  rw [show (ρ.proc p).trace = p.trace.map ρ.event from rfl, recentEvent]
  cases Nar.recentEvent p.trace i with
  | none => rfl
  | some e =>
    refine R.bind_rel (ρ.selHighest p.goals e.name) fun r => ?_
    obtain ⟨ex, f⟩ := r
    cases f with
    | none => rfl
    | some f => exact congrArg Except.ok (ρ.better o { unifiedSeq := f.2, exp := ex, evidence := f.1.evidence })

def carried (r : Term × Tv × Option Term) : Term × Tv × Option Term := (ρ.term r.1, r.2.1, r.2.2.map ρ.term)

theorem carryBack (heap : List Sentence) (st : Term × Tv × Option Term) (r : Nat) :
    Nar.carryBack (heap.map ρ.sentence) (ρ.carried st) r = (Nar.carryBack heap st r).map ρ.carried := by
  unfold Nar.carryBack
  refine R.bind_rel (indexAt_ren ρ.sentence heap r) fun b => ?_
  refine R.bind_rel (ρ.infGoalBelief (newEternalSentenceByTv st.1 .GOAL st.2.1 ⟨[-1]⟩) b) fun c => ?_
  rw [unwrap_ren]
  refine R.bind_rel rfl fun c => ?_
  rw [retTv, R.map_of_bind]; refine R.bind_same fun tv => ?_
  rw [R.map_of_bind]; refine R.bind_same fun tv => ?_
  exact R.bind_rel (ρ.retSeqCond2 c.term) fun cond => rfl

theorem decidePredicted (heap : List Sentence) (t : Term) (hit : Entry) (chain : List Nat) (o : Option BestEntry) :
    Nar.decidePredicted (heap.map ρ.sentence) (ρ.term t) (ρ.goal hit) chain (o.map ρ.best) =
      (Nar.decidePredicted heap t hit chain o).map (Option.map ρ.best) := by
  unfold Nar.decidePredicted
  rw [show (ρ.goal hit).sentence = ρ.sentence hit.sentence from rfl, retTv, R.map_of_bind]; refine R.bind_same fun tv => ?_
  rw [R.map_of_bind]; refine R.bind_same fun tv => ?_
  refine R.bind_rel (foldlM_same (fun st r => ρ.carryBack heap st r) chain.reverse (t, tv, none)) fun r => ?_
  obtain ⟨a, tv, u⟩ := r
  cases u with
  | none => rfl
  | some u =>
    simp only [carried, Option.map_some]
    rw [R.map_of_bind]; refine R.bind_same fun first => ?_
    rw [printTerm, R.map_of_bind]; refine R.bind_same fun _ => ?_
    exact congrArg Except.ok (ρ.better o { unifiedSeq := u, exp := Tv.calcExp tv, evidence := some first })

theorem predict (p : Proc) (n : Nat) (t : Term) (chain : List Nat) (o : Option BestEntry) (rng : List Nat) :
    Nar.predict (ρ.proc p) n (ρ.term t) chain (o.map ρ.best) rng = (Nar.predict p n t chain o rng).map ρ.bests := by
  induction n generalizing t chain o rng with
  | zero => rfl
  | succ n ih =>
    simp only [Nar.predict]
    have e : (if chain.length > 0 then Nar.goalQuery (ρ.proc p).goals (ρ.term t) else none) =
        (if chain.length > 0 then Nar.goalQuery p.goals t else none).map ρ.goal := by
      split
      · exact ρ.goalQuery p.goals t
      · rfl
    rw [e]
    cases (if chain.length > 0 then Nar.goalQuery p.goals t else none) with
    | some hit =>
      simp only [Option.map_some]
      exact R.bind_rel (ρ.decidePredicted p.mem.heap t hit chain o) fun b => rfl
    | none =>
      simp only [Option.map_none]
      rw [show (ρ.proc p).mem = ρ.pmem p.mem from rfl, byAntecedent, R.map_of_bind]
      refine R.bind_same fun found => ?_
      split
      · rfl
      · rw [R.map_of_bind]; refine R.bind_same fun i => ?_
        rw [R.map_of_bind]; refine R.bind_same fun r => ?_
        refine R.bind_rel (indexAt_ren ρ.sentence p.mem.heap r) fun b => R.bind_rel (ρ.retPred b.term) fun pr => ih _ _ _ _

theorem predictAll (p : Proc) (o : Option BestEntry) (rng : List Nat) :
    Nar.predictAll (ρ.proc p) (o.map ρ.best) rng = (Nar.predictAll p o rng).map ρ.bests := by
  unfold Nar.predictAll
  rw [show (ρ.proc p).trace = p.trace.map ρ.event from rfl, lastEvents]
  cases retLastEvents p.trace with
  | none => rfl
  | some evs =>
    exact foldlM_rel (g := ρ.bests) (f := ρ.event) (k := fun st ev => Nar.predict p 3 ev.name [] st.1 st.2)
      (k' := fun st ev => Nar.predict (ρ.proc p) 3 ev.name [] st.1 st.2) (fun st ev => ρ.predict p 3 ev.name [] st.1 st.2) evs (o, rng)

theorem adoptBest (p : Proc) (o : Option BestEntry) : Nar.adoptBest (ρ.proc p) (o.map ρ.best) = (Nar.adoptBest p o).map ρ.proc := by
  unfold Nar.adoptBest
  cases o with
  | none => rfl
  | some b =>
    simp only [Option.map_some, best, show (ρ.proc p).threshold = p.threshold from rfl]
    split
    · cases b.evidence with
      | none => rfl
      | some ev =>
        simp only [printTerm, isSeq, isSeqAndLastOp]
        rw [R.map_of_bind]; refine R.bind_same fun _ => ?_
        rw [R.map_of_bind]; refine R.bind_same fun _ => ?_
        rw [R.map_of_bind]; refine R.bind_same fun _ => ?_
        rw [R.map_of_bind]; refine R.bind_same fun _ => ?_
        refine R.bind_rel (ρ.retSeqLast b.unifiedSeq) fun o => R.bind_rel (indexAt_ren ρ.sentence p.mem.heap ev) fun pk => ?_
        rw [show (ρ.sentence pk).term = ρ.term pk.term from rfl, printTerm, R.map_of_bind]; refine R.bind_same fun _ => ?_
        rw [retTv, R.map_of_bind]; refine R.bind_same fun _ => ?_
        rw [R.map_of_bind]; refine R.bind_same fun tv => ?_
        rw [printTerm, R.map_of_bind]; refine R.bind_same fun _ => ?_
        exact R.bind_rel (ρ.addEntry p.goals p.t (newEternalSentenceByTv o .GOAL tv pk.stamp) (some ev) 0) fun g => rfl
    · rfl

def indexed (r : Entry × Nat) : Entry × Nat := (ρ.goal r.1, r.2)
def active (r : Rat × Option (Entry × Nat)) : Rat × Option (Entry × Nat) := (r.1, r.2.map ρ.indexed)

theorem bestActiveStep (th : Rat) (st : Rat × Option (Entry × Nat)) (e : Entry × Nat) :
    Nar.bestActiveStep th (ρ.active st) (ρ.indexed e) = (Nar.bestActiveStep th st e).map ρ.active := by
  unfold Nar.bestActiveStep
  rw [show isDesired (ρ.indexed e).1 = isDesired e.1 from rfl]
  split
  · rw [show (ρ.indexed e).1.sentence = ρ.sentence e.1.sentence from rfl, expOf, R.map_of_bind]
    refine R.bind_same fun ex => ?_
    simp only [show (ρ.active st).1 = st.1 from rfl]
    split <;> rfl
  · rfl

theorem bestActive (p : Proc) : Nar.bestActive (ρ.proc p) = (Nar.bestActive p).map (Option.map ρ.indexed) := by
  unfold Nar.bestActive
  have e : (ρ.proc p).goals.activeSet.zipIdx = p.goals.activeSet.zipIdx.map ρ.indexed := by
    show (p.goals.activeSet.map ρ.goal).zipIdx = _
    rw [List.zipIdx_map]
    rfl
  rw [e]
  exact R.bind_rel (foldlM_rel (fun st e => ρ.bestActiveStep p.threshold st e) _ (0, none)) fun r => rfl

def picked {α} (r : α × Option Term) : α × Option Term := (r.1, r.2.map ρ.term)
def acted (r : Proc × Option Term) : Proc × Option Term := (ρ.proc r.1, r.2.map ρ.term)

theorem deadlineOf (p : Proc) (s : Sentence) : Nar.deadlineOf (ρ.proc p) (ρ.sentence s) = Nar.deadlineOf p s := rfl

theorem pickAction (p : Proc) (o : Option (Entry × Nat)) : Nar.pickAction (ρ.proc p) (o.map ρ.indexed) = (Nar.pickAction p o).map ρ.acted := by
  unfold Nar.pickAction
  cases o with
  | none => rfl
  | some e =>
    obtain ⟨e, i⟩ := e
    simp only [Option.map_some, indexed]
    rw [show (ρ.goal e).evidence = e.evidence from rfl]
    cases e.evidence with
    | none => rfl
    | some ev =>
      rw [show (ρ.goal e).sentence.term = ρ.term e.sentence.term from rfl, decode]
      cases decodeOp e.sentence.term with
      | none => rfl
      | some _ =>
        simp only [Option.map_some]
        refine R.bind_rel (indexAt_ren ρ.sentence p.mem.heap ev) fun pk => ?_
        rw [deadlineOf, R.map_of_bind]
        refine R.bind_same fun dl => ?_
        simp only [Except.map, acted, proc, goals, Option.map_some]
        rw [eraseIdx_ren]
        rfl

def babbled (r : Option Term × List Nat) : Option Term × List Nat := (r.1.map ρ.term, r.2)

theorem babble (hself : ρ.name "SELF" = "SELF") (p : Proc) (o : Option Term) (rng : List Nat) :
    Nar.babble (ρ.proc p) (o.map ρ.term) rng = (Nar.babble p o rng).map ρ.babbled := by
  unfold Nar.babble
  cases o with
  | some a => rfl
  | none =>
    simp only [Option.map_none, show (ρ.proc p).enBabbling = p.enBabbling from rfl, show (ρ.proc p).ops = p.ops.map ρ.op from rfl,
      List.length_map, List.getElem?_map]
    split
    · rw [R.map_of_bind]
      refine R.bind_same fun d => ?_
      cases p.ops[d.1]? with
      | none => rfl
      | some o =>
        simp only [Option.map_some]
        rw [show (ρ.op o).babbleable = o.babbleable from rfl]
        split
        · simp only [Except.map, babbled, Option.map_some, encodeOp, selfTerm, term, terms, hself]
          rfl
        · rfl
    · rfl

theorem execute {call call' : Call} (hc : ∀ n args p, call' (ρ.name n) (args.map ρ.term) (ρ.proc p) = (call n args p).map ρ.proc)
    (p : Proc) (o : Option Term) : Nar.execute call' (ρ.proc p) (o.map ρ.term) = (Nar.execute call p o).map ρ.acted := by
  unfold Nar.execute
  cases o with
  | none => rfl
  | some t =>
    simp only [Option.map_some]
    rw [decode, unwrap_ren]
    refine R.bind_rel rfl fun r => ?_
    obtain ⟨args, n⟩ := r
    simp only [show (ρ.proc p).ops = p.ops.map ρ.op from rfl, opByName]
    cases retOpByName p.ops n with
    | none => rfl
    | some o =>
      simp only [Option.map_some]
      refine R.bind_rel (hc n args p) fun p1 => ?_
      rw [printTerm, R.map_of_bind]
      refine R.bind_same fun _ => ?_
      simp only [Except.map, acted, eventHappened, proc, List.map_append, List.map_cons, List.map_nil, Option.map_some]
      rfl

theorem limitAll (decay : Int → Rat) (p : Proc) : Nar.limitAll decay (ρ.proc p) = (Nar.limitAll decay p).map ρ.proc := by
  unfold Nar.limitAll
  refine R.bind_rel (f := ρ.pmem) ?_ fun m => R.bind_rel (f := ρ.goals) ?_ fun g => ?_
  · unfold limitMem
    rw [show (ρ.proc p).t = p.t from rfl]
    split
    · exact ρ.limitMemoryP p.mem p.nConcepts
    · rfl
  · unfold limitGoals
    rw [show (ρ.proc p).t = p.t from rfl]
    split
    · exact ρ.goalLimitMemory decay p.goals p.t
    · rfl
  · simp only [show (ρ.proc p).trace = p.trace.map ρ.event from rfl, traceLimit]
    rfl

theorem inferGoals (p : Proc) (infs : List (Rat × Rat × List Nat)) : Nar.inferGoals (ρ.proc p) infs = (Nar.inferGoals p infs).map ρ.proc := by
  unfold Nar.inferGoals
  exact R.bind_rel (foldlM_same (α := Rat × Rat × List Nat) (g := ρ.goals) (k := fun g d => Nar.sampleAndInference g p.t p.mem d.1 d.2.1 d.2.2)
    (k' := fun g d => Nar.sampleAndInference g p.t (ρ.pmem p.mem) d.1 d.2.1 d.2.2)
    (fun g d => ρ.sampleAndInference g p.t p.mem d.1 d.2.1 d.2.2) infs p.goals) fun g => rfl

def decided (r : Proc × Option Term × List Nat) : Proc × Option Term × List Nat := (ρ.proc r.1, r.2.1.map ρ.term, r.2.2)

theorem decideAction (hself : ρ.name "SELF" = "SELF") (p : Proc) (rng : List Nat) :
    Nar.decideAction (ρ.proc p) rng = (Nar.decideAction p rng).map ρ.decided := by
  unfold Nar.decideAction
  refine R.bind_rel (foldlM_same (fun b i => ρ.bestByState p b i) (List.range p.perceptWindow) none) fun b => ?_
  refine R.bind_rel (ρ.predictAll p b rng) fun r => R.bind_rel (ρ.adoptBest p r.1) fun p1 => ?_
  refine R.bind_rel (ρ.bestActive p1) fun a => R.bind_rel (ρ.pickAction p1 a) fun q => ?_
  exact R.bind_rel (ρ.babble hself q.1 q.2 r.2) fun b => rfl

theorem narStep1 (hself : ρ.name "SELF" = "SELF") {call call' : Call}
    (hc : ∀ n args p, call' (ρ.name n) (args.map ρ.term) (ρ.proc p) = (call n args p).map ρ.proc)
    (decay : Int → Rat) (p : Proc) (rng : List Nat) (infs : List (Rat × Rat × List Nat)) :
    Nar.narStep1 call' decay (ρ.proc p) rng infs = (Nar.narStep1 call decay p rng infs).map ρ.acted := by
  unfold Nar.narStep1
  refine R.bind_rel (ρ.decideAction hself p rng) fun d => R.bind_rel (ρ.execute hc d.1 d.2.1) fun e => ?_
  exact R.bind_rel (ρ.limitAll decay e.1) fun p1 => R.bind_rel (ρ.inferGoals p1 infs) fun p2 => rfl

theorem inputEvent (p : Proc) (t : Term) : Nar.inputEvent (ρ.proc p) (ρ.term t) = ρ.proc (Nar.inputEvent p t) := by
  simp only [Nar.inputEvent, eventHappened, proc, List.map_append, List.map_cons, List.map_nil, event]

theorem inputGoal (p : Proc) (t : Term) (tv : Tv) (id : Int) : Nar.inputGoal (ρ.proc p) (ρ.term t) tv id = (Nar.inputGoal p t tv id).map ρ.proc := by
  unfold Nar.inputGoal
  exact R.bind_rel (ρ.addEntry p.goals p.t (newEternalSentenceByTv t .GOAL tv ⟨[id]⟩) none 0) fun g => rfl

theorem inputRule (hv : ∀ v, ρ.var v = v) (p : Proc) (t : Term) (tv : Tv) (id : Int) (n : Nat) (rng : List Nat) :
    Nar.inputRule (ρ.proc p) (ρ.term t) tv id n rng = (Nar.inputRule p t tv id n rng).map ρ.proc := by
  unfold Nar.inputRule
  exact R.bind_rel (ρ.addEvidence hv p.mem { newEternalSentenceByTv t .JUGEMENT tv ⟨[id]⟩ with evi := some (.CNT 10 10) } n p.t rng) fun m => rfl

theorem procStepOp (hv : ∀ v, ρ.var v = v) (hself : ρ.name "SELF" = "SELF") {call call' : Call}
    (hc : ∀ n args p, call' (ρ.name n) (args.map ρ.term) (ρ.proc p) = (call n args p).map ρ.proc)
    (decay : Int → Rat) (p : Proc) (o : ProcOp) : (ρ.procOp o).run call' decay (ρ.proc p) = (o.run call decay p).map ρ.proc := by
  cases o with
  | event t => exact congrArg Except.ok (ρ.inputEvent p t)
  | goal t tv id => exact ρ.inputGoal p t tv id
  | rule t tv id n rng => exact ρ.inputRule hv p t tv id n rng
  | step0 draws => exact ρ.narStep0 p draws
  | step1 rng infs =>
    simp only [procOp, ProcOp.run]
    rw [ρ.narStep1 hself hc]
    cases Nar.narStep1 call decay p rng infs <;> rfl
  | worker rng => exact congrArg Except.ok (ρ.workerStep hv p rng)
  | flush => rfl

theorem runProc (hv : ∀ v, ρ.var v = v) (hself : ρ.name "SELF" = "SELF") {call call' : Call}
    (hc : ∀ n args p, call' (ρ.name n) (args.map ρ.term) (ρ.proc p) = (call n args p).map ρ.proc)
    (decay : Int → Rat) (p : Proc) (ops : List ProcOp) :
    Nar.runProc call' decay (ρ.proc p) (ops.map ρ.procOp) = (Nar.runProc call decay p ops).map ρ.proc :=
  foldlM_rel (fun p o => ρ.procStepOp hv hself hc decay p o) ops p

end Renaming
end Nar
