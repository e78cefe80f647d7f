import Verif.Lemmas.Later2
/-! # Later: the steps of the procedural reasoner -/
namespace Nar
open Term

namespace Delay
variable (δ : Delay)

/-! ## evidence -/

theorem addEvidenceInternal (m : PMem) (s : Sentence) (n : Nat) (now : Int) :
    memAddEvidenceInternal (δ.pmem m) (δ.sentence s) n now = (memAddEvidenceInternal m s n now).map δ.pmem := by
  unfold memAddEvidenceInternal
  rw [show (δ.sentence s).term = s.term from rfl, R.map_of_bind]
  refine R.bind_same fun c => ?_
  rw [R.map_of_bind]
  exact R.bind_same fun p => δ.storeInConcepts2P m s _ n now

theorem reviseCell (b s : Sentence) : Nar.reviseCell (δ.sentence b) (δ.sentence s) = (Nar.reviseCell b s).map δ.sentence := by
  unfold Nar.reviseCell
  rw [show Nar.cntOf (δ.sentence b) = Nar.cntOf b from rfl, show Nar.cntOf (δ.sentence s) = Nar.cntOf s from rfl,
    show (δ.sentence b).stamp = δ.stamp b.stamp from rfl, show (δ.sentence s).stamp = δ.stamp s.stamp from rfl, merge, R.map_of_bind]
  refine R.bind_same fun _ => ?_
  rw [R.map_of_bind]
  exact R.bind_same fun _ => rfl

theorem supports (b s : Sentence) : Nar.supports (δ.sentence b) (δ.sentence s) = Nar.supports b s := by
  unfold Nar.supports
  rw [show (δ.sentence b).stamp = δ.stamp b.stamp from rfl, show (δ.sentence s).stamp = δ.stamp s.stamp from rfl, overlap]
  rfl

theorem workerVisit (s : Sentence) (st : List Sentence × Bool) (r : Nat) :
    Nar.workerVisit (δ.sentence s) (δ.heapRes st) r = (Nar.workerVisit s st r).map δ.heapRes := by
  unfold Nar.workerVisit
  refine R.bind_rel (indexAt_ren δ.sentence st.1 r) fun b => ?_
  rw [supports, R.map_of_bind]
  refine R.bind_same fun sup => ?_
  cases sup with
  | false => rfl
  | true =>
    refine R.bind_rel (δ.reviseCell b s) fun b' => ?_
    simp only [heapRes, Except.map, List.map_set]

theorem workerVisits (s : Sentence) (l : List Nat) (st : List Sentence × Bool) :
    Nar.workerVisits (δ.sentence s) l (δ.heapRes st) = (δ.heapRes (Nar.workerVisits s l st).1, (Nar.workerVisits s l st).2) := by
  induction l generalizing st with
  | nil => rfl
  | cons r l ih =>
    simp only [Nar.workerVisits, workerVisit]
    cases Nar.workerVisit s st r with
    | error e => rfl
    | ok st => exact ih st

theorem addEvidence (m : PMem) (s : Sentence) (n : Nat) (now : Int) (rng : List Nat) :
    memAddEvidence (δ.pmem m) (δ.sentence s) n now rng = (memAddEvidence m s n now rng).map δ.pmem := by
  unfold memAddEvidence
  refine R.bind_rel (δ.addEvidenceInternal m s n now) fun m => R.bind_rel (δ.matchVarS s rng) fun r => ?_
  exact foldlM_rel (fun m i => δ.addEvidenceInternal m i n now) _ m

theorem workerAdd (m : PMem) (s : Sentence) (n : Nat) (now : Int) (rng : List Nat) :
    Nar.workerAdd (δ.pmem m) (δ.sentence s) n now rng = (δ.pmem (Nar.workerAdd m s n now rng).1, (Nar.workerAdd m s n now rng).2) := by
  unfold Nar.workerAdd
  rw [addEvidenceInternal]
  cases memAddEvidenceInternal m s n now with
  | error e => rfl
  | ok m1 =>
    simp only [Except.map, δ.matchVarS]
    cases matchandintroVar1Sentence s rng with
    | error e => rfl
    | ok r =>
      simp only [Except.map, sentsRes]
      have := foldlM_rel (g := δ.pmem) (f := δ.sentence) (k := fun m i => memAddEvidenceInternal m i n now)
        (k' := fun m i => memAddEvidenceInternal m i n now) (fun m i => δ.addEvidenceInternal m i n now) r.1 m1
      simp only [this]
      cases r.1.foldlM (fun m i => memAddEvidenceInternal m i n now) m1 <;> rfl

theorem workerStore (m : PMem) (s : Sentence) (now : Int) (n : Nat) (rng : List Nat) :
    Nar.workerStore (δ.pmem m) (δ.sentence s) now n rng =
      (δ.pmem (Nar.workerStore m s now n rng).1, (Nar.workerStore m s now n rng).2) := by
  unfold Nar.workerStore
  rw [show (δ.sentence s).term = s.term from rfl]
  cases Nar.condAndPred s.term with
  | error e => rfl
  | ok cp =>
    obtain ⟨c, p⟩ := cp
    simp only
    have e2 := δ.workerVisits s (retBeliefsByTermsNonuniqueP m [c, p]) (m.heap, true)
    simp only [heapRes] at e2
    rw [show retBeliefsByTermsNonuniqueP (δ.pmem m) [c, p] = retBeliefsByTermsNonuniqueP m [c, p] from rfl,
      show (δ.pmem m).heap = m.heap.map δ.sentence from rfl, e2]
    obtain ⟨⟨heap, b⟩, er⟩ := Nar.workerVisits s (retBeliefsByTermsNonuniqueP m [c, p]) (m.heap, true)
    cases er with
    | some e => rfl
    | none => cases b with
      | false => rfl
      | true => exact δ.workerAdd { m with heap := heap } s n now rng

/-! ## perception -/

theorem traceLimit (l : List Event) : Nar.traceLimit (l.map δ.event) = (Nar.traceLimit l).map δ.event := by
  unfold Nar.traceLimit
  rw [List.length_map]
  split
  · rw [List.map_drop]
  · rfl

theorem lastEvents (l : List Event) : retLastEvents (l.map δ.event) = (retLastEvents l).map (List.map δ.event) := by
  unfold retLastEvents
  rw [List.getLast?_map]
  cases l.getLast? <;> rfl

theorem idxsOfOps (ops : List Op) (l : List Event) : calcIdxsOfOps ops (l.map δ.event) = calcIdxsOfOps ops l := by
  unfold calcIdxsOfOps
  rw [List.zipIdx_map, filter_ren (f := Prod.map δ.event _root_.id) (p := fun ei => checkIsCallableOp ops ei.1.name)
    (p' := fun ei => checkIsCallableOp ops ei.1.name) (fun ei => rfl), List.map_map]
  rfl

theorem lastIdx (p : Proc) (mx prev : Nat) : Nar.lastIdx (δ.proc p) mx prev = Nar.lastIdx p mx prev := by
  unfold Nar.lastIdx
  rw [show (δ.proc p).trace = p.trace.map δ.event from rfl, List.length_map, indexAt_ren, R.bind_of_map]
  exact R.bind_same fun e => R.bind_same fun d => rfl

theorem evidenceOf (p : Proc) (items : List Event) :
    Nar.evidenceOf (δ.proc p) (items.map δ.event) = (Nar.evidenceOf p items).map (Option.map δ.sentence) := by
  unfold Nar.evidenceOf
  have e : (items.map δ.event).map (·.name) = items.map (·.name) := by rw [List.map_map]; rfl
  rw [e, show (δ.proc p).ops = p.ops from rfl, R.map_of_bind]
  refine R.bind_same fun c => ?_
  cases c with
  | none => rfl
  | some c =>
    simp only [List.length_map]
    refine R.bind_rel (indexAt_ren δ.event items _) fun a => R.bind_rel (indexAt_ren δ.event items _) fun b => ?_
    rw [R.map_of_bind]
    refine R.bind_same fun n => ?_
    have e2 : (items.map δ.event).map (·.evi) = (items.map (·.evi)).map δ.id := by rw [List.map_map, List.map_map]; rfl
    have e3 : (δ.event a).occT - (δ.event b).occT = a.occT - b.occT := by simp only [event]; omega
    rw [e2, e3]
    rfl

theorem selectItems (p : Proc) (d : SampleDraws) :
    Nar.selectItems (δ.proc p) d = (Nar.selectItems p d).map (Option.map (List.map δ.event)) := by
  unfold Nar.selectItems
  simp only [show (δ.proc p).ops = p.ops from rfl, show (δ.proc p).trace = p.trace.map δ.event from rfl, idxsOfOps, lastIdx]
  split
  · rfl
  · rw [show nSelOps (δ.proc p) = nSelOps p from rfl, R.map_of_bind]
    refine R.bind_same fun sel => ?_
    rw [R.map_of_bind]; refine R.bind_same fun mn => ?_
    rw [R.map_of_bind]; refine R.bind_same fun mx => ?_
    split
    · rfl
    · rw [R.map_of_bind]; refine R.bind_same fun a => ?_
      rw [R.map_of_bind]; refine R.bind_same fun b => ?_
      exact R.bind_rel (mapM_same (fun i => indexAt_ren δ.event p.trace i) _) fun items => rfl

theorem sendToWorker (p : Proc) (s : Sentence) : Nar.sendToWorker (δ.proc p) (δ.sentence s) = (Nar.sendToWorker p s).map δ.proc := by
  unfold Nar.sendToWorker
  rw [show (δ.proc p).workerAlive = p.workerAlive from rfl]
  split
  · simp only [Except.map, proc, List.map_append, List.map_cons, List.map_nil]
  · rfl

theorem perceiveSample (p : Proc) (d : SampleDraws) : Nar.perceiveSample (δ.proc p) d = (Nar.perceiveSample p d).map δ.proc := by
  unfold Nar.perceiveSample
  refine R.bind_rel (δ.selectItems p d) fun items => ?_
  cases items with
  | none => rfl
  | some items =>
    refine R.bind_rel (δ.evidenceOf p items) fun s => ?_
    cases s with
    | none => rfl
    | some s => exact δ.sendToWorker p s

theorem satisfyLast (p : Proc) : Nar.satisfyLast (δ.proc p) = δ.goals (Nar.satisfyLast p) := by
  unfold Nar.satisfyLast
  rw [show (δ.proc p).trace = p.trace.map δ.event from rfl, List.getLast?_map]
  cases p.trace.getLast? with
  | none => rfl
  | some e => exact δ.eventOccurred p.goals e.name

theorem traceStep (p : Proc) (draws : Nat → SampleDraws) : Nar.traceStep (δ.proc p) draws = (Nar.traceStep p draws).map δ.proc := by
  unfold Nar.traceStep
  rw [satisfyLast, show (δ.proc p).trace = p.trace.map δ.event from rfl, List.length_map]
  split
  · exact foldlM_same (g := δ.proc) (k := fun p i => Nar.perceiveSample p (draws i)) (k' := fun p i => Nar.perceiveSample p (draws i))
      (fun p i => δ.perceiveSample p (draws i)) _ { p with goals := Nar.satisfyLast p }
  · rfl

theorem recentEvent (l : List Event) (i : Nat) : Nar.recentEvent (l.map δ.event) i = (Nar.recentEvent l i).map δ.event := by
  unfold Nar.recentEvent
  rw [List.length_map]
  split
  · rw [List.getElem?_map]
  · rfl

theorem confirm (p : Proc) (as : List Anticipation) (i : Nat) :
    Nar.confirm (δ.proc p) (as.map δ.anticipation) i = (Nar.confirm p as i).map (List.map δ.anticipation) := by
  unfold Nar.confirm
  rw [show (δ.proc p).trace = p.trace.map δ.event from rfl, recentEvent]
  cases Nar.recentEvent p.trace i with
  | none => rfl
  | some e =>
    refine filterR_ren ?_ as
    intro a
    rw [show (δ.proc p).mem.heap = p.mem.heap.map δ.sentence from rfl, show (δ.anticipation a).evi = a.evi from rfl, indexAt_ren, R.bind_of_map]
    exact R.bind_same fun b => rfl

theorem negConfirm (heap : List Sentence) (a : Anticipation) :
    Nar.negConfirm (heap.map δ.sentence) (δ.anticipation a) = (Nar.negConfirm heap a).map (List.map δ.sentence) := by
  unfold Nar.negConfirm
  refine R.bind_rel (indexAt_ren δ.sentence heap _) fun b => ?_
  rw [show Nar.cntOf (δ.sentence b) = Nar.cntOf b from rfl, R.map_of_bind]
  refine R.bind_same fun _ => ?_
  simp only [Except.map, List.map_set]
  rfl

theorem narStep0 (p : Proc) (draws : Nat → SampleDraws) : Nar.narStep0 (δ.proc p) draws = (Nar.narStep0 p draws).map δ.proc := by
  unfold Nar.narStep0
  refine R.bind_rel (f := List.map δ.anticipation) ?_ fun as => R.bind_rel (f := List.map δ.sentence) ?_ fun heap => ?_
  · exact foldlM_same (fun as i => δ.confirm p as i) _ p.anticipated
  · unfold negConfirmAll
    rw [filter_ren (p := fun a : Anticipation => decide (a.deadline ≤ p.t))
      (fun a => by simp only [anticipation, proc, add_le_add_iff_right])]
    exact foldlM_rel (fun h a => δ.negConfirm h a) _ p.mem.heap
  · simp only
    rw [filter_ren (p := fun a : Anticipation => decide (a.deadline > p.t))
      (fun a => by simp only [anticipation, proc, gt_iff_lt, add_lt_add_iff_right])]
    exact δ.traceStep { p with mem := { p.mem with heap := heap }, anticipated := as.filter fun a => decide (a.deadline > p.t) } draws

/-! ## decisions -/

theorem bestByState (p : Proc) (o : Option BestEntry) (i : Nat) : Nar.bestByState (δ.proc p) o i = Nar.bestByState p o i := by
  unfold Nar.bestByState
  rw [show (δ.proc p).trace = p.trace.map δ.event from rfl, recentEvent]
  cases Nar.recentEvent p.trace i with
  | none => rfl
  | some e =>
    simp only [Option.map_some]
    rw [show (δ.proc p).goals = δ.goals p.goals from rfl, show (δ.event e).name = e.name from rfl, selHighest, R.bind_of_map]
    refine R.bind_same fun r => ?_
    obtain ⟨ex, f⟩ := r
    cases f <;> rfl

theorem carryBack (hn : δ.id (-1) = -1) (heap : List Sentence) (st : Term × Tv × Option Term) (r : Nat) :
    Nar.carryBack (heap.map δ.sentence) st r = Nar.carryBack heap st r := by
  unfold Nar.carryBack
  rw [indexAt_ren, R.bind_of_map]
  refine R.bind_same fun b => ?_
  have e := δ.infGoalBelief (newEternalSentenceByTv st.1 .GOAL st.2.1 ⟨[-1]⟩) b
  rw [show δ.sentence (newEternalSentenceByTv st.1 .GOAL st.2.1 ⟨[-1]⟩) = newEternalSentenceByTv st.1 .GOAL st.2.1 ⟨[-1]⟩ by
    rw [← newTv]; simp only [stamp, List.map_cons, List.map_nil, hn]] at e
  simp only
  rw [e, R.bind_of_map]
  refine R.bind_same fun c => ?_
  rw [unwrap_ren, R.bind_of_map]
  exact R.bind_same fun c => rfl

theorem decidePredicted (hn : δ.id (-1) = -1) (heap : List Sentence) (t : Term) (hit : Entry) (chain : List Nat) (o : Option BestEntry) :
    Nar.decidePredicted (heap.map δ.sentence) t (δ.goal hit) chain o = Nar.decidePredicted heap t hit chain o := by
  unfold Nar.decidePredicted
  have e : Nar.carryBack (heap.map δ.sentence) = Nar.carryBack heap := by funext st r; exact δ.carryBack hn heap st r
  rw [e]
  rfl

theorem predict (hn : δ.id (-1) = -1) (p : Proc) (n : Nat) (t : Term) (chain : List Nat) (o : Option BestEntry) (rng : List Nat) :
    Nar.predict (δ.proc p) n t chain o rng = Nar.predict p n t chain o rng := by
  induction n generalizing t chain o rng with
  | zero => rfl
  | succ n ih =>
    simp only [Nar.predict]
    have e : (if chain.length > 0 then Nar.goalQuery (δ.proc p).goals t else none) =
        (if chain.length > 0 then Nar.goalQuery p.goals t else none).map δ.goal := by
      split
      · exact δ.goalQuery p.goals t
      · rfl
    rw [e]
    cases (if chain.length > 0 then Nar.goalQuery p.goals t else none) with
    | some hit =>
      simp only [Option.map_some]
      rw [show (δ.proc p).mem.heap = p.mem.heap.map δ.sentence from rfl, decidePredicted δ hn]
    | none =>
      simp only [Option.map_none]
      rw [show (δ.proc p).mem = δ.pmem p.mem from rfl, byAntecedent]
      refine R.bind_same fun found => ?_
      split
      · rfl
      · refine R.bind_same fun i => R.bind_same fun r => ?_
        rw [show (δ.pmem p.mem).heap = p.mem.heap.map δ.sentence from rfl, indexAt_ren, R.bind_of_map]
        exact R.bind_same fun b => R.bind_same fun pr => ih _ _ _ _

theorem predictAll (hn : δ.id (-1) = -1) (p : Proc) (o : Option BestEntry) (rng : List Nat) :
    Nar.predictAll (δ.proc p) o rng = Nar.predictAll p o rng := by
  unfold Nar.predictAll
  rw [show (δ.proc p).trace = p.trace.map δ.event from rfl, lastEvents]
  cases retLastEvents p.trace with
  | none => rfl
  | some evs =>
    have := foldlM_rel (g := fun x : Option BestEntry × List Nat => x) (f := δ.event)
      (k := fun st ev => Nar.predict p 3 ev.name [] st.1 st.2)
      (k' := fun st ev => Nar.predict (δ.proc p) 3 ev.name [] st.1 st.2)
      (fun st ev => by rw [R.map_id']; exact δ.predict hn p 3 ev.name [] st.1 st.2) evs (o, rng)
    rw [R.map_id'] at this
    exact this

theorem adoptBest (p : Proc) (o : Option BestEntry) : Nar.adoptBest (δ.proc p) o = (Nar.adoptBest p o).map δ.proc := by
  unfold Nar.adoptBest
  cases o with
  | none => rfl
  | some b =>
    simp only [show (δ.proc p).threshold = p.threshold from rfl]
    split
    · cases b.evidence with
      | none => rfl
      | some ev =>
        simp only
        rw [R.map_of_bind]; refine R.bind_same fun _ => ?_
        rw [R.map_of_bind]; refine R.bind_same fun _ => ?_
        rw [R.map_of_bind]; refine R.bind_same fun _ => ?_
        rw [R.map_of_bind]; refine R.bind_same fun _ => ?_
        rw [R.map_of_bind]; refine R.bind_same fun o => ?_
        refine R.bind_rel (indexAt_ren δ.sentence p.mem.heap ev) fun pk => ?_
        rw [show (δ.sentence pk).term = pk.term from rfl, R.map_of_bind]; refine R.bind_same fun _ => ?_
        rw [show Nar.retTv (δ.sentence pk) = Nar.retTv pk from rfl, R.map_of_bind]; refine R.bind_same fun _ => ?_
        rw [R.map_of_bind]; refine R.bind_same fun tv => ?_
        rw [R.map_of_bind]; refine R.bind_same fun _ => ?_
        exact R.bind_rel (δ.addEntry p.goals p.t (newEternalSentenceByTv o .GOAL tv pk.stamp) (some ev) 0) fun g => rfl
    · rfl

def indexed (r : Entry × Nat) : Entry × Nat := (δ.goal r.1, r.2)
def active (r : Rat × Option (Entry × Nat)) : Rat × Option (Entry × Nat) := (r.1, r.2.map δ.indexed)

theorem bestActiveStep (th : Rat) (st : Rat × Option (Entry × Nat)) (e : Entry × Nat) :
    Nar.bestActiveStep th (δ.active st) (δ.indexed e) = (Nar.bestActiveStep th st e).map δ.active := by
  unfold Nar.bestActiveStep
  rw [show isDesired (δ.indexed e).1 = isDesired e.1 from rfl]
  split
  · rw [show Nar.expOf (δ.indexed e).1.sentence = Nar.expOf e.1.sentence from rfl, R.map_of_bind]
    refine R.bind_same fun ex => ?_
    simp only [show (δ.active st).1 = st.1 from rfl]
    split <;> rfl
  · rfl

theorem bestActive (p : Proc) : Nar.bestActive (δ.proc p) = (Nar.bestActive p).map (Option.map δ.indexed) := by
  unfold Nar.bestActive
  have e : (δ.proc p).goals.activeSet.zipIdx = p.goals.activeSet.zipIdx.map δ.indexed := by
    show (p.goals.activeSet.map δ.goal).zipIdx = _
    rw [List.zipIdx_map]
    rfl
  rw [e]
  exact R.bind_rel (foldlM_rel (fun st e => δ.bestActiveStep p.threshold st e) _ (0, none)) fun r => rfl

def acted {α} (r : Proc × α) : Proc × α := (δ.proc r.1, r.2)

theorem deadlineOf (p : Proc) (s : Sentence) :
    Nar.deadlineOf (δ.proc p) (δ.sentence s) = (Nar.deadlineOf p s).map (· + (δ.shift : Int)) := by
  unfold Nar.deadlineOf
  simp only [show (δ.sentence s).expDt = s.expDt from rfl]
  split
  · split
    · rfl
    · rw [R.map_of_bind]
      refine R.bind_same fun i => ?_
      simp only [Except.map, proc]
      congr 1
      omega
  · split
    · rfl
    · rw [R.map_of_bind]
      refine R.bind_same fun i => ?_
      simp only [Except.map, proc]
      congr 1
      omega

theorem pickAction (p : Proc) (o : Option (Entry × Nat)) : Nar.pickAction (δ.proc p) (o.map δ.indexed) = (Nar.pickAction p o).map δ.acted := by
  unfold Nar.pickAction
  cases o with
  | none => rfl
  | some e =>
    obtain ⟨e, i⟩ := e
    simp only [Option.map_some, indexed]
    rw [show (δ.goal e).evidence = e.evidence from rfl]
    cases e.evidence with
    | none => rfl
    | some ev =>
      rw [show (δ.goal e).sentence.term = e.sentence.term from rfl]
      cases decodeOp e.sentence.term with
      | none => rfl
      | some _ =>
        simp only
        refine R.bind_rel (indexAt_ren δ.sentence p.mem.heap ev) fun pk => R.bind_rel (δ.deadlineOf p pk) fun dl => ?_
        simp only [Except.map, acted, proc, goals]
        rw [eraseIdx_ren]
        congr 4
        by_cases hb : p.enAnticipation = true
        · simp [hb, anticipation]
        · simp [hb]

theorem execute {call : Call} {p : Proc} (hc : ∀ n args, call n args (δ.proc p) = (call n args p).map δ.proc)
    (ht : ∀ n args p1, call n args p = .ok p1 → δ.id p1.t = p1.t + δ.shift) (o : Option Term) :
    Nar.execute call (δ.proc p) o = (Nar.execute call p o).map δ.acted := by
  unfold Nar.execute
  cases o with
  | none => rfl
  | some t =>
    simp only
    rw [R.map_of_bind]
    refine R.bind_same fun r => ?_
    obtain ⟨args, n⟩ := r
    simp only [show (δ.proc p).ops = p.ops from rfl]
    cases retOpByName p.ops n with
    | none => rfl
    | some o =>
      simp only
      rw [hc, R.bind_of_map, R.map_of_bind]
      refine R.bind_when fun p1 h1 => ?_
      rw [R.map_of_bind]
      refine R.bind_same fun _ => ?_
      simp only [Except.map, acted, eventHappened, proc, List.map_append, List.map_cons, List.map_nil, event]
      rw [ht n args p1 h1]

theorem tmod_later (n k : Nat) (h : n ∣ k) (t : Int) (ht : 0 ≤ t) : (t + k).tmod n = t.tmod n := by
  obtain ⟨c, rfl⟩ := h
  have h1 : 0 ≤ t + ((n * c : Nat) : Int) := by omega
  rw [Int.tmod_eq_emod_of_nonneg h1, Int.tmod_eq_emod_of_nonneg ht]
  rw [Int.natCast_mul, Int.add_mul_emod_self_left]

theorem limitAll {start : Int} (hδ : δ.Regular start) (decay : Int → Rat) (p : Proc) (ht : start ≤ p.t) :
    Nar.limitAll decay (δ.proc p) = (Nar.limitAll decay p).map δ.proc := by
  have h0 : 0 ≤ p.t := le_trans hδ.start_nonneg ht
  unfold Nar.limitAll
  refine R.bind_rel (f := δ.pmem) ?_ fun m => R.bind_rel (f := δ.goals) ?_ fun g => ?_
  · unfold limitMem
    have := tmod_later 101 δ.shift hδ.mem_round p.t h0
    simp only [Nat.cast_ofNat] at this
    rw [show (δ.proc p).t = p.t + δ.shift from rfl, this]
    split
    · exact δ.limitMemoryP p.mem p.nConcepts
    · rfl
  · unfold limitGoals
    have := tmod_later 13 δ.shift hδ.goals_round p.t h0
    simp only [Nat.cast_ofNat] at this
    rw [show (δ.proc p).t = p.t + δ.shift from rfl, this]
    split
    · exact δ.goalLimitMemory decay p.goals p.t
    · rfl
  · simp only [show (δ.proc p).trace = p.trace.map δ.event from rfl, traceLimit]
    rfl

theorem inferGoals (p : Proc) (infs : List (Rat × Rat × List Nat)) : Nar.inferGoals (δ.proc p) infs = (Nar.inferGoals p infs).map δ.proc := by
  unfold Nar.inferGoals
  exact R.bind_rel (foldlM_same (α := Rat × Rat × List Nat) (g := δ.goals) (k := fun g d => Nar.sampleAndInference g p.t p.mem d.1 d.2.1 d.2.2)
    (k' := fun g d => Nar.sampleAndInference g (p.t + δ.shift) (δ.pmem p.mem) d.1 d.2.1 d.2.2)
    (fun g d => δ.sampleAndInference g p.t p.mem d.1 d.2.1 d.2.2) infs p.goals) fun g => rfl

theorem decideAction (hn : δ.id (-1) = -1) (p : Proc) (rng : List Nat) :
    Nar.decideAction (δ.proc p) rng = (Nar.decideAction p rng).map δ.acted := by
  unfold Nar.decideAction
  have e : Nar.bestByState (δ.proc p) = Nar.bestByState p := by funext b i; exact δ.bestByState p b i
  rw [e, R.map_of_bind]
  refine R.bind_same fun b => ?_
  rw [predictAll δ hn, R.map_of_bind]
  refine R.bind_same fun r => R.bind_rel (δ.adoptBest p r.1) fun p1 => ?_
  refine R.bind_rel (δ.bestActive p1) fun a => R.bind_rel (δ.pickAction p1 a) fun q => ?_
  rw [R.map_of_bind]
  exact R.bind_same fun b => rfl

end Delay
end Nar
