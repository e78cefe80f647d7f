import Verif.Model.VarIntro
/-!
# Procedural reasoner  (models /repo/src/NarProc.rs)

The beliefs of procedural memory are cells of a heap (`ProcMem.lean`); goals and anticipations refer to them.
The channel to the storage worker is the queue `queue`; the worker takes the messages one at a time and may be
scheduled between any two calls of the reasoner (`workerStep`).  The limit of four waiting messages only blocks
the sender and is not modelled.  A panic of the worker ends its thread: `workerAlive` becomes false, and the next
`send(..).unwrap()` panics.  A text which is printed always is modelled as far as making it can panic
(`printTerm`).  Not modelled: the printed texts, printing which depends on the verbosity (it is 0 and nothing
changes it; NarProc.rs 234, 846, 908, 959), the queue of the Q&A bridge (nothing fills it), wall clock
time (the number of goal inferences per step is a parameter).  Random integer draws come from oracle lists, real
draws are parameters.
-/
namespace Nar
open Term

/-- `SimpleSentence`, NarProc.rs 1160-1164. -/
structure Event where
  name : Term
  evi : Int
  occT : Int

/-- `AnticipationEvent`, NarProc.rs 1209-1214; the evidence is a reference to a cell. -/
structure Anticipation where
  evi : Nat
  deadline : Int
  deriving DecidableEq, Repr

/-- `trait Op`, NarProc.rs 1217-1225; the effect of `call` is a parameter of `narStep1`. -/
structure Op where
  name : String
  babbleable : Bool
  eviCnt : Int
  deriving DecidableEq, Repr

/-- `ProcNar`, NarProc.rs 24-106 (configuration which only concerns printing and timing is left out). -/
structure Proc where
  /-- `cfgPerceptWindow` -/
  perceptWindow : Nat
  /-- `cfgDescnThreshold` -/
  threshold : Rat
  /-- `cfgEnBabbling` -/
  enBabbling : Bool
  /-- `cfg__nOpsMax` -/
  nOpsMax : Int
  /-- `cfg__multiOpProbability` -/
  multiOpProbability : Rat
  /-- `cfg__enAnticipation` -/
  enAnticipation : Bool
  /-- `cfg__nConcepts` -/
  nConcepts : Nat
  /-- `cfg__nConceptBeliefs` (copied to the worker at its creation, line 381) -/
  nConceptBeliefs : Nat
  /-- `cfg__perceptionSamplesPerStep` -/
  samplesPerStep : Nat
  /-- `expIntervalsTable` -/
  table : List Int
  mem : PMem
  trace : List Event
  anticipated : List Anticipation
  ops : List Op
  t : Int
  goals : GoalSystem
  /-- messages to the storage worker -/
  queue : List (Sentence × Int)
  workerAlive : Bool

/-- the loop which builds the table of exponential intervals, NarProc.rs 445-461; `pow i` stands for
`cfgIntervalExpBase.powf(i) as i64`, `fuel` bounds the number of rounds. -/
def buildTable (pow : Nat → Int) (intervalMax : Int) : Nat → Nat → Int → List Int
  | 0, _, _ => []
  | fuel + 1, i, last =>
    let thisInterval := pow i
    if thisInterval > intervalMax then []
    else if thisInterval > last then thisInterval :: buildTable pow intervalMax fuel (i + 1) thisInterval
    else buildTable pow intervalMax fuel (i + 1) last

/-- `1.3.powf(i) as i64` -/
def powBase (i : Nat) : Int := ((13 : Int) ^ i) / ((10 : Int) ^ i)

/-- `narInit`, NarProc.rs 331-464. -/
def narInit : Proc :=
  { perceptWindow := 2, threshold := 58/100, enBabbling := true, nOpsMax := 1, multiOpProbability := 2/10,
    enAnticipation := true, nConcepts := 1000, nConceptBeliefs := 100, samplesPerStep := 4,
    table := buildTable powBase 20 50 0 0, mem := PMem.empty, trace := [], anticipated := [], ops := [], t := 0,
    goals := makeGoalSystem 20 8, queue := [], workerAlive := true }

/-! ## parts of temporal rules -/

/-- `retPred`, NarProc.rs 1065-1074. -/
def retPred : Term → R Term
  | .Stmt .PREDIMPL _ pred => .ok pred
  | _ => .error .explicit

/-- `retImplSeqOp`, NarProc.rs 1088-1100. -/
def retImplSeqOp : Term → R Term
  | .Stmt .PREDIMPL (.Seq seq) _ => indexAt seq 1
  | _ => .error .explicit

/-- `retSeqLast`, NarProc.rs 1102-1109 (`len()-1` underflows for an empty sequence). -/
def retSeqLast : Term → R Term
  | .Seq seq => match seq.getLast? with
    | some t => .ok t
    | none => .error .index
  | _ => .error .explicit

/-- `retSeqCond`, NarProc.rs 1111-1123. -/
def retSeqCond : Term → R Term
  | .Stmt .PREDIMPL (.Seq seq) _ => indexAt seq 0
  | _ => .error .explicit

/-- `retSeqCond2`, NarProc.rs 1125-1132. -/
def retSeqCond2 : Term → R Term
  | .Seq seq => indexAt seq 0
  | _ => .error .explicit

/-- `is_seq`, NarProc.rs 1135-1142. -/
def isSeq : Term → Bool
  | .Seq _ => true
  | _ => false

/-- `is_seqAndLastOp`, NarProc.rs 1145-1153. -/
def isSeqAndLastOp : Term → R Bool
  | .Seq seq => match seq.getLast? with
    | some t => .ok (decodeOp t).isSome
    | none => .error .index
  | _ => .ok false

/-- `ret_op_by_name`, NarProc.rs 1034-1042. -/
def retOpByName (ops : List Op) (name : String) : Option Op := ops.find? (fun o => o.name == name)

/-- `checkIsCallableOp`, NarProc.rs 1045-1060. -/
def checkIsCallableOp (ops : List Op) (term : Term) : Bool :=
  match decodeOp term with
  | none => false
  | some (_, opName) => ops.any (fun o => o.name == opName)

/-- `findMinTableIdx`, NarProc.rs 1179-1186, the loop from index `idx` on. -/
def findMinTableLoop (interval : Int) : List Int → Nat → Option Int
  | [], _ => none
  | v :: vs, idx => if v > interval then some ((idx : Int) - 1) else findMinTableLoop interval vs (idx + 1)

/-- `findMinTableIdx`, NarProc.rs 1179-1186. -/
def findMinTableIdx (interval : Int) (table : List Int) : Int :=
  match findMinTableLoop interval (table.drop 1) 1 with
  | some r => r
  | none => (table.length : Int) - 1

/-! ## storage of evidence -/

/-- `mem_add_evidence_internal`, NarProc.rs 480-491. -/
def memAddEvidenceInternal (m : PMem) (s : Sentence) (nBeliefs : Nat) (currentTime : Int) : R PMem := do
  let cond ← retSeqCond s.term
  let pred ← retPred s.term
  storeInConcepts2P m s (retSubterms cond ++ retSubterms pred) nBeliefs currentTime

/-- `mem_add_evidence`, NarProc.rs 468-477. -/
def memAddEvidence (m : PMem) (s : Sentence) (nBeliefs : Nat) (currentTime : Int) (rng : List Nat) : R PMem := do
  let m ← memAddEvidenceInternal m s nBeliefs currentTime
  let (withVars, _) ← matchandintroVar1Sentence s rng
  withVars.foldlM (fun m i => memAddEvidenceInternal m i nBeliefs currentTime) m

/-- the counters of `Evidence::CNT`, NarProc.rs 413-418 and 420-425. -/
def cntOf (s : Sentence) : R (Int × Int) := do
  let e ← unwrap s.evi
  match e with
  | .CNT pos cnt => .ok (pos, cnt)
  | .TV _ => .error .explicit

/-- does the observation support the stored rule, NarProc.rs 404-410. -/
def supports (b s : Sentence) : R Bool :=
  if !Stamp.checkOverlap b.stamp s.stamp then do
    let eb ← unwrap b.expDt
    let es ← unwrap s.expDt
    .ok (decide (eb ≥ es) && checkEqTerm b.term s.term)
  else .ok false

/-- the counters and the evidence trail of a supported rule, NarProc.rs 411-425. -/
def reviseCell (b s : Sentence) : R Sentence := do
  let (otherPos, otherCnt) ← cntOf s
  let (pos, cnt) ← cntOf b
  .ok { b with stamp := Stamp.merge b.stamp s.stamp, evi := some (.CNT (pos + otherPos) (cnt + otherCnt)) }

/-- one iteration of the loop of the storage worker, NarProc.rs 401-432; the flag says whether the observation
still has to be added. -/
def workerVisit (s : Sentence) (st : List Sentence × Bool) (r : Nat) : R (List Sentence × Bool) := do
  let b ← indexAt st.1 r
  let sup ← supports b s
  if sup then do
    let b' ← reviseCell b s
    .ok (st.1.set r b', false)
  else .ok st

/-- the loop of the storage worker over the beliefs `refs`; a panic keeps what was written before -/
def workerVisits (s : Sentence) : List Nat → List Sentence × Bool → (List Sentence × Bool) × Option Err
  | [], st => (st, none)
  | r :: rs, st =>
    match workerVisit s st r with
    | .ok st => workerVisits s rs st
    | .error e => (st, some e)

/-- `mem_add_evidence` in the worker, NarProc.rs 468-477: if the introduction of a variable panics, the evidence
has already been stored (panics inside `storeInConcepts2` drop the whole storing in the model). -/
def workerAdd (m : PMem) (s : Sentence) (nBeliefs : Nat) (currentTime : Int) (rng : List Nat) : PMem × Option Err :=
  match memAddEvidenceInternal m s nBeliefs currentTime with
  | .error e => (m, some e)
  | .ok m =>
    match matchandintroVar1Sentence s rng with
    | .error e => (m, some e)
    | .ok (withVars, _) =>
      match withVars.foldlM (fun m i => memAddEvidenceInternal m i nBeliefs currentTime) m with
      | .error e => (m, some e)
      | .ok m => (m, none)

/-- the terms which name the concepts searched by the worker, NarProc.rs 401 -/
def condAndPred (t : Term) : R (Term × Term) := do
  let cond ← retSeqCond t
  let pred ← retPred t
  .ok (cond, pred)

/-- the storage worker handles one message, NarProc.rs 391-438; the second component is the panic. -/
def workerStore (m : PMem) (s : Sentence) (currentTime : Int) (nBeliefs : Nat) (rng : List Nat) : PMem × Option Err :=
  match condAndPred s.term with
  | .error e => (m, some e)
  | .ok (cond, pred) =>
    match workerVisits s (retBeliefsByTermsNonuniqueP m [cond, pred]) (m.heap, true) with
    | ((heap, _), some e) => ({ m with heap := heap }, some e)
    | ((heap, true), none) => workerAdd { m with heap := heap } s nBeliefs currentTime rng
    | ((heap, false), none) => ({ m with heap := heap }, none)

/-- one round of the storage worker thread, NarProc.rs 385-439.  If it panics, the thread is gone. -/
def workerStep (p : Proc) (rng : List Nat) : Proc :=
  if p.workerAlive then
    match p.queue with
    | [] => p
    | (s, time) :: rest =>
      let r := workerStore p.mem s time p.nConceptBeliefs rng
      { p with mem := r.1, queue := rest, workerAlive := r.2.isNone }
  else p

/-! ## perception -/

/-- `event_happened`, NarProc.rs 299-301. -/
def eventHappened (p : Proc) (e : Event) : Proc := { p with trace := p.trace ++ [e] }

/-- `limit`, NarProc.rs 290-296. -/
def traceLimit (trace : List Event) : List Event :=
  if trace.length > 20 then trace.drop (trace.length - 20) else trace

/-- `force_flush`, NarProc.rs 303-305. -/
def traceFlush (p : Proc) : Proc := { p with trace := [] }

/-- `ret_last_events`, NarProc.rs 307-318. -/
def retLastEvents (trace : List Event) : Option (List Event) :=
  match trace.getLast? with
  | none => none
  | some e => some [e]

/-- `calcIdxsOfOps`, NarProc.rs 1167-1175. -/
def calcIdxsOfOps (ops : List Op) (trace : List Event) : List Nat :=
  (trace.zipIdx.filter (fun ei => checkIsCallableOp ops ei.1.name)).map (·.2)

/-- `try_build_implSeq`, NarProc.rs 515-534; less than three events panic (lines 516 and 517). -/
def tryBuildImplSeq (ops : List Op) (events : List Term) : R (Option Term) :=
  match events with
  | [] => .error .index
  | first :: rest =>
    match rest.getLast? with
    | none => .error .index
    | some last =>
      let middle := rest.dropLast
      if middle.length = 0 then .error .explicit
      else if middle.all (checkIsCallableOp ops) && !checkIsCallableOp ops first && !checkIsCallableOp ops last
          && !checkEqTerm first last then
        .ok (some (.Stmt .PREDIMPL (.Seq (first :: middle)) last))
      else .ok none

/-- the draws of one perception sample -/
structure SampleDraws where
  /-- the draw which decides about more than one operator, line 180 -/
  multi : Rat
  /-- the draws of the operators, line 188 -/
  ops : List Nat
  /-- the draw of the first event, line 205 -/
  first : Nat
  /-- the draw which allows the previous event as last event, line 213 -/
  prev : Nat

/-- the loop which selects `n` different operators, NarProc.rs 187-197; `.fuel` if the given draws do not
suffice. -/
def selectOps (idxsOfOps : List Nat) (n : Nat) : List Nat → List Nat → R (List Nat)
  | [], _ => .error .fuel
  | d :: ds, sel => do
    let (i, _) ← genRange [d] idxsOfOps.length
    let selIdx ← indexAt idxsOfOps i
    let sel := if sel.contains selIdx then sel else sel ++ [selIdx]
    if sel.length = n then .ok sel else selectOps idxsOfOps n ds sel

/-- insertion into an ascending list -/
def insertNat (a : Nat) : List Nat → List Nat
  | [] => [a]
  | b :: l => if a ≤ b then a :: b :: l else b :: insertNat a l

/-- `idxs.sort()`, NarProc.rs 222 -/
def sortNat : List Nat → List Nat
  | [] => []
  | a :: l => insertNat a (sortNat l)

/-- how many operators are selected, NarProc.rs 178-183 -/
def nSelOps (p : Proc) (nIdxs : Nat) (multi : Rat) : Nat :=
  if p.nOpsMax = 1 then 1
  else if multi < p.multiOpProbability then (if p.nOpsMax < 0 then nIdxs else min nIdxs p.nOpsMax.toNat)
  else 1

/-- the last event of the sample, NarProc.rs 206-217 -/
def lastIdx (p : Proc) (maxSel prev : Nat) : R Nat := do
  let sel ← indexAt p.trace (p.trace.length - 2)
  let (rng0, _) ← genRange [prev] 2
  if rng0 = 1 ∧ p.trace.length - 2 > maxSel ∧ !checkIsCallableOp p.ops sel.name then .ok (p.trace.length - 2)
  else .ok (p.trace.length - 1)

/-- how much evidence an observation carries, NarProc.rs 250-269 -/
def eviCntOf (ops : List Op) (candidate : Term) : R Int := do
  let opTerm ← retImplSeqOp candidate
  let (_, opName) ← unwrap (decodeOp opTerm)
  match retOpByName ops opName with
  | some op => .ok op.eviCnt
  | none => .ok 3

/-- the sentence made of selected events, NarProc.rs 229-279; `none` if they are no rule -/
def evidenceOf (p : Proc) (items : List Event) : R (Option Sentence) := do
  let implSeqOpt ← tryBuildImplSeq p.ops (items.map (·.name))
  match implSeqOpt with
  | none => .ok none
  | some candidate => do
    let last ← indexAt items (items.length - 1)
    let before ← indexAt items (items.length - 2)
    let n ← eviCntOf p.ops candidate
    .ok (some { punct := .JUGEMENT, t := none, stamp := ⟨items.map (·.evi)⟩,
                expDt := some (findMinTableIdx (last.occT - before.occT) p.table), term := candidate,
                evi := some (.CNT n n), usage := ⟨0, 0, []⟩ })

/-- the events selected by a sample, NarProc.rs 172-227; `none` if nothing is selected -/
def selectItems (p : Proc) (d : SampleDraws) : R (Option (List Event)) := do
  let idxsOfOps := calcIdxsOfOps p.ops p.trace
  if idxsOfOps.length = 0 then .ok none
  else do
    let sel ← selectOps idxsOfOps (nSelOps p idxsOfOps.length d.multi) d.ops []
    let mn ← unwrap sel.min?
    let mx ← unwrap sel.max?
    if mn = 0 then .ok none
    else do
      let (idxFirst, _) ← genRange [d.first] mn
      let idxLast ← lastIdx p mx d.prev
      let items ← (sortNat (idxFirst :: (sel ++ [idxLast]))).mapM (indexAt p.trace)
      .ok (some items)

/-- `storeWorkersTx[..].send(..).unwrap()`, NarProc.rs 281-282 -/
def sendToWorker (p : Proc) (s : Sentence) : R Proc :=
  if p.workerAlive then .ok { p with queue := p.queue ++ [(s, p.t)] } else .error .unwrapNone

/-- one iteration of the loop at NarProc.rs 170-286 -/
def perceiveSample (p : Proc) (d : SampleDraws) : R Proc := do
  let items ← selectItems p d
  match items with
  | none => .ok p
  | some items => do
    let s ← evidenceOf p items
    match s with
    | none => .ok p
    | some s => sendToWorker p s

/-- the goals after the last event, NarProc.rs 153-166 -/
def satisfyLast (p : Proc) : GoalSystem :=
  match p.trace.getLast? with
  | some e => eventOccurred p.goals e.name
  | none => p.goals

/-- `TraceDefault::step`, NarProc.rs 152-288; `draws i` are the draws of sample `i` -/
def traceStep (p : Proc) (draws : Nat → SampleDraws) : R Proc :=
  if p.trace.length ≥ 3 then
    (List.range p.samplesPerStep).foldlM (fun p i => perceiveSample p (draws i)) { p with goals := satisfyLast p }
  else .ok { p with goals := satisfyLast p }

/-! ## first part of a step -/

/-- the event with `perceptIdx` events after it, as accessed at NarProc.rs 544-545 and 625-627 -/
def recentEvent (trace : List Event) (perceptIdx : Nat) : Option Event :=
  if trace.length > perceptIdx then trace[trace.length - 1 - perceptIdx]? else none

/-- removal of confirmed anticipations for one event of the window, NarProc.rs 544-555 -/
def confirm (p : Proc) (anticipated : List Anticipation) (perceptIdx : Nat) : R (List Anticipation) :=
  match recentEvent p.trace perceptIdx with
  | none => .ok anticipated
  | some ev => filterR (fun a => do
      let b ← indexAt p.mem.heap a.evi
      let pred ← retPred b.term
      .ok (!checkEqTerm pred ev.name)) anticipated

/-- negative confirmation of one anticipation, NarProc.rs 563-587 -/
def negConfirm (heap : List Sentence) (a : Anticipation) : R (List Sentence) := do
  let b ← indexAt heap a.evi
  let (pos, cnt) ← cntOf b
  .ok (heap.set a.evi { b with evi := some (.CNT pos (cnt + 1)) })

/-- negative confirmation of all overdue anticipations, NarProc.rs 563 -/
def negConfirmAll (heap : List Sentence) (t : Int) (anticipated : List Anticipation) : R (List Sentence) :=
  (anticipated.filter (fun a => decide (a.deadline ≤ t))).foldlM negConfirm heap

/-- `narStep0`, NarProc.rs 537-595 -/
def narStep0 (p : Proc) (draws : Nat → SampleDraws) : R Proc := do
  let anticipated ← (List.range p.perceptWindow).foldlM (confirm p) p.anticipated
  let heap ← negConfirmAll p.mem.heap p.t anticipated
  let anticipated := anticipated.filter (fun a => decide (a.deadline > p.t))
  traceStep { p with mem := { p.mem with heap := heap }, anticipated := anticipated } draws

/-! ## second part of a step -/

/-- `BestEntry`, NarProc.rs 605-609 -/
structure BestEntry where
  unifiedSeq : Term
  exp : Rat
  evidence : Option Nat

/-- keep the better entry; ties keep the old one, NarProc.rs 637-652 and 760-775 -/
def better (best : Option BestEntry) (e : BestEntry) : Option BestEntry :=
  match best with
  | some b => if e.exp > b.exp then some e else some b
  | none => some e

/-- one iteration of the search for a goal reachable from the current state, NarProc.rs 624-657 -/
def bestByState (p : Proc) (best : Option BestEntry) (perceptIdx : Nat) : R (Option BestEntry) :=
  match recentEvent p.trace perceptIdx with
  | none => .ok best
  | some ev => do
    let (exp, found) ← selHighestExpGoalByState p.goals ev.name
    match found with
    | some (e, unified) => .ok (better best { unifiedSeq := unified, exp := exp, evidence := e.evidence })
    | none => .ok best

/-- derive the goal back over the chain of rules, NarProc.rs 733-748: the carried goal and the sequence of the
rule visited last -/
def carryBack (heap : List Sentence) (st : Term × Tv × Option Term) (r : Nat) : R (Term × Tv × Option Term) := do
  let b ← indexAt heap r
  let goal := newEternalSentenceByTv st.1 .GOAL st.2.1 ⟨[-1]⟩
  let conclOpt ← infGoalBelief goal b
  let concl ← unwrap conclOpt
  let tv ← retTv concl
  let tv ← unwrap tv
  let cond ← retSeqCond2 concl.term
  .ok (cond, tv, some concl.term)

/-- `convTermToStr` for printing (Term.rs 287-373): an empty compound has no text and panics -/
def printTerm (t : Term) : R Unit :=
  match convTermToStr t with
  | some _ => .ok ()
  | none => .error .index

/-- the decision made by a prediction which hit the goal `hit`, NarProc.rs 726-778; `chain` starts with the rule
used first -/
def decidePredicted (heap : List Sentence) (predicted : Term) (hit : Entry) (chain : List Nat)
    (best : Option BestEntry) : R (Option BestEntry) := do
  let tv ← retTv hit.sentence
  let tv ← unwrap tv
  let (_, tv, unifiedSeqOpt) ← chain.reverse.foldlM (carryBack heap) (predicted, tv, none)
  match unifiedSeqOpt with
  | some unifiedSeq => do
    let first ← indexAt chain 0
    printTerm unifiedSeq
    .ok (better best { unifiedSeq := unifiedSeq, exp := Tv.calcExp tv, evidence := some first })
  | none => .ok best

/-- the forward prediction, NarProc.rs 718-819, with `steps` steps left -/
def predict (p : Proc) : Nat → Term → List Nat → Option BestEntry → List Nat → R (Option BestEntry × List Nat)
  | 0, _, _, best, rng => .ok (best, rng)
  | steps + 1, predicted, chain, best, rng =>
    match (if chain.length > 0 then goalQuery p.goals predicted else none) with
    | some hit => do
      let best ← decidePredicted p.mem.heap predicted hit chain best
      .ok (best, rng)
    | none => do
      let found ← queryByAntecedent predicted p.mem
      if found.length = 0 then .ok (best, rng)
      else do
        let (i, rng) ← genRange rng found.length
        let r ← indexAt found i
        let b ← indexAt p.mem.heap r
        let pred ← retPred b.term
        predict p steps pred (chain ++ [r]) best rng

/-- the prediction from the last events, NarProc.rs 699-823 -/
def predictAll (p : Proc) (best : Option BestEntry) (rng : List Nat) : R (Option BestEntry × List Nat) :=
  match retLastEvents p.trace with
  | some evs => evs.foldlM (fun st ev => predict p 3 ev.name [] st.1 st.2) (best, rng)
  | none => .ok (best, rng)

/-- `enforce`, Utils.rs 5-9 -/
def enforce (b : Bool) : R Unit := if b then .ok () else .error .explicit

/-- the operator of the best entry becomes a goal, NarProc.rs 826-865 -/
def adoptBest (p : Proc) (best : Option BestEntry) : R Proc :=
  match best with
  | none => .ok p
  | some b =>
    if b.exp > p.threshold then
      match b.evidence with
      | none => .ok p
      | some evidence => do
        printTerm b.unifiedSeq
        enforce (isSeq b.unifiedSeq)
        let lastOp ← isSeqAndLastOp b.unifiedSeq
        enforce lastOp
        let opTerm ← retSeqLast b.unifiedSeq
        let picked ← indexAt p.mem.heap evidence
        printTerm picked.term
        let tv ← retTv picked
        let tv ← unwrap tv
        printTerm opTerm
        let goals ← addEntry p.goals p.t (newEternalSentenceByTv opTerm .GOAL tv picked.stamp) (some evidence) 0
        .ok { p with goals := goals }
    else .ok p

/-- one iteration of the search for the best desired executable goal, NarProc.rs 874-884; the state is the best
expectation and the best entry with its index -/
def bestActiveStep (threshold : Rat) (st : Rat × Option (Entry × Nat)) (ei : Entry × Nat) :
    R (Rat × Option (Entry × Nat)) :=
  if isDesired ei.1 then do
    let exp ← expOf ei.1.sentence
    if exp > st.1 ∧ exp > threshold then .ok (exp, some ei) else .ok st
  else .ok st

/-- the best desired executable goal, NarProc.rs 870-884 -/
def bestActive (p : Proc) : R (Option (Entry × Nat)) := do
  let (_, best) ← p.goals.activeSet.zipIdx.foldlM (bestActiveStep p.threshold) (0, none)
  .ok best

/-- the deadline of an anticipation, NarProc.rs 918-924; a negative index wraps around and panics -/
def deadlineOf (p : Proc) (evidence : Sentence) : R Int :=
  let idx : Int := match evidence.expDt with
    | some d => d
    | none => 0
  if idx < 0 then .error .index
  else do
    let interval ← indexAt p.table idx.toNat
    .ok (p.t + interval)

/-- take the best executable goal as action, NarProc.rs 887-940 -/
def pickAction (p : Proc) (best : Option (Entry × Nat)) : R (Proc × Option Term) :=
  match best with
  | none => .ok (p, none)
  | some (e, idx) =>
    match e.evidence with
    | none => .ok (p, none)
    | some evidence =>
      match decodeOp e.sentence.term with
      | none => .ok (p, none)
      | some _ => do
        let picked ← indexAt p.mem.heap evidence
        let deadline ← deadlineOf p picked
        .ok ({ p with
          goals := { p.goals with activeSet := p.goals.activeSet.eraseIdx idx }
          anticipated := if p.enAnticipation then p.anticipated ++ [⟨evidence, deadline⟩] else p.anticipated },
          some e.sentence.term)

/-- `{SELF}` -/
def selfTerm : Term := .SetExt [.Name "SELF"]

/-- motor babbling, NarProc.rs 945-966 -/
def babble (p : Proc) (picked : Option Term) (rng : List Nat) : R (Option Term × List Nat) :=
  match picked with
  | some a => .ok (some a, rng)
  | none =>
    if p.enBabbling && p.ops.length > 0 then do
      let (d, rng) ← genRange rng (p.ops.length * 9)
      match p.ops[d]? with
      | some op => if op.babbleable then .ok (some (encodeOp [selfTerm] op.name), rng) else .ok (none, rng)
      | none => .ok (none, rng)
    else .ok (none, rng)

/-- the effect of an operator: the name, the arguments and the reasoner -/
abbrev Call := String → List Term → Proc → R Proc

/-- execution of the picked action, NarProc.rs 969-988; the second component is the executed action -/
def execute (call : Call) (p : Proc) (picked : Option Term) : R (Proc × Option Term) :=
  match picked with
  | none => .ok (p, none)
  | some term => do
    let (args, name) ← unwrap (decodeOp term)
    match retOpByName p.ops name with
    | some _ => do
      let p ← call name args p
      printTerm term
      .ok (eventHappened p ⟨term, p.t, p.t⟩, some term)
    | none => .ok (p, none)

/-- limiting the memory, NarProc.rs 992-995 -/
def limitMem (p : Proc) : R PMem := if p.t.tmod 101 = 1 then limitMemoryP p.mem p.nConcepts else .ok p.mem

/-- limiting the goals, NarProc.rs 996-999 -/
def limitGoals (decay : Int → Rat) (p : Proc) : R GoalSystem :=
  if p.t.tmod 13 = 1 then goalLimitMemory decay p.goals p.t else .ok p.goals

/-- limiting the window and the memories, NarProc.rs 990-999 -/
def limitAll (decay : Int → Rat) (p : Proc) : R Proc := do
  let mem ← limitMem p
  let goals ← limitGoals decay p
  .ok { p with trace := traceLimit p.trace, mem := mem, goals := goals }

/-- goal inference as long as there is time, NarProc.rs 1004-1027; one triple of draws per inference -/
def inferGoals (p : Proc) (infs : List (Rat × Rat × List Nat)) : R Proc := do
  let goals ← infs.foldlM (fun g d => sampleAndInference g p.t p.mem d.1 d.2.1 d.2.2) p.goals
  .ok { p with goals := goals }

/-- what is decided in a step before anything is executed, NarProc.rs 603-966 -/
def decideAction (p : Proc) (rng : List Nat) : R (Proc × Option Term × List Nat) := do
  let best ← (List.range p.perceptWindow).foldlM (bestByState p) none
  let (best, rng) ← predictAll p best rng
  let p ← adoptBest p best
  let active ← bestActive p
  let (p, picked) ← pickAction p active
  let (picked, rng) ← babble p picked rng
  .ok (p, picked, rng)

/-- `narStep1`, NarProc.rs 600-1031; the second component is the executed action -/
def narStep1 (call : Call) (decay : Int → Rat) (p : Proc) (rng : List Nat) (infs : List (Rat × Rat × List Nat)) :
    R (Proc × Option Term) := do
  let (p, picked, _) ← decideAction p rng
  let (p, executed) ← execute call p picked
  let p ← limitAll decay p
  let p ← inferGoals p infs
  .ok ({ p with t := p.t + 1 }, executed)

/-! ## input -/

/-- an event or goal or temporal rule is put in, Nar.rs 66-124: events -/
def inputEvent (p : Proc) (term : Term) : Proc := eventHappened p ⟨term, p.t, p.t⟩

/-- goals, Nar.rs 75-78 -/
def inputGoal (p : Proc) (term : Term) (tv : Tv) (stampId : Int) : R Proc := do
  let goals ← addEntry p.goals p.t (newEternalSentenceByTv term .GOAL tv ⟨[stampId]⟩) none 0
  .ok { p with goals := goals }

/-- temporal knowledge, Nar.rs 101-108; `nBeliefs` is the number of the declarative reasoner -/
def inputRule (p : Proc) (term : Term) (tv : Tv) (stampId : Int) (nBeliefs : Nat) (rng : List Nat) : R Proc := do
  let s := { newEternalSentenceByTv term .JUGEMENT tv ⟨[stampId]⟩ with evi := some (.CNT 10 10) }
  let m ← memAddEvidence p.mem s nBeliefs p.t rng
  .ok { p with mem := m }

end Nar
