import Verif.Model.Mem
import Verif.Model.Rules
/-!
# Tasks, attention, questions and the reasoning cycle  (models /repo/src/NarWorkingCycle.rs 975-1999)

`Arc<RwLock<Task>>` is a reference into a heap of tasks (`Shared.heap`): the same task is reachable from
`judgementTasks` and from `judgementTasksByTerm`, and a credit update through one is visible through the
other.  The exponential decay of the credit is a parameter (`Cfg.decay`), random draws are parameters.
Calls of question handlers are returned as a list.
-/
namespace Nar
open Term

/-- `Task`, NarWorkingCycle.rs 976-991. -/
structure Task where
  sentence : Sentence
  credit : Rat
  qaCredit : Rat
  mulCredit : Rat
  id : Int
  derivTime : Int
  deriving Repr

/-- `Task2`, NarWorkingCycle.rs 1004-1012; of the handler only its presence is modelled. -/
structure Task2 where
  sentence : Sentence
  handler : Bool
  bestAnswerExp : Rat
  prio : Rat
  deriving Repr

/-- configuration: complexity limit and table size (Nar.rs 45-46), number of global question handlers, and
the decay factor `exp(-0.001 * dt)` as a function of `dt` (NarWorkingCycle.rs 994-997). -/
structure Cfg where
  maxComplexity : Int
  nBeliefs : Nat
  nGlobal : Nat
  decay : Int → Rat

/-- `taskCalcCredit`, NarWorkingCycle.rs 993-1001. -/
def taskCalcCredit (decay : Int → Rat) (task : Task) (cycleCounter : Int) : Rat :=
  let dt := cycleCounter - task.derivTime
  let qaCredit := task.qaCredit * (1/5)
  (qaCredit + task.credit) * decay dt * task.mulCredit

/-- `DeclarativeShared`, NarWorkingCycle.rs 1031-1049. -/
structure Shared where
  heap : List Task
  /-- references into `heap` -/
  judgementTasks : List Nat
  /-- term and references into `heap` -/
  judgementTasksByTerm : List (Term × List Nat)
  questionTasks : List Task2
  mem : Mem
  stampIdCounter : Int
  taskIdCounter : Int
  cycleCounter : Int
  procMem : Mem

/-- `createMem2`, NarWorkingCycle.rs 1066-1086 (the worker thread is modelled by `work`). -/
def createShared : Shared :=
  { heap := [], judgementTasks := [], judgementTasksByTerm := [], questionTasks := [], mem := [],
    stampIdCounter := 0, taskIdCounter := 1000, cycleCounter := 0, procMem := [] }

/-- reading through references -/
def Shared.derefs (sh : Shared) (refs : List Nat) : R (List Task) := refs.mapM (indexAt sh.heap)

/-! ## selection -/

/-- the loop of `taskSelByCreditRandom`, NarWorkingCycle.rs 1312-1320. -/
def selLoop (weights : List Rat) (threshold acc : Rat) (idx : Nat) : Option Nat :=
  match weights with
  | [] => none
  | w :: ws => if acc + w ≥ threshold then some idx else selLoop ws threshold (acc + w) (idx + 1)

/-- common body of `taskSelByCreditRandom`, `task2SelByCreditRandom` and `conceptSelByAvRandom`;
`arr.len()-1` underflows for an empty array. -/
def selByWeight (selVal : Rat) (weights : List Rat) : R Nat :=
  match selLoop weights (selVal * weights.sum) 0 0 with
  | some i => .ok i
  | none => if weights.length = 0 then .error .index else .ok (weights.length - 1)

/-- `taskSelByCreditRandom`, NarWorkingCycle.rs 1310-1323. -/
def taskSelByCreditRandom (decay : Int → Rat) (selVal : Rat) (arr : List Task) (cycleCounter : Int) : R Nat :=
  selByWeight selVal (arr.map (fun iv => taskCalcCredit decay iv cycleCounter))

/-- the loop of `taskSelByCreditTop`, NarWorkingCycle.rs 1327-1336. -/
def topLoop (decay : Int → Rat) (cycleCounter : Int) : List Task → Nat → Nat × Rat → Nat × Rat
  | [], _, best => best
  | iv :: arr, idx, best =>
      let iCredit := taskCalcCredit decay iv cycleCounter
      topLoop decay cycleCounter arr (idx + 1) (if iCredit > best.2 then (idx, iCredit) else best)

/-- `taskSelByCreditTop`, NarWorkingCycle.rs 1326-1339. -/
def taskSelByCreditTop (decay : Int → Rat) (arr : List Task) (cycleCounter : Int) : Nat :=
  (topLoop decay cycleCounter arr 0 (0, -5000)).1

/-- `task2SelByCreditRandom`, NarWorkingCycle.rs 1341-1354. -/
def task2SelByCreditRandom (selVal : Rat) (arr : List Task2) : R Nat :=
  selByWeight selVal (arr.map (·.prio))

/-- the closure of `conceptSelByAvRandom`, NarWorkingCycle.rs 1359-1363. -/
def avOf (s : Sentence) : R Rat :=
  if s.punct = .QUESTION then .error .explicit
  else do
    let tv ← retTv s
    let tv ← unwrap tv
    .ok tv.c

/-- `conceptSelByAvRandom`, NarWorkingCycle.rs 1358-1378. -/
def conceptSelByAvRandom (selVal : Rat) (arr : List Sentence) : R Nat := do
  let ws ← arr.mapM avOf
  selByWeight selVal ws

/-- the loop of `tasksSelHighestCreditIdx`, NarWorkingCycle.rs 1385-1393. -/
def highestLoop (decay : Int → Rat) (cycleCounter : Int) : List Task → Nat → Nat → Task → Nat
  | [], _, idxRes, _ => idxRes
  | sel :: arr, idx, idxRes, res =>
      if taskCalcCredit decay sel cycleCounter > taskCalcCredit decay res cycleCounter
      then highestLoop decay cycleCounter arr (idx + 1) idx sel
      else highestLoop decay cycleCounter arr (idx + 1) idxRes res

/-- `tasksSelHighestCreditIdx`, NarWorkingCycle.rs 1381-1395. -/
def tasksSelHighestCreditIdx (decay : Int → Rat) (arr : List Task) (cycleCounter : Int) : Option Nat :=
  match arr with
  | [] => none
  | a :: arr => some (highestLoop decay cycleCounter arr 1 0 a)

/-! ## adding tasks -/

/-- `HashMap` entry update of `populateTaskByTermLookup`, NarWorkingCycle.rs 1405-1412. -/
def pushRef (m : List (Term × List Nat)) (t : Term) (r : Nat) : List (Term × List Nat) :=
  match m with
  | [] => [(t, [r])]
  | (k, v) :: m => if checkEqTerm k t then (k, v ++ [r]) :: m else (k, v) :: pushRef m t r

/-- `populateTaskByTermLookup`, NarWorkingCycle.rs 1401-1414. -/
def populateTaskByTermLookup (m : List (Term × List Nat)) (term : Term) (r : Nat) : List (Term × List Nat) :=
  (retSubterms term).foldl (fun m iSubTerm => pushRef m iSubTerm r) m

/-- `HashMap::get` on the lookup -/
def lookupRefs (m : List (Term × List Nat)) (t : Term) : Option (List Nat) :=
  (m.find? (fun p => checkEqTerm p.1 t)).map (·.2)

/-- `divCreditByComplexity`, NarWorkingCycle.rs 1615-1618 (complexity 0 makes the credits NaN or infinite). -/
def divCreditByComplexity (task : Task) : R Task :=
  if calcComplexity task.sentence.term = 0 then .error .nan
  else .ok { task with
    credit := task.credit / (calcComplexity task.sentence.term : Rat)
    qaCredit := task.qaCredit / (calcComplexity task.sentence.term : Rat) }

/-- NarWorkingCycle.rs 1583-1585: the payment for complexity is optional. -/
def payCredit (calcCredit : Bool) (task : Task) : R Task :=
  if calcCredit then divCreditByComplexity task else .ok task

/-- the duplicate scan of `memAddTask`, NarWorkingCycle.rs 1560-1566. -/
def taskExists (tasks : List Task) (s : Sentence) : Bool :=
  tasks.any (fun ijt => checkEqTerm s.term ijt.sentence.term && Stamp.checkSame s.stamp ijt.sentence.stamp)

/-- the loop over `toAddToTasks` of `memAddTask`, NarWorkingCycle.rs 1554-1610. -/
def addTasks (sh : Shared) (calcCredit : Bool) (mulCredit : Rat) : List Sentence → R Shared
  | [] => .ok sh
  | s :: rest =>
    match s.punct with
    | .JUGEMENT => do
        let tasks ← sh.derefs sh.judgementTasks
        if taskExists tasks s then .ok sh
        else do
          let task : Task := { sentence := shallowCopySentence s, credit := 1, qaCredit := 0,
                               mulCredit := mulCredit, id := sh.taskIdCounter, derivTime := sh.cycleCounter }
          let task ← payCredit calcCredit task
          let r := sh.heap.length
          addTasks { sh with
              taskIdCounter := sh.taskIdCounter + 1
              heap := sh.heap ++ [task]
              judgementTasks := sh.judgementTasks ++ [r]
              judgementTasksByTerm := populateTaskByTermLookup sh.judgementTasksByTerm s.term r }
            calcCredit mulCredit rest
    | .QUESTION =>
        addTasks { sh with questionTasks := sh.questionTasks ++
            [{ sentence := shallowCopySentence s, handler := false, bestAnswerExp := 0, prio := 1 }] }
          calcCredit mulCredit rest
    | .GOAL => addTasks sh calcCredit mulCredit rest

/-- `memAddTask`, NarWorkingCycle.rs 1531-1612. -/
def memAddTask (cfg : Cfg) (sh : Shared) (sentence : Sentence) (calcCredit : Bool) (mulCredit : Rat)
    (currentTime : Int) : R Shared :=
  if (calcComplexity sentence.term : Int) > cfg.maxComplexity then .ok sh
  else do
    let (mem, revisionConcl) ← addBelief sh.mem sentence cfg.nBeliefs currentTime
    addTasks { sh with mem := mem } calcCredit mulCredit (sentence :: revisionConcl.toList)

/-! ## questions and answers -/

/-- which handler is called -/
inductive HandlerId
  | ofTask
  | global (i : Nat)
  deriving DecidableEq, Repr

/-- one call `handler.answer(question, answer)` -/
structure AnswerCall where
  handler : HandlerId
  question : Term
  answer : Sentence

/-- `qaTryAnswer`, NarWorkingCycle.rs 1625-1655 (the trace output is not modelled: it cannot fail here). -/
def qaTryAnswer (nGlobal : Nat) (qTask : Task2) (concl : Sentence) : R (Task2 × List AnswerCall) :=
  if concl.punct ≠ .JUGEMENT then .ok (qTask, [])
  else do
    let e ← expOf concl
    if e > qTask.bestAnswerExp then
      match unify qTask.sentence.term concl.term with
      | some _ =>
          let calls := (if qTask.handler then [⟨.ofTask, qTask.sentence.term, concl⟩] else []) ++
            (List.range nGlobal).map (fun i => ⟨.global i, qTask.sentence.term, concl⟩)
          .ok ({ qTask with bestAnswerExp := e }, calls)
      | none => .ok (qTask, [])
    else .ok (qTask, [])

/-! ## the reasoning cycle -/

/-- change a task through a reference -/
def Shared.modifyTask (sh : Shared) (r : Nat) (f : Task → Task) : Shared :=
  { sh with heap := sh.heap.modify r f }

/-- NarWorkingCycle.rs 1673-1688: transfer credit from one question to the tasks sharing a sub-term. -/
def creditQuestion (sh : Shared) (q : Task2) : Shared :=
  (retSubterms q.sentence.term).foldl (fun sh iSubTerm =>
    match lookupRefs sh.judgementTasksByTerm iSubTerm with
    | some refs => refs.foldl (fun sh r => sh.modifyTask r (fun t => { t with qaCredit := t.qaCredit + q.prio })) sh
    | none => sh) sh

/-- NarWorkingCycle.rs 1667-1691. -/
def creditQuestions (sh : Shared) : Shared := sh.questionTasks.foldl creditQuestion sh

/-- NarWorkingCycle.rs 1693-1706: base credit, then payment for complexity. -/
def baseCredit (sh : Shared) : R Shared := do
  let sh1 := sh.judgementTasks.foldl
    (fun sh r => sh.modifyTask r (fun t => { t with credit := t.credit + 1/2 })) sh
  sh1.judgementTasks.foldlM (fun sh r => do
    let t ← indexAt sh.heap r
    let t' ← divCreditByComplexity t
    .ok (sh.modifyTask r (fun _ => t'))) sh1

/-- NarWorkingCycle.rs 1722-1731: is the question about `=/>`? -/
def isTemporalQuestion : Term → Bool
  | .Stmt .PREDIMPL _ _ => true
  | _ => false

/-- NarWorkingCycle.rs 1740-1753: try all beliefs of the concepts of the question's sub-terms. -/
def relevantBeliefs (sh : Shared) (q : Task2) : List Sentence :=
  let m := if isTemporalQuestion q.sentence.term then sh.procMem else sh.mem
  (retUniqueSubterms q.sentence.term).flatMap (fun t => (retBeliefsOfConcept m t).getD [])

/-- the candidate loop, threading the question task -/
def qaTryAll (nGlobal : Nat) (q : Task2) : List Sentence → R (Task2 × List AnswerCall)
  | [] => .ok (q, [])
  | b :: bs => do
      let (q1, c1) ← qaTryAnswer nGlobal q b
      let (q2, c2) ← qaTryAll nGlobal q1 bs
      .ok (q2, c1 ++ c2)

/-- NarWorkingCycle.rs 1708-1756: sample a question and try to answer it. -/
def answerSampled (cfg : Cfg) (selVal : Rat) (sh : Shared) : R (Shared × List AnswerCall) :=
  if sh.questionTasks.length > 0 then do
    let qIdx ← task2SelByCreditRandom selVal sh.questionTasks
    let q ← indexAt sh.questionTasks qIdx
    let (q', calls) ← qaTryAll cfg.nGlobal q (relevantBeliefs sh q)
    .ok ({ sh with questionTasks := sh.questionTasks.set qIdx q' }, calls)
  else .ok (sh, [])

/-- `Vec::swap_remove` -/
def swapRemove {α} (l : List α) (i : Nat) : List α :=
  match l.getLast? with
  | none => l
  | some last => (l.set i last).dropLast

/-- `DeriverWorkMessage`, NarWorkingCycle.rs 1016-1020 (task references). -/
structure Msg where
  primary : Nat
  secondary : List Nat
  cycleCounter : Int
  deriving Repr

/-- NarWorkingCycle.rs 1783-1789: select the best task and remove it from the working list. -/
def selectPrimary (cfg : Cfg) (sh : Shared) : R (Shared × Option Nat) :=
  if sh.judgementTasks.length > 0 then do
    let tasks ← sh.derefs sh.judgementTasks
    let selIdx := taskSelByCreditTop cfg.decay tasks sh.cycleCounter
    let r ← indexAt sh.judgementTasks selIdx
    .ok ({ sh with judgementTasks := swapRemove sh.judgementTasks selIdx }, some r)
  else .ok (sh, none)

/-- NarWorkingCycle.rs 1812-1837: append the references not yet present (by task id). -/
def addEligible (sh : Shared) (acc : List Nat) (r : Nat) : R (List Nat) := do
  let t ← indexAt sh.heap r
  let ts ← sh.derefs acc
  .ok (if ts.any (fun iSec => iSec.id == t.id) then acc else acc ++ [r])

/-- stable insertion sort ascending by the first component (`sort_by` at NarWorkingCycle.rs 1863) -/
def insertAsc {α} (a : Nat × α) : List (Nat × α) → List (Nat × α)
  | [] => [a]
  | b :: l => if a.1 ≤ b.1 then a :: b :: l else b :: insertAsc a l

/-- see `insertAsc` -/
def sortAsc {α} : List (Nat × α) → List (Nat × α)
  | [] => []
  | a :: l => insertAsc a (sortAsc l)

/-- NarWorkingCycle.rs 1799-1866: the secondary tasks of a primary task: at most 51 per sub-term, without
repetition, the 300 simplest. -/
def secondaryElligable (sh : Shared) (primary : Nat) : R (List Nat) := do
  let p ← indexAt sh.heap primary
  let cands := (retUniqueSubterms p.sentence.term).flatMap
    (fun t => ((lookupRefs sh.judgementTasksByTerm t).getD []).take 51)
  let acc ← cands.foldlM (addEligible sh) []
  let arr ← acc.mapM (fun r => do let t ← indexAt sh.heap r; .ok (calcComplexity t.sentence.term, r))
  .ok (((sortAsc arr).take (min (sortAsc arr).length 300)).map (·.2))

/-- `usageUpdate` on the cell of a task, NarWorkingCycle.rs 1895 and 1898: the task shares it with the copies of its sentence in
memory (`shallowCopySentence` at NarMem.rs 72, 99, 127-128). -/
def useTask (currentTime : Int) (sh : Shared) (r : Nat) : Shared :=
  match sh.heap[r]? with
  | some task =>
    let cell := task.sentence.usage.cell
    { sh with
      heap := sh.heap.map (fun t => { t with sentence := t.sentence.useCell cell currentTime })
      mem := sh.mem.useCell cell currentTime }
  | none => sh

/-- NarWorkingCycle.rs 1892-1899: usage of primary and secondary tasks. -/
def updateUsage (sh : Shared) (msg : Msg) (currentTime : Int) : Shared :=
  (msg.primary :: msg.secondary).foldl (useTask currentTime) sh

/-- NarWorkingCycle.rs 1908-1933: keep the 30 best working tasks above the minimal priority. -/
def cleanupTasks (cfg : Cfg) (sh : Shared) : R Shared := do
  let keyed ← sh.judgementTasks.mapM (fun r => do
    let t ← indexAt sh.heap r
    .ok (taskCalcCredit cfg.decay t sh.cycleCounter, r))
  let sorted := sortDesc keyed
  let limited := sorted.take (min 30 sorted.length)
  let filtered := limited.filter (fun p => decide (p.1 > 1/1000))
  .ok { sh with judgementTasks := filtered.map (·.2) }

/-- NarWorkingCycle.rs 1936-1959: rebuild the lookup from the working tasks. -/
def rebuildLookup (sh : Shared) : R Shared := do
  let terms ← sh.judgementTasks.mapM (fun r => do let t ← indexAt sh.heap r; .ok (t.sentence.term, r))
  let m := terms.foldl (fun m p => populateTaskByTermLookup m p.1 p.2) []
  .ok { sh with judgementTasksByTerm := m }

/-- `flushTasks`, NarWorkingCycle.rs 1973-1977. -/
def flushTasks (sh : Shared) : Shared :=
  { sh with judgementTasks := [], judgementTasksByTerm := [] }

/-- NarWorkingCycle.rs 1758-1885: choose primary and secondary tasks and build the message. -/
def buildMsg (cfg : Cfg) (sh : Shared) : R (Shared × Option Msg) := do
  let (sh, prim) ← selectPrimary cfg sh
  match prim with
  | none => .ok (sh, none)
  | some p => do
      let sec ← secondaryElligable sh p
      .ok (sh, some { primary := p, secondary := sec, cycleCounter := sh.cycleCounter })

/-- NarWorkingCycle.rs 1892-1897, if a task was selected. -/
def useMsg (sh : Shared) (currentTime : Int) : Option Msg → Shared
  | some msg => updateUsage sh msg currentTime
  | none => sh

/-- NarWorkingCycle.rs 1902-1960: every 111th cycle the working list is trimmed and the lookup rebuilt. -/
def everyCleanup (cfg : Cfg) (sh : Shared) : R Shared :=
  if sh.cycleCounter % 111 = 0 then do
    let sh ← cleanupTasks cfg sh
    rebuildLookup sh
  else .ok sh

/-- NarWorkingCycle.rs 1962-1967: every 173rd cycle concepts are forgotten. -/
def everyForget (sh : Shared) : R Shared :=
  if sh.cycleCounter % 173 = 0 then do
    let m ← limitMemory sh.mem 3000
    .ok { sh with mem := m }
  else .ok sh

/-- `reasonCycle`, NarWorkingCycle.rs 1660-1971, as seen by the main thread; the message for the worker is
returned.  `currentTime` is the already incremented clock. -/
def reasonCycle (cfg : Cfg) (selVal : Rat) (currentTime : Int) (sh : Shared) :
    R (Shared × Option Msg × List AnswerCall) := do
  let sh ← baseCredit (creditQuestions { sh with cycleCounter := sh.cycleCounter + 1 })
  let (sh, calls) ← answerSampled cfg selVal sh
  let (sh, msg) ← buildMsg cfg sh
  let sh ← everyCleanup cfg (useMsg sh currentTime msg)
  let sh ← everyForget sh
  .ok (sh, msg, calls)

/-! ## the worker -/

/-- each conclusion has a new cell of counters (NarWorkingCycle.rs 932 and 968), named by the cycle of the message and its
position -/
def nameCells (cycle : Int) (concl : List (Sentence × Rat)) : List (Sentence × Rat) :=
  concl.mapIdx fun i c => ({ c.1 with usage := ⟨0, 0, [cycle, i]⟩ }, c.2)

/-- all conclusions of the worker for one message, NarWorkingCycle.rs 1122-1257.  The first half of the
secondary tasks is processed twice (part A, and part B which ranges over all secondary tasks). -/
def workConclusions (sh : Shared) (msg : Msg) : R (List (Sentence × Rat)) := do
  let p ← indexAt sh.heap msg.primary
  let single ← infSinglePremise2 p.sentence
  let secs ← sh.derefs msg.secondary
  let partA ← ((secs.zip msg.secondary).take (msg.secondary.length / 2)).mapM (fun (s, r) =>
    if r = msg.primary then .ok [] else do
      let (cs, _) ← inference p.sentence s.sentence
      .ok cs)
  let partB ← secs.mapM (fun s => do
    let (cs, _) ← inference p.sentence s.sentence
    .ok cs)
  let beliefs := match sh.mem.get p.sentence.term with
    | some c => c.beliefsByExp ++ c.beliefsByUsage
    | none => []
  let partC ← beliefs.mapM (fun b => do
    let (cs, _) ← inference p.sentence b
    .ok cs)
  .ok (nameCells msg.cycleCounter (single ++ partA.flatten ++ partB.flatten ++ partC.flatten))

/-- NarWorkingCycle.rs 1271-1275: offer one conclusion to every question. -/
def qaOffer (nGlobal : Nat) (concl : Sentence) : List Task2 → R (List Task2 × List AnswerCall)
  | [] => .ok ([], [])
  | q :: qs => do
      let (q', c1) ← qaTryAnswer nGlobal q concl
      let (qs', c2) ← qaOffer nGlobal concl qs
      .ok (q' :: qs', c1 ++ c2)

/-- NarWorkingCycle.rs 1270-1276 for one conclusion. -/
def offerConclusion (cfg : Cfg) (sh : Shared) (concl : Sentence) : R (Shared × List AnswerCall) :=
  if concl.punct = .JUGEMENT then do
    let (qs, calls) ← qaOffer cfg.nGlobal concl sh.questionTasks
    .ok ({ sh with questionTasks := qs }, calls)
  else .ok (sh, [])

/-- the offer loop -/
def offerAll (cfg : Cfg) (sh : Shared) : List Sentence → R (Shared × List AnswerCall)
  | [] => .ok (sh, [])
  | c :: cs => do
      let (sh1, c1) ← offerConclusion cfg sh c
      let (sh2, c2) ← offerAll cfg sh1 cs
      .ok (sh2, c1 ++ c2)

/-- the worker's handling of one message, NarWorkingCycle.rs 1110-1300, as one atomic step. -/
def work (cfg : Cfg) (sh : Shared) (msg : Msg) : R (Shared × List AnswerCall) := do
  let concl ← workConclusions sh msg
  let p ← indexAt sh.heap msg.primary
  let (sh, calls) ← offerAll cfg sh (concl.map (·.1))
  let sh ← concl.foldlM (fun sh c => memAddTask cfg sh c.1 true (1 * p.mulCredit * c.2) msg.cycleCounter) sh
  .ok (sh, calls)

end Nar
