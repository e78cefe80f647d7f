import Verif.Model.Task
/-!
# Additions which run at the same time  (models `memAddTask`, NarWorkingCycle.rs 1530-1613, at the granularity of its locks)

The thread which runs commands and the worker both call `memAddTask`.  It takes one short lock after the other; between two of
them the other thread may do anything.  Here an addition is a sequence of stages, each of which happens under one lock.
-/
namespace Nar
open Term

/-- where an addition stands -/
inductive Stage
  /-- in `memReviseBelief`: the sub-terms whose concepts are still to be revised, each under its own lock (1433), and the
  pooled belief so far; then storing (1550) -/
  | revise (rest : List Term) (res : Option Sentence)
  /-- before the loop body for the next sentence of `toAddToTasks` (1554) -/
  | each (todo : List Sentence)
  /-- the task was made (1557-1583) but is not yet in the working list (1588) -/
  | push (task : Task) (term : Term) (todo : List Sentence)
  /-- the task is in the working list but not yet in the lookup by term (1594-1595) -/
  | file (r : Nat) (term : Term) (todo : List Sentence)

/-- an addition in progress, with the arguments of `memAddTask`, NarWorkingCycle.rs 1530 -/
structure Adding where
  sentence : Sentence
  calcCredit : Bool
  mulCredit : Rat
  now : Int
  stage : Stage

/-- the beginning of `memAddTask`, NarWorkingCycle.rs 1531-1537; `memReviseBelief` does nothing unless the sentence is a
judgement (1429, 1523) -/
def beginAdding (cfg : Cfg) (s : Sentence) (calcCredit : Bool) (mulCredit : Rat) (now : Int) : Option Adding :=
  if (calcComplexity s.term : Int) > cfg.maxComplexity then none
  else some { sentence := s, calcCredit := calcCredit, mulCredit := mulCredit, now := now,
              stage := .revise (if s.punct = .JUGEMENT then retSubterms s.term else []) none }

/-- looking for the task and making it, NarWorkingCycle.rs 1556-1583, under one lock for reading; the identifier is taken
by an atomic operation (1569).  If the task exists the whole addition ends (1563). -/
def makeTask (sh : Shared) (calcCredit : Bool) (mulCredit : Rat) (s : Sentence) : R (Shared × Option Task) := do
  let tasks ← sh.derefs sh.judgementTasks
  if taskExists tasks s then .ok (sh, none)
  else do
    let task : Task := { sentence := shallowCopySentence s, credit := 1, qaCredit := 0,
                         mulCredit := mulCredit, id := sh.taskIdCounter, derivTime := sh.cycleCounter }
    let task ← payCredit calcCredit task
    .ok ({ sh with taskIdCounter := sh.taskIdCounter + 1 }, some task)

/-- the next section of an addition, NarWorkingCycle.rs 1537-1612 -/
def Adding.step (cfg : Cfg) (sh : Shared) (a : Adding) : R (Shared × Option Adding) :=
  match a.stage with
  | .revise (t :: ts) res => do
      let st ← reviseAt a.sentence (sh.mem, res) t
      .ok ({ sh with mem := st.1 }, some { a with stage := .revise ts st.2 })
  | .revise [] (some r) => .ok (sh, some { a with stage := .each [a.sentence, r] })
  | .revise [] none => do
      let m ← storeInConcepts sh.mem a.sentence cfg.nBeliefs a.now
      .ok ({ sh with mem := m }, some { a with stage := .each [a.sentence] })
  | .each [] => .ok (sh, none)
  | .each (s :: todo) =>
    match s.punct with
    | .JUGEMENT => do
        let st ← makeTask sh a.calcCredit a.mulCredit s
        .ok (st.1, st.2.map fun task => { a with stage := .push task s.term todo })
    | .QUESTION =>
        .ok ({ sh with questionTasks := sh.questionTasks ++
            [{ sentence := shallowCopySentence s, handler := false, bestAnswerExp := 0, prio := 1 }] },
          some { a with stage := .each todo })
    | .GOAL => .ok (sh, some { a with stage := .each todo })
  | .push task term todo =>
      .ok ({ sh with heap := sh.heap ++ [task], judgementTasks := sh.judgementTasks ++ [sh.heap.length] },
        some { a with stage := .file sh.heap.length term todo })
  | .file r term todo =>
      .ok ({ sh with judgementTasksByTerm := populateTaskByTermLookup sh.judgementTasksByTerm term r },
        some { a with stage := .each todo })

/-- the shared state, and for each thread the addition it is busy with -/
structure Race where
  sh : Shared
  adding : Nat → Option Adding

/-- thread `k` is busy with `a`, or with nothing -/
def Race.put (st : Race) (sh : Shared) (k : Nat) (a : Option Adding) : Race :=
  { sh := sh, adding := fun j => if j = k then a else st.adding j }

end Nar
