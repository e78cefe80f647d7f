import Verif.Model.Task
import Verif.Spec.Mem
import Verif.Spec.Unify
/-! # Specification vocabulary for tasks, questions and the reasoning cycle -/
namespace Nar
open Term

/-- The atomic actions of the main thread and of the worker on the shared declarative state, in any order
and interleaving. -/
inductive TaskOp
  /-- `memAddTask` by input, by the worker or by an operator -/
  | add (s : Sentence) (calcCredit : Bool) (mulCredit : Rat) (now : Int)
  /-- next cycle -/
  | tick
  /-- transfer of question priority to tasks -/
  | creditQuestions
  /-- base credit and payment for complexity -/
  | baseCredit
  /-- sample a question and try to answer it from memory -/
  | answer (selVal : Rat)
  /-- offer a derived conclusion to all questions -/
  | offer (concl : Sentence)
  /-- take the best task out of the working list -/
  | select
  /-- update usage of the tasks of a message -/
  | usage (msg : Msg) (now : Int)
  /-- periodic trimming of the working list -/
  | cleanup
  /-- periodic rebuilding of the lookup by term -/
  | rebuild
  /-- forget concepts -/
  | forget (n : Nat)
  /-- drop all tasks -/
  | flush
  /-- a new evidence id is handed out -/
  | newStampId
  /-- the procedural memory changed -/
  | procMem (m : Mem)

/-- perform one action -/
def TaskOp.run (cfg : Cfg) (sh : Shared) : TaskOp → R (Shared × List AnswerCall)
  | .add s cc mc now => (memAddTask cfg sh s cc mc now).map (·, [])
  | .tick => .ok ({ sh with cycleCounter := sh.cycleCounter + 1 }, [])
  | .creditQuestions => .ok (Nar.creditQuestions sh, [])
  | .baseCredit => (Nar.baseCredit sh).map (·, [])
  | .answer selVal => answerSampled cfg selVal sh
  | .offer concl => offerConclusion cfg sh concl
  | .select => (selectPrimary cfg sh).map (fun r => (r.1, []))
  | .usage msg now => .ok (updateUsage sh msg now, [])
  | .cleanup => (cleanupTasks cfg sh).map (·, [])
  | .rebuild => (rebuildLookup sh).map (·, [])
  | .forget n => (limitMemory sh.mem n).map (fun m => ({ sh with mem := m }, []))
  | .flush => .ok (flushTasks sh, [])
  | .newStampId => .ok ({ sh with stampIdCounter := sh.stampIdCounter + 1 }, [])
  | .procMem m => .ok ({ sh with procMem := m }, [])

/-- perform a history of actions and collect all calls of question handlers -/
def runTasks (cfg : Cfg) (ops : List TaskOp) : R (Shared × List AnswerCall) :=
  ops.foldlM (fun st op => do
    let (sh, calls) ← op.run cfg st.1
    .ok (sh, st.2 ++ calls)) (createShared, [])

/-- same statement and same evidence -/
def SameTask (a b : Task) : Prop :=
  a.sentence.term = b.sentence.term ∧ a.sentence.stamp.ids = b.sentence.stamp.ids

/-- the tasks in the working list -/
def Working (sh : Shared) (ws : List Task) : Prop := sh.derefs sh.judgementTasks = .ok ws

/-- the candidate is a judgement whose statement matches the question -/
def CanAnswer (q : Task2) (c : Sentence) : Prop :=
  c.punct = .JUGEMENT ∧ (unify q.sentence.term c.term).isSome = true

/-- the answers a handler received, in order -/
def answersTo (calls : List AnswerCall) (h : HandlerId) : List Sentence :=
  (calls.filter (fun c => c.handler = h)).map (·.answer)

/-- strictly better from answer to answer -/
def StrictlyImproving (answers : List Sentence) : Prop :=
  answers.Pairwise (fun a b => ∀ ea eb, Expectation a ea → Expectation b eb → ea < eb)

/-- the handlers which are called for a question -/
def Registered (n : Nat) (q : Task2) : HandlerId → Prop
  | .ofTask => q.handler = true
  | .global i => i < n

/-- multipliers of added tasks are not negative -/
def TaskOp.CreditSane : TaskOp → Prop
  | .add _ _ mulCredit _ => 0 ≤ mulCredit
  | _ => True

end Nar
