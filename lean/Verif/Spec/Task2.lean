import Verif.Spec.Task
/-! # Specification vocabulary for whole cycles of the declarative reasoner and its worker -/
namespace Nar
open Term

/-- How much attention a task gets: its own credit and a fifth of the credit it got from questions, less with age,
times its own factor. -/
def creditAt (decay : Int → Rat) (t : Task) (now : Int) : Rat :=
  (t.credit + t.qaCredit / 5) * decay (now - t.derivTime) * t.mulCredit

/-- belief `b` is in a belief table of the concept named `t` -/
def BeliefUnder (m : Mem) (t : Term) (b : Sentence) : Prop :=
  ∃ c, m.get t = some c ∧ (b ∈ c.beliefsByExp ∨ b ∈ c.beliefsByUsage)

/-- the question is about what follows in time -/
def IsTemporal (t : Term) : Prop := ∃ a b, t = .Stmt .PREDIMPL a b

/-- belief `b` is a candidate answer: it is in memory under the question or a sub-term of the question; temporal questions
are answered from procedural memory, others from declarative memory -/
def Candidate (sh : Shared) (q : Term) (b : Sentence) : Prop :=
  (IsTemporal q ∧ ∃ s, IsSubterm s q ∧ BeliefUnder sh.procMem s b) ∨
  (¬ IsTemporal q ∧ ∃ s, IsSubterm s q ∧ BeliefUnder sh.mem s b)

/-- the conclusion `c` with attention factor `w` follows from the two premises by a rule of inference -/
def Follows (p s : Sentence) (c : Sentence) (w : Rat) : Prop :=
  ∃ cs applied, inference p s = .ok (cs, applied) ∧ (c, w) ∈ cs

/-- the conclusion follows from the single premise -/
def FollowsAlone (p : Sentence) (c : Sentence) (w : Rat) : Prop :=
  ∃ cs, infSinglePremise2 p = .ok cs ∧ (c, w) ∈ cs

/-- what the worker may conclude for a message: from the selected task alone, from it and a partner, or from it and a
belief of the concept of its statement -/
def Concludes (sh : Shared) (msg : Msg) (c : Sentence) (w : Rat) : Prop :=
  ∃ p, sh.heap[msg.primary]? = some p ∧
    (FollowsAlone p.sentence c w ∨
     (∃ r ∈ msg.secondary, ∃ s, sh.heap[r]? = some s ∧ Follows p.sentence s.sentence c w) ∨
     (∃ b, BeliefUnder sh.mem p.sentence.term b ∧ Follows p.sentence b c w))

/-- run some more actions from a state, collecting the calls of question handlers -/
def moreTasks (cfg : Cfg) (st : Shared × List AnswerCall) (ops : List TaskOp) : R (Shared × List AnswerCall) :=
  ops.foldlM (fun st op => do
    let (sh, calls) ← op.run cfg st.1
    .ok (sh, st.2 ++ calls)) st

/-- the maintenance a cycle does: every 111th cycle the working list is trimmed and the lookup rebuilt, every 173rd cycle
concepts are forgotten down to 3000 -/
def maintenance (cycle : Int) : List TaskOp :=
  (if cycle % 111 = 0 then [.cleanup, .rebuild] else []) ++ (if cycle % 173 = 0 then [.forget 3000] else [])

/-- the actions of one cycle -/
def cycleOps (cycle : Int) (selVal : Rat) (now : Int) (msg : Option Msg) : List TaskOp :=
  [.tick, .creditQuestions, .baseCredit, .answer selVal, .select] ++ msg.toList.map (fun m => TaskOp.usage m now) ++
    maintenance cycle

/-- the actions of the worker with the conclusions of a message: each is offered to the questions, then each is added,
with the factor of the selected task times the attention factor of the rule -/
def workOps (factor : Rat) (now : Int) (concl : List (Sentence × Rat)) : List TaskOp :=
  concl.map (fun c => TaskOp.offer c.1) ++ concl.map (fun c => TaskOp.add c.1 true (factor * c.2) now)

/-- What happens to the declarative reasoner as a whole. -/
inductive SysOp
  /-- a sentence is added from outside -/
  | input (s : Sentence) (calcCredit : Bool) (mulCredit : Rat) (now : Int)
  /-- one reasoning cycle of the main thread; its message is sent to the worker -/
  | cycle (selVal : Rat) (now : Int)
  /-- the worker takes the next message, if any, and works on it -/
  | work
  /-- all tasks are dropped -/
  | flush
  /-- a new evidence id is handed out -/
  | newStampId
  /-- the procedural memory changed -/
  | procMem (m : Mem)

/-- declarative reasoner, messages sent to the worker, answers so far -/
structure Sys where
  sh : Shared
  queue : List Msg
  log : List AnswerCall

/-- perform one action of the system -/
def SysOp.run (cfg : Cfg) (s : Sys) : SysOp → R Sys
  | .input x cc mc now => do
      let sh ← memAddTask cfg s.sh x cc mc now
      .ok { s with sh := sh }
  | .cycle selVal now => do
      let (sh, msg, calls) ← reasonCycle cfg selVal now s.sh
      .ok { sh := sh, queue := s.queue ++ msg.toList, log := s.log ++ calls }
  | .work =>
      match s.queue with
      | [] => .ok s
      | m :: rest => do
          let (sh, calls) ← Nar.work cfg s.sh m
          .ok { sh := sh, queue := rest, log := s.log ++ calls }
  | .flush => .ok { s with sh := flushTasks s.sh }
  | .newStampId => .ok { s with sh := { s.sh with stampIdCounter := s.sh.stampIdCounter + 1 } }
  | .procMem m => .ok { s with sh := { s.sh with procMem := m } }

/-- multipliers of added tasks are not negative -/
def SysOp.CreditSane : SysOp → Prop
  | .input _ _ mulCredit _ => 0 ≤ mulCredit
  | _ => True

/-- a history of the system, from the start -/
def runSys (cfg : Cfg) (ops : List SysOp) : R Sys :=
  ops.foldlM (SysOp.run cfg) { sh := createShared, queue := [], log := [] }

end Nar
