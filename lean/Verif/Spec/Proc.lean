import Verif.Model.Proc
import Verif.Spec.Goal
/-! # Specification vocabulary for the procedural reasoner -/
namespace Nar
open Term

/-! ## operators and rules -/

/-- the term is a call of the operator `name` with the arguments `args` (at least one) -/
def IsCall (t : Term) (args : List Term) (name : String) : Prop :=
  args ≠ [] ∧ t = .Stmt .INH (.SetExt [.Prod args]) (.Name name)

/-- the term is a call of a registered operator -/
def RegisteredCall (ops : List Op) (t : Term) : Prop :=
  ∃ args name, IsCall t args name ∧ ∃ o ∈ ops, o.name = name

/-- the predictive rule "`cond`, then the operators `acts`, leads to `effect`" -/
def rule (cond : Term) (acts : List Term) (effect : Term) : Term :=
  .Stmt .PREDIMPL (.Seq (cond :: acts)) effect

/-- the rule counts `pos` supporting observations out of `cnt` -/
def Counts (s : Sentence) (pos cnt : Int) : Prop := s.evi = some (.CNT pos cnt)

/-! ## perception -/

/-- what can happen to the perception window -/
inductive TraceOp
  | happened (e : Event)
  | limit
  | flush

/-- perform one operation on a window -/
def TraceOp.run (tr : List Event) : TraceOp → List Event
  | .happened e => tr ++ [e]
  | .limit => traceLimit tr
  | .flush => []

/-- the events since the last flush, in order of arrival -/
def eventsSinceFlush : List TraceOp → List Event → List Event
  | [], acc => acc
  | .happened e :: ops, acc => eventsSinceFlush ops (acc ++ [e])
  | .limit :: ops, acc => eventsSinceFlush ops acc
  | .flush :: ops, _ => eventsSinceFlush ops []

/-- the newest `n` elements of a list -/
def newest {α} (n : Nat) (l : List α) : List α := l.drop (l.length - n)

/-- the event is among the newest `n` of the window -/
def Recent (n : Nat) (trace : List Event) (e : Event) : Prop := e ∈ newest n trace

/-! ## anticipation -/

/-- the effect predicted by the rule of the anticipation is among the most recent events -/
def Confirmed (p : Proc) (a : Anticipation) : Prop :=
  ∃ b cond effect e, p.mem.heap[a.evi]? = some b ∧ b.term = .Stmt .PREDIMPL cond effect ∧
    Recent p.perceptWindow p.trace e ∧ e.name = effect

/-! ## histories -/

/-- what can happen to a procedural reasoner -/
inductive ProcOp
  /-- the user reports an event -/
  | event (term : Term)
  /-- the user gives a goal -/
  | goal (term : Term) (tv : Tv) (stampId : Int)
  /-- the user tells a temporal rule -/
  | rule (term : Term) (tv : Tv) (stampId : Int) (nBeliefs : Nat) (rng : List Nat)
  /-- first part of a step -/
  | step0 (draws : Nat → SampleDraws)
  /-- second part of a step -/
  | step1 (rng : List Nat) (infs : List (Rat × Rat × List Nat))
  /-- the storage worker handles a message -/
  | worker (rng : List Nat)
  /-- the window is flushed -/
  | flush

/-- perform one operation -/
def ProcOp.run (call : Call) (decay : Int → Rat) (p : Proc) : ProcOp → R Proc
  | .event term => .ok (inputEvent p term)
  | .goal term tv id => inputGoal p term tv id
  | .rule term tv id n rng => inputRule p term tv id n rng
  | .step0 draws => narStep0 p draws
  | .step1 rng infs => (narStep1 call decay p rng infs).map (·.1)
  | .worker rng => .ok (workerStep p rng)
  | .flush => .ok (traceFlush p)

/-- perform a history -/
def runProc (call : Call) (decay : Int → Rat) (p : Proc) (ops : List ProcOp) : R Proc :=
  ops.foldlM (ProcOp.run call decay) p

/-- operators do nothing to the reasoner but report events (this is what all operators of the program do) -/
def OnlyReports (call : Call) : Prop :=
  ∀ name args p p', call name args p = .ok p' → ∃ evs, p' = { p with trace := p.trace ++ evs }

/-- a reasoner which has not learned anything yet; the configuration and the operators are arbitrary -/
def Fresh (p : Proc) : Prop :=
  p.mem = PMem.empty ∧ p.anticipated = [] ∧ p.queue = []

end Nar

namespace Nar

/-- how much evidence the registered operator `name` gives to an observation (the first one of that name) -/
def EvidenceWeight (ops : List Op) (name : String) (n : Int) : Prop :=
  ∃ pre o post, ops = pre ++ o :: post ∧ o.name = name ∧ (∀ x ∈ pre, x.name ≠ name) ∧ o.eviCnt = n

/-- `s` records an observation of the window: some events in order, an event which is no operator call, then calls
of registered operators, then a different event which is no operator call.  The evidence trail are the evidence ids
of the events, the delay is the one between the last operator and the effect. -/
def Observation (p : Proc) (s : Sentence) : Prop :=
  ∃ (first : Event) (acts : List Event) (act last : Event) (n : Int) (args : List Term) (name : String),
    (first :: (acts ++ [act, last])).Sublist p.trace ∧
    (∀ a ∈ acts ++ [act], RegisteredCall p.ops a.name) ∧
    ¬ RegisteredCall p.ops first.name ∧ ¬ RegisteredCall p.ops last.name ∧ first.name ≠ last.name ∧
    s.term = rule first.name ((acts ++ [act]).map (·.name)) last.name ∧
    s.stamp = ⟨(first :: (acts ++ [act, last])).map (·.evi)⟩ ∧
    s.expDt = some (findMinTableIdx (last.occT - act.occT) p.table) ∧
    (∃ a, (acts ++ [act]).head? = some a ∧ IsCall a.name args name) ∧ EvidenceWeight p.ops name n ∧ Counts s n n ∧
    s.punct = .JUGEMENT

end Nar

namespace Nar

/-- the observation `s` supports the stored rule `b`: same rule, independent evidence, and the rule allows at least
the delay of the observation -/
def Supports (b s : Sentence) : Prop :=
  ¬ SharesEvidence b s ∧ b.term = s.term ∧ ∃ eb es, b.expDt = some eb ∧ s.expDt = some es ∧ es ≤ eb

/-- the rule `b` after the observation `s` was counted -/
def CountedIn (b s b' : Sentence) : Prop :=
  ∃ pos cnt n k, Counts b pos cnt ∧ Counts s n k ∧
    b' = { b with stamp := Stamp.merge b.stamp s.stamp, evi := some (.CNT (pos + n) (cnt + k)) }

/-- a rule after some time: still the same rule, with at least as much evidence, and the additional supporting
observations are among the additional observations -/
def Grown (b b' : Sentence) : Prop :=
  b'.term = b.term ∧ b'.expDt = b.expDt ∧ b'.punct = b.punct ∧
  ∀ pos cnt, Counts b pos cnt → ∃ pos' cnt', Counts b' pos' cnt' ∧ pos ≤ pos' ∧ cnt ≤ cnt' ∧ pos' - pos ≤ cnt' - cnt

/-- every stored rule is still there after some time -/
def HeapGrown (h h' : List Sentence) : Prop := ∀ (r : Nat) (b : Sentence), h[r]? = some b → ∃ b', h'[r]? = some b' ∧ Grown b b'

/-- a predictive rule with a condition, and with sane counters: at least one observation, at most as many supporting
ones -/
def SaneRule (b : Sentence) : Prop :=
  (∃ cond acts effect, b.term = rule cond acts effect) ∧ b.punct = .JUGEMENT ∧
  ∃ pos cnt, Counts b pos cnt ∧ 0 ≤ pos ∧ pos ≤ cnt ∧ 1 ≤ cnt

/-- all references from the concept tables are valid -/
def PMem.RefsValid (m : PMem) : Prop := ∀ c ∈ m.concepts, ∀ r, r ∈ c.byExp ∨ r ∈ c.byUsage → r < m.heap.length

end Nar

namespace Nar

/-- how many anticipations of the rule `r` have failed: unconfirmed at their deadline -/
noncomputable def failures (p : Proc) (r : Nat) : Nat :=
  open Classical in
  (p.anticipated.filter (fun a => decide (a.evi = r ∧ a.deadline ≤ p.t ∧ ¬ Confirmed p a))).length

/-- the rule `b` after `n` disappointments: `n` more observations, none of them supporting -/
def Disappointed (n : Nat) (b b' : Sentence) : Prop :=
  (n = 0 ∧ b' = b) ∨
  ∃ pos cnt, Counts b pos cnt ∧ b' = { b with evi := some (.CNT pos (cnt + n)) }

/-- an action is planned: a desired executable goal whose expectation is above the threshold and is not surpassed by
another desired executable goal -/
def BestGoal (g : GoalSystem) (threshold : Rat) (e : Entry) : Prop :=
  e ∈ g.activeSet ∧ 1/10000 < e.desirability ∧
  ∃ x, Expectation e.sentence x ∧ threshold < x ∧ 0 < x ∧
    ∀ e' ∈ g.activeSet, 1/10000 < e'.desirability → ∀ x', Expectation e'.sentence x' → x' ≤ x

end Nar

namespace Nar
open Term

/-- A plan: starting in `state`, the rules with the references `rs` lead one after the other to `goal`, each
applied with its first condition fulfilled.  If the goal has the truth `T`, wanting the state has the truth `tv`. -/
inductive Plan (heap : List Sentence) (goal : Term) (T : Tv) : Term → List Nat → Tv → Prop
  | done : Plan heap goal T goal [] T
  | step {state acts effect rs tv tb r b} : heap[r]? = some b → b.term = rule state acts effect → HasTruth b tb →
      Plan heap goal T effect rs tv → Plan heap goal T state (r :: rs) (Tv.dedGoal tv tb)

/-- the sequence `seq` is an option with the expectation `x`, justified by `ev`: either a stored goal wants a sequence
whose beginning matches a recent event, or a plan leads from the last event to a stored goal and `seq` is the condition
of its first rule -/
def IsOption (p : Proc) (seq : Term) (x : Rat) (ev : Option Nat) : Prop :=
  (∃ e event first rest a, Stored p.goals e ∧ Recent p.perceptWindow p.trace event ∧
    e.sentence.term = .Seq (first :: rest) ∧ unify (retSubSeqAsSeqOrTerm (first :: rest).dropLast) event.name = some a ∧
    seq = unifySubst a e.sentence.term ∧ Expectation e.sentence x ∧ ev = e.evidence) ∨
  (∃ e last T tv r rs b acts effect, Stored p.goals e ∧ p.trace.getLast? = some last ∧ HasTruth e.sentence T ∧
    Plan p.mem.heap e.sentence.term T last.name (r :: rs) tv ∧ p.mem.heap[r]? = some b ∧
    b.term = rule last.name acts effect ∧ seq = .Seq (last.name :: acts) ∧ x = (tv.f - 1/2) * tv.c + 1/2 ∧
    ev = some r)

/-- The goals after the best option was adopted: either nothing was adopted, or the last operator of an option above
the threshold became a goal with the truth and the evidence of the rule which justifies it. -/
def Adopted (p : Proc) (g : GoalSystem) : Prop :=
  g = p.goals ∨ ∃ seq x r b acts op args name tv, IsOption p seq x (some r) ∧ p.threshold < x ∧
    p.mem.heap[r]? = some b ∧ HasTruth b tv ∧ seq = .Seq (acts ++ [op]) ∧ IsCall op args name ∧
    addEntry p.goals p.t (newEternalSentenceByTv op .GOAL tv b.stamp) (some r) 0 = .ok g

/-- the interval after which the effect of a rule is expected: the one of its class, the first one if it has none -/
def ExpectedAfter (p : Proc) (b : Sentence) (interval : Int) : Prop :=
  ∃ k : Nat, p.table[k]? = some interval ∧ (b.expDt = some (k : Int) ∨ b.expDt = none ∧ k = 0)

end Nar

namespace Nar

/-- What a step decides, given the goals `g`: the goals and anticipations afterwards and the executed action.
Either the best executable goal is acted upon: it is removed, the effect of the rule which justifies it is anticipated
and its operator is executed if it is registered.  Or there is no such goal (or it lacks a rule which justifies it);
then at most an operator which allows babbling is executed. -/
def Decision (p : Proc) (g g' : GoalSystem) (anticipated : List Anticipation) (act : Option Term) : Prop :=
  (∃ e i r b interval, g.activeSet[i]? = some e ∧ BestGoal g p.threshold e ∧ e.evidence = some r ∧
    Executable e.sentence ∧ p.mem.heap[r]? = some b ∧ ExpectedAfter p b interval ∧
    g' = { g with activeSet := g.activeSet.eraseIdx i } ∧
    anticipated = (if p.enAnticipation then p.anticipated ++ [⟨r, p.t + interval⟩] else p.anticipated) ∧
    (RegisteredCall p.ops e.sentence.term → act = some e.sentence.term) ∧
    (¬ RegisteredCall p.ops e.sentence.term → act = none)) ∨
  (((∀ e, ¬ BestGoal g p.threshold e) ∨
      ∃ e, BestGoal g p.threshold e ∧ (e.evidence = none ∨ ¬ Executable e.sentence)) ∧
    g' = g ∧ anticipated = p.anticipated ∧
    (act = none ∨ (p.enBabbling = true ∧ ∃ op ∈ p.ops, op.babbleable = true ∧ act = some (encodeOp [selfTerm] op.name))))

/-- the goal work after the decision: forgetting every 13 steps, then the inferences -/
def goalWork (t : Int) (m : PMem) (infs : List (Rat × Rat × List Nat)) : List GoalOp :=
  (if t.tmod 13 = 1 then [.limit t] else []) ++ infs.map (fun d => .infer t m d.1 d.2.1 d.2.2)

/-- the event of the executed action -/
def actionEvent (t : Int) : Option Term → List Event
  | some a => [⟨a, t, t⟩]
  | none => []

/-- belief cell `r` is in a belief table of a concept named by `t` or one of its subterms. -/
def RuleUnder (m : PMem) (t : Term) (r : Nat) : Prop :=
  ∃ sub ∈ Term.retSubterms t, ∃ c, m.get sub = some c ∧ (r ∈ c.byExp ∨ r ∈ c.byUsage)

end Nar
