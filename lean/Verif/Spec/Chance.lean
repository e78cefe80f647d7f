import Verif.Spec.Nar
/-! # Specification vocabulary for what beliefs depend on -/
namespace Nar
open Term

/-- two states of the declarative reasoner with the same knowledge: the same tasks, lookup, memory and counters, and the same
questions.  Only how well each question was answered so far may differ. -/
structure SameKnowledge (s s' : Shared) : Prop where
  heap : s.heap = s'.heap
  pending : s.judgementTasks = s'.judgementTasks
  lookup : s.judgementTasksByTerm = s'.judgementTasksByTerm
  mem : s.mem = s'.mem
  stampIds : s.stampIdCounter = s'.stampIdCounter
  taskIds : s.taskIdCounter = s'.taskIdCounter
  cycles : s.cycleCounter = s'.cycleCounter
  questions : s.questionTasks.map (fun q => (q.sentence, q.handler, q.prio)) =
    s'.questionTasks.map (fun q => (q.sentence, q.handler, q.prio))

/-- a sentence which the declarative reasoner does not take up: an event or a goal, a rule about what follows what, or an
eternal question or goal, which is ignored -/
def ForActing (t : Term) (punct : Punct) (isEvent : Bool) : Prop :=
  if isEvent then punct ≠ .QUESTION else isTemporalQuestion t = true ∨ punct ≠ .JUGEMENT

/-- a line with such a sentence -/
def LineForActing (env : Env) (l : List Char) : Prop :=
  dispatch (trimNewline l) = .ok .narsese ∧ ∃ t tv punct isEvent,
    parseNarsese env.pf (trimNewline l) = .ok (some (t, tv, punct, isEvent)) ∧ ForActing t punct isEvent

/-- two actions which may differ in everything left to chance, in what is perceived, wanted or known about acting, in the number
of question handlers and in the verbosity; the worker works equally often, and the language module finds the same relations -/
inductive SameThoughts (env : Env) : NarOp → NarOp → Prop
  | line (l : List Char) {d d' : LineDraws} : d.rels = d'.rels → (∀ i, (d.cycles i).2 = (d'.cycles i).2) →
      SameThoughts env (.line l d) (.line l d')
  | acting {l l' : List Char} (d d' : LineDraws) : LineForActing env l → LineForActing env l' →
      SameThoughts env (.line l d) (.line l' d')
  | tell (t : Term) (punct : Punct) (tv : Tv) (isEvent : Bool) (rng rng' : List Nat) :
      SameThoughts env (.tell t punct tv isEvent rng) (.tell t punct tv isEvent rng')
  | tellActing {t t' : Term} {punct punct' : Punct} (tv tv' : Tv) {isEvent isEvent' : Bool} (rng rng' : List Nat) :
      ForActing t punct isEvent → ForActing t' punct' isEvent' →
      SameThoughts env (.tell t punct tv isEvent rng) (.tell t' punct' tv' isEvent' rng')
  | cycle (v v' : Rat) : SameThoughts env (.cycle v) (.cycle v')
  | declWork : SameThoughts env .declWork .declWork
  | procWork (rng rng' : List Nat) : SameThoughts env (.procWork rng) (.procWork rng')
  | handlers (n n' : Nat) : SameThoughts env (.handlers n) (.handlers n')
  | verbosity (v v' : Int) : SameThoughts env (.verbosity v) (.verbosity v')
  | workerLost : SameThoughts env .workerLost .workerLost
  | link : SameThoughts env .link .link

/-- none of the registered operators reports relations to the declarative reasoner -/
def NoReports (ops : List Op) : Prop := ∀ op ∈ ops, op.babbleable = true ∨ op.name ≠ "^nlpRel0"

end Nar
