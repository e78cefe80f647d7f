import Verif.Spec.Chance
/-! # Specification vocabulary for what deeds depend on -/
namespace Nar
open Term

/-- a sentence which the procedural reasoner does not take up: a question, a statement which is not about what follows what, or
an eternal goal, which is ignored -/
def ForThinking (t : Term) (punct : Punct) (isEvent : Bool) : Prop :=
  if isEvent then punct = .QUESTION else isTemporalQuestion t = false ∨ punct ≠ .JUGEMENT

/-- a sentence for thinking only, told through the programming interface or as a line -/
def TellsBelief (env : Env) : NarOp → Prop
  | .tell t punct _ isEvent _ => ForThinking t punct isEvent
  | .line l _ => dispatch (trimNewline l) = .ok .narsese ∧ ∃ t tv punct isEvent,
      parseNarsese env.pf (trimNewline l) = .ok (some (t, tv, punct, isEvent)) ∧ ForThinking t punct isEvent
  | _ => False

/-- a line which neither puts in a sentence nor has to do with acting: a comment, an empty line, cycles, emptying of the task
set, printing, quitting, or a sentence which cannot be read -/
def LineOnlyThinks (env : Env) (l : List Char) : Prop :=
  (∃ arg, dispatch (trimNewline l) = .ok (.cycles arg)) ∨
  (dispatch (trimNewline l) = .ok .narsese ∧ parseNarsese env.pf (trimNewline l) = .ok none) ∨
  ∃ c ∈ [Command.comment, .empty, .flush, .showEvidence, .debugTasks, .debugMemory, .quit], dispatch (trimNewline l) = .ok c

/-- an action which has nothing to do with acting: cycles, rounds of the declarative worker, its end, handlers, verbosity, the
link for answering questions, such lines -/
def OnlyThinks (env : Env) : NarOp → Prop
  | .cycle _ | .declWork | .handlers _ | .verbosity _ | .workerLost | .link => True
  | .line l _ => LineOnlyThinks env l
  | .tell .. | .procWork _ => False

/-- Two histories which agree on everything that has to do with acting: the events, the goals, the temporal rules, the steps, the
operators, the rounds of the procedural worker and all draws for these.  In the place of a statement or question there may be any
other, and there may be any thinking in between. -/
inductive SameDeeds (env : Env) : List NarOp → List NarOp → Prop
  | nil : SameDeeds env [] []
  | same (op : NarOp) {ops ops' : List NarOp} : SameDeeds env ops ops' → SameDeeds env (op :: ops) (op :: ops')
  | instead {op op' : NarOp} {ops ops' : List NarOp} : TellsBelief env op → TellsBelief env op' → SameDeeds env ops ops' →
      SameDeeds env (op :: ops) (op' :: ops')
  | left {op : NarOp} {ops ops' : List NarOp} : OnlyThinks env op → SameDeeds env ops ops' → SameDeeds env (op :: ops) ops'
  | right {op : NarOp} {ops ops' : List NarOp} : OnlyThinks env op → SameDeeds env ops ops' → SameDeeds env ops (op :: ops')

end Nar
