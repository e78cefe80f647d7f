import Verif.Spec.Course
import Verif.Spec.Chance
import Verif.Spec.Typing
/-! # Specification vocabulary: thinking and acting at the same time -/
namespace Nar
open Term

/-- a line which has to do with acting or with nothing at all: an event, a goal or a temporal rule, a sentence which cannot be read, a
step, an operator, a setting of the motor babbling, a comment, something printed -/
def LineActs (env : Env) (l : List Char) : Prop :=
  LineForActing env l ∨
  (dispatch (trimNewline l) = .ok .narsese ∧ parseNarsese env.pf (trimNewline l) = .ok none) ∨
  (∃ arg, dispatch (trimNewline l) = .ok (.register arg)) ∨
  ∃ c ∈ [Command.step, .babbleOff, .babbleOn, .comment, .empty, .quit, .showEvidence, .debugTasks, .debugMemory],
    dispatch (trimNewline l) = .ok c

/-- an action which has to do with acting or with nothing at all -/
def Acts (env : Env) : NarOp → Prop
  | .line l _ => LineActs env l
  | .tell t punct _ isEvent _ => ForActing t punct isEvent
  | .procWork _ | .verbosity _ | .link => True
  | _ => False

/-- The line is read as the sentence. -/
def LineReads (env : Env) (l : List Char) (t : Term) (tv : Tv) (punct : Punct) (isEvent : Bool) : Prop :=
  dispatch (trimNewline l) = .ok .narsese ∧ parseNarsese env.pf (trimNewline l) = .ok (some (t, tv, punct, isEvent))

/-- The history is the course, with acting in between.  Statements and questions may be typed as well. -/
inductive Lives (env : Env) : List NarOp → List Lecture → Prop
  | nil : Lives env [] []
  | learn (a : Lecture) {ops : List NarOp} {as : List Lecture} : Lives env ops as → Lives env (a.op :: ops) (a :: as)
  | statement {l : List Char} (d : LineDraws) {st : Term × Tv} {ops : List NarOp} {as : List Lecture} :
      LineReads env l st.1 st.2 .JUGEMENT false → Lives env ops as → Lives env (.line l d :: ops) (.tell st :: as)
  | question {l : List Char} (d : LineDraws) {q : Term} {tv : Tv} {ops : List NarOp} {as : List Lecture} :
      LineReads env l q tv .QUESTION true → Lives env ops as → Lives env (.line l d :: ops) (.ask q :: as)
  | act {op : NarOp} {ops : List NarOp} {as : List Lecture} : Acts env op → Lives env ops as → Lives env (op :: ops) as

/-- The lines (and calls) are the course with acting in between, if commands for cycles and texts are taken as the calls for which they
stand. -/
def TypedLife (env : Env) (ops : List NarOp) (as : List Lecture) : Prop :=
  ∃ css : List (List NarOp), List.Forall₂ (AsCalls env) ops css ∧ Lives env css.flatten as

/-- the statements told, with their truth values, in order -/
def statementsIn : List Lecture → List (Term × Tv)
  | [] => []
  | .tell st :: as => st :: statementsIn as
  | _ :: as => statementsIn as

/-- neither cycles nor rounds of the worker -/
def NoThinking (as : List Lecture) : Prop := ∀ a ∈ as, a ≠ .work ∧ ∀ v, a ≠ .cycle v

end Nar
