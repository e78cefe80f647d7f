import Verif.Spec.Proc
import Verif.Spec.Nar
/-! # Vocabulary: what is done for the sake of something wanted -/
namespace Nar
open Term

/-- What is wanted because of the goals given by the user and of the known rules about what follows what: the goals themselves;
the condition of a rule whose effect is wanted; the first element of a wanted sequence (it has to come about first); the last
element (the operator to be executed once the others are there); a sequence with its variables filled in. -/
inductive Wanted (goal known : Term → Prop) : Term → Prop
  | given {t : Term} : goal t → Wanted goal known t
  | condition {cond effect : Term} : known (.Stmt .PREDIMPL cond effect) → Wanted goal known effect → Wanted goal known cond
  | first {t : Term} {ts : List Term} : Wanted goal known (.Seq (t :: ts)) → Wanted goal known t
  | last {ts : List Term} {t : Term} : Wanted goal known (.Seq (ts ++ [t])) → Wanted goal known t
  | filled {ts : List Term} (a : List Asgnment) : Wanted goal known (.Seq ts) →
      Wanted goal known (unifySubst a (.Seq ts))

/-- the statement is stored as a rule, or was stored as one some time ago -/
def KnownRule (p : Proc) (t : Term) : Prop := ∃ b ∈ p.mem.heap, b.term = t

/-- the user gives the goal in the history -/
def GivenGoal (ops : List ProcOp) (t : Term) : Prop := ∃ tv id, ProcOp.goal t tv id ∈ ops

/-- the action gives the goal `t` to the reasoner: through the programming interface, as a line, or in a sentence made from the
text of a relation -/
def GivesGoal (env : Env) : NarOp → Term → Prop
  | .tell t punct _ isEvent _, t' => t = t' ∧ punct = .GOAL ∧ isEvent = true
  | .line l d, t' =>
    (dispatch (trimNewline l) = .ok .narsese ∧
      ∃ tv, parseNarsese env.pf (trimNewline l) = .ok (some (t', tv, .GOAL, true))) ∨
    ((∃ text, dispatch (trimNewline l) = .ok (.nlp text)) ∧ ∃ rel ∈ d.rels, ∃ txt tv, convRelToNarsese env.sf rel = .ok txt ∧
      parseNarsese env.pf txt = .ok (some (t', tv, .GOAL, true)))
  | _, _ => False

/-- The executed operator is one which the reasoner tries out. -/
def TriedOut (p : Proc) (t : Term) : Prop :=
  p.enBabbling = true ∧ ∃ op ∈ p.ops, op.babbleable = true ∧ t = encodeOp [selfTerm] op.name

end Nar
