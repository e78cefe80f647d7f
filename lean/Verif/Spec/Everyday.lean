import Verif.Spec.Decl
import Verif.Spec.Safe
/-! # Specification vocabulary for the everyday use of the whole reasoner -/
namespace Nar
open Term

/-- the operators which are registered with `!por NOP <name>`: nothing happens but that they are executed -/
def nops (names : List String) : List Op := names.map fun n => ⟨n, true, 3⟩

/-- A sentence of everyday use, where `ops` are all operators which are ever registered: a plain event, a goal, a question, or
a statement which is no temporal rule and has a truth value in range which is not axiomatic. -/
def EverydaySentence (ops : List Op) (term : Term) (punct : Punct) (tv : Tv) (isEvent : Bool) : Prop :=
  punct = .JUGEMENT → if isEvent then PlainEvent ops term else ¬ IsTemporal term ∧ Tv.Sane tv

/-- draws of the storage worker for names of variables: never 15 out of 16 -/
def NameDraws (rng : List Nat) : Prop := ∀ d ∈ rng, d % 16 ≠ 15

/-- draws as they are made in a step: each sample has a draw for the operator, no real draw is negative -/
def StepDraws (d : LineDraws) : Prop :=
  (∀ i, (d.perceive i).ops ≠ []) ∧ (∀ rng ∈ d.between, NameDraws rng) ∧ ∀ x ∈ d.infs, 0 ≤ x.2.1

/-- a text which the parser handles, and which, if it is a sentence, reads as one of everyday use -/
def EverydayText (env : Env) (ops : List Op) (s : List Char) : Prop :=
  (∃ x, parseNarsese env.pf s = .ok x) ∧
  ∀ term tv punct isEvent, parseNarsese env.pf s = .ok (some (term, tv, punct, isEvent)) → EverydaySentence ops term punct tv isEvent

/-- A line of everyday use: a comment, a step, a number of cycles, the registration of one of the operators `ops`, a setting, a
listing, natural language in which only such relations are found as are written as a text of everyday use, or such a text. -/
def EverydayLine (env : Env) (ops : List Op) (s : List Char) (d : LineDraws) : Prop :=
  ∃ c, dispatch s = .ok c ∧ match c with
    | .comment | .quit | .empty | .flush | .babbleOff | .babbleOn | .debugMemory | .debugTasks | .showEvidence => True
    | .step | .stepA | .stepB => StepDraws d
    | .cycles arg => arg = [] ∨ ∃ n, parseI64 arg = some n
    | .register arg => ∀ op, registeredOp (splitWhitespace arg []) = some op → op ∈ ops
    | .nlp _ => ∀ rel ∈ d.rels, ∃ txt, convRelToNarsese env.sf rel = .ok txt ∧ EverydayText env ops txt
    | .narsese => EverydayText env ops s

/-- an action of everyday use -/
def Everyday (env : Env) (ops : List Op) : NarOp → Prop
  | .line l d => EverydayLine env ops (trimNewline l) d
  | .tell term punct tv isEvent _ => Printable term ∧ EverydaySentence ops term punct tv isEvent ∧
      (punct = .JUGEMENT → isEvent = false → WellFormed term)
  | .procWork rng => NameDraws rng
  | .workerLost => False
  | _ => True

/-- the operators of the library: `!por execinj` and `!por nlpRel0` -/
def libraryOps : List Op := [⟨"^nal9_exeAndInject", false, 3⟩, ⟨"^nlpRel0", false, 3⟩]

/-- the name of an operator of the library -/
def LibraryName (n : String) : Prop := n = "^nal9_exeAndInject" ∨ n = "^nlpRel0"

end Nar
