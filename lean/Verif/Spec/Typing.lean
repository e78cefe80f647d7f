import Mathlib.Data.List.Forall2
import Verif.Spec.Nar
import Verif.Spec.Parser
/-! # Specification vocabulary: what a line stands for in terms of the programming interface -/
namespace Nar
open Term

/-- the calls of so many reasoning cycles, each after some rounds of the worker -/
def cycleCalls (draws : Nat → Rat × Nat) (n : Nat) : List NarOp :=
  (List.range n).flatMap (fun (i : Nat) => List.replicate (draws i).2 NarOp.declWork ++ [.cycle (draws i).1])

/-- the text is read as a sentence or not at all: the calls which put in what was read -/
inductive TextCalls (env : Env) (rng : List Nat) (text : List Char) : List NarOp → Prop
  | sentence {t : Term} {tv : Tv} {p : Punct} {ev : Bool} (h : parseNarsese env.pf text = .ok (some (t, tv, p, ev))) :
      TextCalls env rng text [.tell t p tv ev rng]
  | nothing (h : parseNarsese env.pf text = .ok none) : TextCalls env rng text []

/-- The line stands for the calls of the programming interface. -/
inductive StandsFor (env : Env) (l : List Char) (d : LineDraws) : List NarOp → Prop
  /-- comments, the empty line, leaving, and the count of concepts do nothing to the reasoner -/
  | nothing {c : Command} (hc : dispatch (trimNewline l) = .ok c) (h : c = .comment ∨ c = .empty ∨ c = .quit ∨ c = .debugMemory) :
      StandsFor env l d []
  /-- a sentence is put in -/
  | sentence {calls : List NarOp} (hc : dispatch (trimNewline l) = .ok .narsese) (h : TextCalls env d.rng (trimNewline l) calls) :
      StandsFor env l d calls
  /-- a number of cycles -/
  | cycles {arg : List Char} {n : Int} (hc : dispatch (trimNewline l) = .ok (.cycles arg)) (h : nCycles arg = .ok n) :
      StandsFor env l d (cycleCalls d.cycles n.toNat)
  /-- a text: the sentences for the relations found in it -/
  | relations {text : List Char} {css : List (List NarOp)} (hc : dispatch (trimNewline l) = .ok (.nlp text))
      (h : List.Forall₂ (fun rel calls => ∃ s, convRelToNarsese env.sf rel = .ok s ∧ TextCalls env d.rng s calls) d.rels css) :
      StandsFor env l d css.flatten

/-- an action, written as calls: itself, or a line as the calls for which it stands -/
inductive AsCalls (env : Env) : NarOp → List NarOp → Prop
  | same (op : NarOp) : AsCalls env op [op]
  | line {l : List Char} {d : LineDraws} {calls : List NarOp} (h : StandsFor env l d calls) : AsCalls env (.line l d) calls

/-- the commands for which there are no calls in the model: procedural steps, forgetting the tasks, registering operators,
listing evidence or tasks, switching babbling -/
def OwnCommand : Command → Prop
  | .step | .stepA | .stepB | .flush | .register _ | .showEvidence | .debugTasks | .babbleOff | .babbleOn => True
  | _ => False

end Nar
