import Verif.Spec.Bounded
/-! # Specification vocabulary for the counters of the reasoner -/
namespace Nar
open Term

/-- the number of reasoning cycles which an action asks for: one, or the number of the command with a number -/
def cyclesAsked : NarOp → Nat
  | .cycle _ => 1
  | .line l _ =>
    match commandOf (trimNewline l) with
    | .cycles arg => if arg = [] then 1 else ((parseI64 arg).getD 0).toNat
    | _ => 0
  | _ => 0

/-- the number of procedural steps which an action asks for -/
def stepsAsked : NarOp → Nat
  | .line l _ =>
    match commandOf (trimNewline l) with
    | .step => 1
    | _ => 0
  | _ => 0

/-- the number of sentences which an action can put in: one, or one for each relation found by the language module -/
def sentencesPut : NarOp → Nat
  | .tell _ _ _ _ _ => 1
  | .line l d =>
    match commandOf (trimNewline l) with
    | .narsese => 1
    | .nlp _ => d.rels.length
    | _ => 0
  | _ => 0

/-- altogether -/
def altogether (f : NarOp → Nat) (ops : List NarOp) : Nat := (ops.map f).sum

/-- the relations which the operators executed in a procedural step report to the declarative memory -/
def relationsReported (env : Env) (r : Reasoner) (d : LineDraws) : List Term :=
  match narStep0 r.proc d.perceive with
  | .ok p =>
    match narStep1 libCall env.goalDecay (d.between.foldl workerStep p) d.decide d.infs with
    | .ok (_, some act) =>
      match decodeOp act with
      | some (args, name) =>
        match opEffects (d.between.foldl workerStep p).ops name args with
        | .ok effs => effs.filterMap fun e => match e with
          | .relate rel => some rel
          | .inject _ => none
        | .error _ => []
      | none => []
    | _ => []
  | .error _ => []

/-- the number of sentences which an action can put in, in the given state -/
def putIn (env : Env) (r : Reasoner) (op : NarOp) : Nat :=
  sentencesPut op + match op with
    | .line l d => if commandOf (trimNewline l) = .step then (relationsReported env r d).length else 0
    | _ => 0

/-- the number of sentences which the actions of a history can put in -/
def putInAlong (env : Env) (r : Reasoner) : List NarOp → Nat
  | [] => 0
  | op :: ops => putIn env r op + match op.run env r with
    | .ok r' => putInAlong env r' ops
    | .error _ => 0

/-- the largest number the counters can hold, `i64` -/
def maxI64 : Int := 2 ^ 63 - 1

end Nar
