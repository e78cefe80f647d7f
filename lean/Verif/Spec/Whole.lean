import Verif.Spec.Nar
import Verif.Spec.Proc
/-! # Specification vocabulary: the reasoner as a whole, seen as its two parts -/
namespace Nar
open Term

/-- what is added or offered rests on some evidence -/
def TaskOp.Trailed : TaskOp → Prop
  | .add s _ _ _ => s.stamp.ids ≠ []
  | .offer c => c.stamp.ids ≠ []
  | _ => True

/-- The configurations with which a reasoner works: statements of complexity up to 64; belief tables of 20 entries, and
of 60 entries for what operators report. -/
def LineCfg (env : Env) (cfg : Cfg) : Prop :=
  cfg.maxComplexity = 64 ∧ (cfg.nBeliefs = 20 ∨ cfg.nBeliefs = 60) ∧ cfg.decay = env.decay

/-- How the declarative part, with the answers given so far, can go on: by elementary actions. -/
inductive DeclMore (env : Env) (sh0 : Shared) (log0 : List AnswerCall) : Shared → List AnswerCall → Prop
  | start : DeclMore env sh0 log0 sh0 log0
  | act {sh sh' : Shared} {log calls : List AnswerCall} (cfg : Cfg) (op : TaskOp) : DeclMore env sh0 log0 sh log →
      LineCfg env cfg → op.CreditSane → op.Trailed → op.run cfg sh = .ok (sh', calls) →
      DeclMore env sh0 log0 sh' (log ++ calls)

/-- an elementary action of the procedural part outside of steps; told rules are stored in tables of 20 entries -/
def ProcOp.Outside : ProcOp → Prop
  | .step0 _ => False
  | .step1 _ _ => False
  | .rule _ _ _ n _ => n = 20
  | _ => True

/-- How the procedural part can go on: by elementary actions; by whole steps, with rounds of the storage worker between
their two parts; by registration of operators (which count an observation three times) and by switching babbling. -/
inductive ProcMore (env : Env) (p0 : Proc) : Proc → Prop
  | start : ProcMore env p0 p0
  | act {p p' : Proc} (op : ProcOp) : ProcMore env p0 p → op.Outside → op.run libCall env.goalDecay p = .ok p' →
      ProcMore env p0 p'
  | step {p p1 p2 : Proc} (draws : Nat → SampleDraws) (between : List (List Nat)) (rng : List Nat)
      (infs : List (Rat × Rat × List Nat)) : ProcMore env p0 p →
      ProcOp.run libCall env.goalDecay p (.step0 draws) = .ok p1 →
      ProcOp.run libCall env.goalDecay (between.foldl workerStep p1) (.step1 rng infs) = .ok p2 → ProcMore env p0 p2
  | register {p : Proc} (op : Op) : ProcMore env p0 p → op.eviCnt = 3 → ProcMore env p0 { p with ops := p.ops ++ [op] }
  | babbling {p : Proc} (b : Bool) : ProcMore env p0 p → ProcMore env p0 { p with enBabbling := b }

end Nar
