import Verif.Spec.Term
import Verif.Spec.Proc
/-! # Specification vocabulary for the safety of the procedural reasoner -/
namespace Nar
open Term

/-- `x` is an operator call `<{(args)} --> ^op>` or one of the parts which make it one: `{(args)}`, `(args)` or the
name of a registered operator -/
def CallPart (ops : List Op) (x : Term) : Prop :=
  (∃ args name, IsCall x args name) ∨ (∃ args, x = .SetExt [.Prod args]) ∨ (∃ args, x = .Prod args) ∨
    ∃ o ∈ ops, x = .Name o.name

/-- the event can be printed (it has no empty compound), and it does not ascribe a property to an operator call or
one of its parts -/
def PlainEvent (ops : List Op) (t : Term) : Prop :=
  Printable t ∧ ∀ x ps, t = .Stmt .INH x (.SetInt ps) → ¬ CallPart ops x

/-- operators which never fail, and only report plain events which happen now -/
def WellBehaved (ops : List Op) (call : Call) : Prop :=
  ∀ name args p, ∃ evs, call name args p = .ok { p with trace := p.trace ++ evs } ∧
    ∀ e ∈ evs, e.evi = p.t ∧ PlainEvent ops e.name

/-- Harmless input: plain events, goals which can be printed, steps, rounds of the worker; no rules told by the user.  The draws of the
worker never are 15 out of 16, and the real draws are not negative. -/
def ProcOp.Harmless (ops : List Op) : ProcOp → Prop
  | .event t => PlainEvent ops t
  | .goal t .. => Printable t
  | .rule .. => False
  | .step1 _ infs => ∀ d ∈ infs, 0 ≤ d.2.1
  | .worker rng => ∀ d ∈ rng, d % 16 ≠ 15
  | _ => True

/-- every sample of a step is given at least one draw for the choice of an operator -/
def ProcOp.Drawn : ProcOp → Prop
  | .step0 draws => ∀ i, (draws i).ops ≠ []
  | _ => True

/-- a reasoner as it is created, with any configuration and any operators which make sense -/
structure Started (p : Proc) : Prop where
  fresh : Fresh p
  trace : p.trace = []
  alive : p.workerAlive = true
  time : 0 ≤ p.t
  table : p.table ≠ []
  goals : ∃ n d, 0 ≤ n ∧ 0 < d ∧ p.goals = makeGoalSystem n d
  weights : ∀ o ∈ p.ops, 1 ≤ o.eviCnt

end Nar
