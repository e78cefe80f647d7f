import Verif.Spec.Safe
/-! # Vocabulary: giving up what does not work -/
namespace Nar
open Term

/-- the statement is an operator call, or a sequence which begins with one (also nested) -/
def StartsWithCall : Term → Prop
  | .Seq (t :: _) => StartsWithCall t
  | .Stmt .INH (.SetExt [.Prod (_ :: _)]) (.Name _) => True
  | _ => False

/-- The user gives no orders: a goal is something to be reached, not an operator call (nor a sequence beginning with
one), and a reported event which begins with an operator call is the call of a registered operator. -/
def ProcOp.Indirect (ops : List Op) : ProcOp → Prop
  | .event t => StartsWithCall t → RegisteredCall ops t
  | .goal t .. => ¬ StartsWithCall t
  | _ => True

/-- what the operators report does not begin with the call of an operator which is not registered -/
def ReportsIndirect (call : Call) : Prop :=
  ∀ name args p p', call name args p = .ok p' → ∃ evs, p' = { p with trace := p.trace ++ evs } ∧
    ∀ e ∈ evs, StartsWithCall e.name → RegisteredCall p.ops e.name

/-- `b` is a rule about what the operator `name` leads to -/
def RuleFor (b : Sentence) (name : String) : Prop :=
  ∃ cond acts op effect args, b.term = rule cond (acts ++ [op]) effect ∧ IsCall op args name

/-- the rule has failed at least as often as it was confirmed -/
def Discredited (b : Sentence) : Prop := ∀ pos cnt, Counts b pos cnt → 2 * pos ≤ cnt

/-- the step executes the operator `name` -/
def Does (act : Option Term) (name : String) : Prop := ∃ t args, act = some t ∧ IsCall t args name

/-- nobody reports a call of the operator `name` -/
def ProcOp.Without (name : String) : ProcOp → Prop
  | .event t => ∀ args, ¬ IsCall t args name
  | _ => True

/-- no operator reports a call of the operator `name` -/
def NeverReports (call : Call) (name : String) : Prop :=
  ∀ n args p p', call n args p = .ok p' → ∃ evs, p' = { p with trace := p.trace ++ evs } ∧
    ∀ e ∈ evs, ∀ args', ¬ IsCall e.name args' name

/-- the operator `name` is given up: all rules about it are discredited, and there are no fresh observations of it -/
structure GivenUp (name : String) (p : Proc) : Prop where
  rules : ∀ b ∈ p.mem.heap, RuleFor b name → Discredited b
  pending : ∀ m ∈ p.queue, ¬ RuleFor m.1 name
  window : ∀ e ∈ p.trace, ∀ args, ¬ IsCall e.name args name

end Nar
