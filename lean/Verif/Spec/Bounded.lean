import Verif.Spec.Task2
import Verif.Spec.Decl
/-! # Specification vocabulary for the limits of the declarative reasoner -/
namespace Nar
open Term

/-- the task is kept: it is pending, or the lookup leads to it -/
def TaskKept (sh : Shared) (r : Nat) : Prop := r ∈ sh.judgementTasks ∨ ∃ p ∈ sh.judgementTasksByTerm, r ∈ p.2

/-- at most `n` tasks are kept -/
def KeepsAtMost (sh : Shared) (n : Nat) : Prop := ∃ l : List Nat, l.length ≤ n ∧ ∀ r, TaskKept sh r → r ∈ l

/-- The number of conclusions the worker can draw at most from one message: 13 rules for a single premise, a rule which takes a
conjunction apart, and 32 for a pair of premises; the partners are 300 tasks, half of which are used twice, and the two tables of
beliefs. -/
def roundLimit (cfg : Cfg) : Nat := 13 + cfg.maxComplexity.toNat + 32 * (450 + 2 * max 1 cfg.nBeliefs)

/-- the number of tasks an action can add at most: each sentence can bring along the result of a revision -/
def SysOp.mayAdd (cfg : Cfg) : SysOp → Nat
  | .input _ _ _ _ => 2
  | .work => 2 * roundLimit cfg
  | _ => 0

/-- the number of tasks the actions can add at most -/
def load (cfg : Cfg) (ops : List SysOp) : Nat := (ops.map (SysOp.mayAdd cfg)).sum

/-- what happens up to and including a cycle -/
structure Span where
  before : List SysOp
  selVal : Rat
  now : Int

/-- the actions of a span -/
def Span.ops (d : Span) : List SysOp := d.before ++ [.cycle d.selVal d.now]

/-- there is no cycle among the actions, and they cannot add more than `k` tasks -/
def Light (cfg : Cfg) (k : Nat) (ops : List SysOp) : Prop :=
  (∀ op ∈ ops, ∀ v now, op ≠ .cycle v now) ∧ load cfg ops ≤ k

/-- sets around sets around … a term -/
def boxed : Nat → Term → Term
  | 0, t => t
  | n + 1, t => .SetExt [boxed n t]

/-- a question which is simple enough -/
def SysOp.asks (cfg : Cfg) : SysOp → Bool
  | .input s _ _ _ => decide (s.punct = .QUESTION) && decide ((calcComplexity s.term : Int) ≤ cfg.maxComplexity)
  | _ => false

end Nar
