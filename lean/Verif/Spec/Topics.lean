import Mathlib.Logic.Relation
import Verif.Spec.Meaning
import Verif.Spec.Decl
/-! # Topics: which names are connected by what was told -/
namespace Nar
open Term

/-- the name occurs in the term -/
def Mentions (t : Term) (x : String) : Prop := IsSubterm (.Name x) t

/-- a condition in which something is named: an inheritance or a similarity in which a name occurs -/
def NamedCondition (t : Term) : Prop :=
  ∃ cop s p, t = .Stmt cop s p ∧ (cop = .INH ∨ cop = .SIM) ∧ ∃ x, Mentions t x

/-- the conditions of a rule: the parts of a conjunction, anything else is a single condition -/
def conditionsOf : Term → List Term
  | .Conj ts => ts
  | t => [t]

/-- a general rule `(c && … && c) ==> q`: something is named in each condition, and all variables of `q` occur in the
conditions -/
def GeneralRule (t : Term) : Prop :=
  ∃ p q, t = .Stmt .IMPL p q ∧ (∀ c ∈ conditionsOf p, NamedCondition c) ∧ ∀ v, IsVar v → IsSubterm v q → IsSubterm v p

/-- a statement about particular things (no variables), or a general rule -/
def FactOrRule (t : Term) : Prop := Ground t ∨ GeneralRule t

/-- all names which occur in the term belong to the same topic -/
def OneTopic {α : Type} (topic : String → α) (t : Term) : Prop := ∀ x y, Mentions t x → Mentions t y → topic x = topic y

/-- the statement was told in the history -/
def WasTold (env : Env) (ops : List NarOp) (t : Term) : Prop :=
  ∃ pre op post r tv, ops = pre ++ op :: post ∧ runNar env pre = .ok r ∧ Told env r op t tv

/-- the two names occur together in a statement which was told -/
def ToldTogether (env : Env) (ops : List NarOp) (x y : String) : Prop :=
  ∃ t, WasTold env ops t ∧ Mentions t x ∧ Mentions t y

/-- the two names are connected by what was told: there is a chain of names from one to the other, each told together with
the next -/
def Connected (env : Env) (ops : List NarOp) (x y : String) : Prop := Relation.ReflTransGen (ToldTogether env ops) x y

/-- everything told is a fact or a general rule, with enough parts in its compounds -/
def FactsAndRules (env : Env) (ops : List NarOp) : Prop := ∀ t, WasTold env ops t → WellFormed t ∧ FactOrRule t

end Nar
