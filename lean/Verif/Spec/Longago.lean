import Verif.Spec.Course
import Verif.Spec.Bounded
/-! # Specification vocabulary: what was told long ago -/
namespace Nar
open Term

/-- there is no statement within the term -/
def NoStatementIn (x : Term) : Prop := ∀ c a b, ¬ IsSubterm (.Stmt c a b) x

/-- a statement of inheritance or similarity without statements within -/
def SimpleFact (t : Term) : Prop := ∃ c x y, t = .Stmt c x y ∧ (c = .INH ∨ c = .SIM) ∧ NoStatementIn x ∧ NoStatementIn y

/-- what the rules give from these statements in any number of steps, whatever the evidence -/
inductive FromThese (told : Term → Prop) : Term → Prop
  | told (t : Term) : told t → FromThese told t
  | alone (a c : Term) : FromThese told a → (∃ ta tc, Rule1 a ta c tc) → FromThese told c
  | both (a b c : Term) : FromThese told a → FromThese told b → (∃ ta tb tc, Rule2 a ta b tb c tc) → FromThese told c

/-- there is a task or a belief which says this -/
def Held (sh : Shared) (t : Term) : Prop :=
  (∃ x ∈ sh.heap, x.sentence.term = t) ∨ ∃ c ∈ sh.mem, ∃ b, (b ∈ c.beliefsByExp ∨ b ∈ c.beliefsByUsage) ∧ b.term = t

/-- the statement is still waiting for its turn -/
def PendingTerm (sh : Shared) (t : Term) : Prop := ∃ r ∈ sh.judgementTasks, ∃ x, sh.heap[r]? = some x ∧ x.sentence.term = t

/-- the message is about the task -/
def Msg.about (m : Msg) (r : Nat) : Prop := m.primary = r ∨ r ∈ m.secondary

end Nar
