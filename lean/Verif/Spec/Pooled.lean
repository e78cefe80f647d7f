import Verif.Spec.Lasting
import Verif.Spec.Decl
import Verif.Spec.Trail
import Verif.Spec.Thinks
import Verif.Lemmas.Term
/-! # Specification vocabulary for "what is told is pooled, whatever the order" -/
namespace Nar
open Term

/-- all the evidence together: the amounts of evidence add up, the frequency is their mean by amount -/
def pooled (tvs : List Tv) : Tv :=
  ⟨(tvs.map (fun v => amountOf v.c * v.f)).sum / (tvs.map (fun v => amountOf v.c)).sum,
   (tvs.map (fun v => amountOf v.c)).sum / ((tvs.map (fun v => amountOf v.c)).sum + 1)⟩

/-- the truth values with which the statement was told -/
def toldAbout (sts : List (Term × Tv)) (t : Term) : List Tv := (sts.filter (fun (st : Term × Tv) => decide (st.1 = t))).map (·.2)

/-- under the term `x` the memory lists a belief about the statement with just this truth value -/
def BelievedAs (m : Mem) (x : Term) (k : Ranking) (statement : Term) (tv : Tv) : Prop :=
  ∃ c ∈ m, c.name = x ∧ ∃ b ∈ c.list k, b.term = statement ∧ HasTruth b tv

/-- at most twenty different statements mention the term -/
def FewAbout (sts : List (Term × Tv)) (x : Term) : Prop :=
  ∃ l : List Term, l.length ≤ 20 ∧ ∀ st ∈ sts, IsSubterm x st.1 → st.1 ∈ l

/-- a statement which can be told: printable, no temporal rule, well-formed, not too complex, with some evidence -/
def Sayable (st : Term × Tv) : Prop :=
  SafeInput st.1 .JUGEMENT st.2 false ∧ calcComplexity st.1 ≤ 64 ∧ 0 < st.2.c

end Nar
