import Verif.Model.MemNumbers
import Verif.Spec.Term
import Verif.Model.Mem
/-! # What is said about memory with all numbers of `f64` -/
namespace Nar

/-- an ordinary truth value: the frequency is a finite number, the confidence a number from 0 to 1, not 1 itself -/
def TvF.Ordinary (tv : TvF) : Prop := (∃ f : Rat, tv.f = .fin f) ∧ ∃ c : Rat, tv.c = .fin c ∧ 0 ≤ c ∧ c < 1

/-- memory lists the belief under the term, in the table by expectation or in the table by usage -/
def FMem.Lists (m : FMem) (x : Term) (b : FSent) : Prop := ∃ c, m x = some c ∧ (b ∈ c.byExp ∨ b ∈ c.byUsage)

/-- under the term memory has a belief, ordered by an expectation which is not a number -/
def FMem.Poisoned (m : FMem) (x : Term) : Prop := ∃ c, m x = some c ∧ ∃ b ∈ c.byExp, calcExpF b.tv = .nan

/-- the same number -/
def asNumbers (tv : Tv) : TvF := ⟨.fin tv.f, .fin tv.c⟩

/-- the same belief: statement, evidence and truth value (which is written as such for everything told) -/
def Sentence.asF (b : Sentence) : FSent :=
  ⟨b.term, b.stamp, match b.evi with | some (.TV tv) => asNumbers tv | _ => ⟨.nan, .nan⟩⟩

/-- the two memories have concepts with the same names, and these hold the same beliefs in the same order -/
def SameMemory (m : Mem) (fm : FMem) : Prop :=
  ∀ x, fm x = (m.get x).map fun c => ⟨c.beliefsByExp.map Sentence.asF, c.beliefsByUsage.map Sentence.asF⟩

end Nar
