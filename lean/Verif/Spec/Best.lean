import Verif.Spec.Rest
/-! # Specification vocabulary: answers and what can be deduced -/
namespace Nar
open Term

/-- The statement can be deduced with no more evidence than the sentence rests on, if there is no limit on how complex statements may be. -/
def Warranted (cfg : Cfg) (told : Sentence → Prop) (s : Sentence) : Prop :=
  ∃ n E, Deducible { cfg with maxComplexity := n } told s.term E ∧ ∀ e ∈ E, e ∈ s.stamp.ids

/-- the two terms have a part in common -/
def ShareAPart (a b : Term) : Prop := ∃ x, IsSubterm x a ∧ IsSubterm x b

/-- The belief is in memory under a part of the question, says `t` and has this expectation. -/
def Remembered (m : Mem) (q t : Term) (e : Rat) : Prop :=
  ∃ x b, IsSubterm x q ∧ BeliefUnder m x b ∧ b.term = t ∧ Expectation b e

end Nar
