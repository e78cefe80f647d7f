import Verif.Spec.Meaning
/-! # Specification vocabulary for "the trail of evidence tells what a belief rests on" -/
namespace Nar
open Term

/-- The action at place `k` of the history tells the statement with the truth value, and `id` is one of the numbers given out
while it is carried out. -/
def Recorded (env : Env) (ops : List NarOp) (k : Nat) (id : Int) (term : Term) (tv : Tv) : Prop :=
  ∃ op r r', ops[k]? = some op ∧ runNar env (ops.take k) = .ok r ∧ op.run env r = .ok r' ∧ Told env r op term tv ∧
    idsGiven r ≤ id ∧ id < idsGiven r'

/-- what follows from those statements told in the history whose numbers are among the given ones, by the rules of
inference and by pooling -/
inductive FollowsFrom (env : Env) (ops : List NarOp) (ids : List Int) : Sentence → Prop
  | told {k : Nat} {id : Int} {term : Term} {tv : Tv} : id ∈ ids → Recorded env ops k id term tv →
      FollowsFrom env ops ids (newEternalSentenceByTv term .JUGEMENT tv ⟨[id]⟩)
  | pool {cell : List Int} {b s r : Sentence} : FollowsFrom env ops ids b → FollowsFrom env ops ids s → SameStatement b s →
      ¬ SharesEvidence b s → revisedBelief cell b s = .ok r → FollowsFrom env ops ids r
  | two {p s c : Sentence} {w : Rat} : FollowsFrom env ops ids p → FollowsFrom env ops ids s → Follows p s c w →
      FollowsFrom env ops ids c
  | alone {p c : Sentence} {w : Rat} : FollowsFrom env ops ids p → FollowsAlone p c w → FollowsFrom env ops ids c
  | used {s : Sentence} (u : Usage) : FollowsFrom env ops ids s → FollowsFrom env ops ids { s with usage := u }

/-- the amount of evidence behind a confidence below one, in units of the evidential horizon -/
def amountOf (c : Rat) : Rat := c / (1 - c)

end Nar
