import Verif.Spec.Attention
import Verif.Spec.Decl
/-! # Specification vocabulary: going on talking -/
namespace Nar
open Term

/-- something is said, there is a cycle, and some rounds of the worker -/
structure Round where
  said : Term
  tv : Tv
  draw : Rat
  work : Nat

/-- what is said in the round -/
def Round.say (x : Round) : NarOp := .tell x.said .JUGEMENT x.tv false []

/-- going on talking -/
def talk (l : List Round) : List NarOp := l.flatMap fun x => x.say :: .cycle x.draw :: List.replicate x.work .declWork

end Nar
