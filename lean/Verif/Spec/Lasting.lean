import Verif.Spec.Mem
import Verif.Spec.Nar
/-! # Specification vocabulary for "what has been learned is not unlearned" -/
namespace Nar
open Term

/-- a concept has two lists of beliefs, ranked by expectation and by use -/
inductive Ranking
  | expectation
  | use

/-- the list of beliefs of the concept with the given ranking -/
def Concept.list (c : Concept) : Ranking → List Sentence
  | .expectation => c.beliefsByExp
  | .use => c.beliefsByUsage

/-- one of the beliefs is about the statement, with at least the given confidence -/
def Believes (l : List Sentence) (statement : Term) (confidence : Rat) : Prop :=
  ∃ b ∈ l, b.term = statement ∧ ∃ tv, HasTruth b tv ∧ confidence ≤ tv.c

/-- under the term `x` the memory lists a belief about the statement, with at least the given confidence -/
def Knows (m : Mem) (x : Term) (k : Ranking) (statement : Term) (confidence : Rat) : Prop :=
  ∃ c ∈ m, c.name = x ∧ Believes (c.list k) statement confidence

/-- there is room: fewer than 3000 concepts, and fewer than 20 beliefs listed under the term -/
def RoomUnder (m : Mem) (x : Term) (k : Ranking) : Prop :=
  m.length < 3000 ∧ ∀ c ∈ m, c.name = x → (c.list k).length < 20

end Nar
