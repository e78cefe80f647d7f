import Verif.Spec.Lasting
/-! # Specification vocabulary for "memory does not contradict itself" -/
namespace Nar
open Term

/-- under the term `x` the memory lists a belief about the statement with just this truth value and this record of evidence -/
def ListedAs (m : Mem) (x : Term) (k : Ranking) (statement : Term) (tv : Tv) (evidence : List Int) : Prop :=
  ∃ c ∈ m, c.name = x ∧ ∃ b ∈ c.list k, b.term = statement ∧ HasTruth b tv ∧ b.stamp.ids = evidence

/-- nothing is full: fewer than 3000 concepts, and fewer than 20 beliefs in every list -/
def RoomEverywhere (m : Mem) : Prop :=
  m.length < 3000 ∧ ∀ c ∈ m, ∀ k, (c.list k).length < 20

end Nar
