import Verif.Spec.Attention
/-! # Specification vocabulary: what was asked about -/
namespace Nar
open Term

/-- what a term has in common with the questions: the number of pairs of a place in a question and a place in the term at which the same
sub-term stands -/
def askedIn (qs : List Task2) (x : Term) : Nat := (qs.map fun q => inCommon q.sentence.term x).sum

end Nar
