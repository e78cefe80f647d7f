import Verif.Spec.Course
import Verif.Spec.Typing
/-! # Specification vocabulary: courses which are typed -/
namespace Nar
open Term

/-- the call is this part of a course: the truth value of a question does not matter, nor do draws for the names of variables -/
inductive IsLecture : NarOp → Lecture → Prop
  | told (t : Term) (tv : Tv) (rng : List Nat) : IsLecture (.tell t .JUGEMENT tv false rng) (.tell (t, tv))
  | asked (q : Term) (tv : Tv) (rng : List Nat) : IsLecture (.tell q .QUESTION tv true rng) (.ask q)
  | cycle (v : Rat) : IsLecture (.cycle v) (.cycle v)
  | work : IsLecture .declWork .work

/-- the lines (and calls) stand for the course -/
def TypedCourse (env : Env) (ops : List NarOp) (as : List Lecture) : Prop :=
  ∃ css : List (List NarOp), List.Forall₂ (AsCalls env) ops css ∧ List.Forall₂ IsLecture css.flatten as

end Nar
