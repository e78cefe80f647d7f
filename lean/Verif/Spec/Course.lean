import Verif.Spec.Best
import Verif.Spec.Asked
/-! # Specification vocabulary: telling, asking and thinking in any arrangement -/
namespace Nar
open Term

/-- What happens in a course: a statement is told, a question is asked, the reasoner does a cycle, or its worker takes its turn. -/
inductive Lecture
  | tell (st : Term × Tv)
  | ask (q : Term)
  | cycle (v : Rat)
  | work

/-- the same as an action of the reasoner -/
def Lecture.op : Lecture → NarOp
  | .tell st => .tell st.1 .JUGEMENT st.2 false []
  | .ask q => askFor q
  | .cycle v => .cycle v
  | .work => .declWork

/-- statements are sane and no temporal rules, questions can be written down -/
def Lecture.Fine : Lecture → Prop
  | .tell st => SafeInput st.1 .JUGEMENT st.2 false
  | .ask q => Printable q
  | _ => True

/-- a new reasoner gets `k` handlers for answers, and then takes the course -/
def course (k : Nat) (as : List Lecture) : List NarOp := .handlers k :: as.map Lecture.op

/-- how many statements and questions there are -/
def inputsIn : List Lecture → Nat
  | [] => 0
  | .tell _ :: as => inputsIn as + 1
  | .ask _ :: as => inputsIn as + 1
  | _ :: as => inputsIn as

/-- how many cycles there are -/
def cyclesOf : List Lecture → Nat
  | [] => 0
  | .cycle _ :: as => cyclesOf as + 1
  | _ :: as => cyclesOf as

/-- the statements with their numbers, if the first input has number `n`; questions have numbers as well -/
def numberedIn : Nat → List Lecture → List (Nat × Term × Tv)
  | _, [] => []
  | n, .tell st :: as => (n, st) :: numberedIn (n + 1) as
  | n, .ask _ :: as => numberedIn (n + 1) as
  | n, _ :: as => numberedIn n as

/-- the terms of the statements told, in order -/
def toldTerms (as : List Lecture) : List Term := (numberedIn 0 as).map (·.2.1)

/-- the statement was told in the course, and its number is its evidence -/
def Lectured (as : List Lecture) (s : Sentence) : Prop := ∃ p ∈ numberedIn 0 as, s = toldAs p.1 p.2

/-- no questions are asked -/
def NoQuestions (as : List Lecture) : Prop := ∀ a ∈ as, ∀ q, a ≠ .ask q

/-- after the course nothing is left to think about, and there was room for everything -/
structure Finished (r : Reasoner) : Prop where
  rest : AtRest r.sys
  room : Room r.sh

/-- the statement is among the tasks -/
def IsKnown (r : Reasoner) (t : Term) : Prop := ∃ x ∈ r.sh.heap, x.sentence.term = t

end Nar
