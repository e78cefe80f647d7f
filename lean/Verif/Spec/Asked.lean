import Verif.Spec.Thinks
/-! # Specification vocabulary for questions about something which is known -/
namespace Nar
open Term

/-- the random draw `v` falls on number `i` of `n` things which get equal shares of the interval from 0 to 1 -/
def FallsOn (v : Rat) (n i : Nat) : Prop := i < n ∧ (i : Rat) / n < v ∧ v ≤ (i + 1 : Rat) / n

/-- between the two states all handlers got an answer to the question which is at least as good as `e` -/
def Answered (r r' : Reasoner) (q : Term) (e : Rat) : Prop :=
  ∀ hd, hd < r.nGlobal →
    ∃ call ∈ r'.answers.drop r.answers.length, call.handler = .global hd ∧ call.question = q ∧
      call.answer.punct = .JUGEMENT ∧ (∃ θ, inst θ q = call.answer.term) ∧ ∃ e', e ≤ e' ∧ Expectation call.answer e'

/-- how much a truth value makes one expect that the statement holds -/
def expects (tv : Tv) : Rat := (tv.f - 1/2) * tv.c + 1/2

/-- a query variable occurs in the term -/
def AsksIn (t : Term) : Prop := ∃ n, IsSubterm (.QVar n) t

/-- a question which names nothing: all its parts contain query variables -/
def NamesNothing (q : Term) : Prop := ∀ s, IsSubterm s q → AsksIn s

/-- a new reasoner with `k` handlers is told the statements -/
def afterTelling (k : Nat) (sts : List (Term × Tv)) : List NarOp := .handlers k :: tellAll sts

/-- the question is asked through the programming interface -/
def askFor (q : Term) : NarOp := .tell q .QUESTION ⟨1, 1/2⟩ true []

end Nar
