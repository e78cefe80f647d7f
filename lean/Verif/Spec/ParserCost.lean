import Verif.Spec.Parser
import Verif.Model.ParserCost
/-! # Small specification for the work done by the parser -/
namespace Nar

/-- `n` opening parentheses and a full stop. -/
def parensLine (n : Nat) : List Char := List.replicate n '(' ++ ['.']

/-- `a`, `(a&&a)`, `((a&&a)&&a)`, …: a conjunction nested `n` times on the left. -/
def leftConj : Nat → Term
  | 0 => .Name "a"
  | n + 1 => .Conj [leftConj n, .Name "a"]

/-- How often the function that reads a term is called while a line is read. -/
def lineCalls (pf : List Char → Option Rat) (line : List Char) : Nat :=
  match parseNarseseC pf line with
  | .ok x => x.calls
  | .error _ => 0

/-- The work `f` needs for the texts in `S` is bounded by some polynomial in the length of the
text. -/
def PolyBounded (S : List Char → Prop) (f : List Char → Nat) : Prop :=
  ∃ c k, ∀ s, S s → f s ≤ c * (s.length + 1) ^ k

end Nar
