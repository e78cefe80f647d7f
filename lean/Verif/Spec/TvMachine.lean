import Verif.Model.TvMachine
import Verif.Spec.Tv
import Mathlib.Algebra.Order.Field.Rat
/-! # Specification vocabulary for machine arithmetic -/
namespace Nar

/-- What is used about the rounding of a machine: it keeps the order, it keeps machine numbers (its own results), the numbers
`0`, `1`, `1/2`, `-1/2` and doubles of machine numbers are machine numbers, the error is small, and there is a largest machine
number below one. -/
structure Machine (rnd : Rat → Rat) : Prop where
  mono : ∀ x y, x ≤ y → rnd x ≤ rnd y
  idem : ∀ x, rnd (rnd x) = rnd x
  zero : rnd 0 = 0
  one : rnd 1 = 1
  half : rnd (1/2) = 1/2
  negHalf : rnd (-(1/2)) = -(1/2)
  double : ∀ x, rnd x = x → rnd (2 * x) = 2 * x
  near : ∀ x, |rnd x - x| ≤ |x| / 2 ^ 52 + 1 / 2 ^ 200
  gap : ∀ x, rnd x = x → x < 1 → x ≤ 1 - 1 / 2 ^ 60

namespace TvM

/-- both components are machine numbers -/
def IsTv (rnd : Rat → Rat) (a : Tv) : Prop := rnd a.f = a.f ∧ rnd a.c = a.c

/-- Everything obtainable from given truth values by any number of applications of the truth functions of the machine. -/
inductive Derivable (rnd : Rat → Rat) (given : Tv → Prop) : Tv → Prop
  | base {a} : given a → Derivable rnd given a
  | ded {a b} : Derivable rnd given a → Derivable rnd given b → Derivable rnd given (ded rnd a b)
  | dedGoal {a b} : Derivable rnd given a → Derivable rnd given b → Derivable rnd given (dedGoal rnd a b)
  | abd {a b} : Derivable rnd given a → Derivable rnd given b → Derivable rnd given (abd rnd a b)
  | ind {a b} : Derivable rnd given a → Derivable rnd given b → Derivable rnd given (ind rnd a b)
  | comp {a b} : Derivable rnd given a → Derivable rnd given b → Derivable rnd given (comp rnd a b)
  | int {a b} : Derivable rnd given a → Derivable rnd given b → Derivable rnd given (int rnd a b)
  | neg {a} : Derivable rnd given a → Derivable rnd given (neg rnd a)
  | rev {a b r} : Derivable rnd given a → Derivable rnd given b → rev rnd a b = some r → Derivable rnd given r

/-- two truth values differ by at most `e` in each component -/
def Within (e : Rat) (a b : Tv) : Prop := |a.f - b.f| ≤ e ∧ |a.c - b.c| ≤ e

end TvM
end Nar
