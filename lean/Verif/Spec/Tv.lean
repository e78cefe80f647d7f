import Verif.Model.Tv
/-! # Specification vocabulary for truth values -/
namespace Nar
namespace Tv

/-- frequency and confidence in [0,1] -/
def InRange (a : Tv) : Prop := 0 ≤ a.f ∧ a.f ≤ 1 ∧ 0 ≤ a.c ∧ a.c ≤ 1

/-- in range and not axiomatic (confidence below 1) -/
def Sane (a : Tv) : Prop := 0 ≤ a.f ∧ a.f ≤ 1 ∧ 0 ≤ a.c ∧ a.c < 1

instance (a : Tv) : Decidable (InRange a) := by unfold InRange; infer_instance
instance (a : Tv) : Decidable (Sane a) := by unfold Sane; infer_instance

/-- Everything obtainable from given truth values by any number of applications of the truth
functions. -/
inductive Derivable (given : Tv → Prop) : Tv → Prop
  | base {a} : given a → Derivable given a
  | ded {a b} : Derivable given a → Derivable given b → Derivable given (ded a b)
  | dedGoal {a b} : Derivable given a → Derivable given b → Derivable given (dedGoal a b)
  | abd {a b} : Derivable given a → Derivable given b → Derivable given (abd a b)
  | ind {a b} : Derivable given a → Derivable given b → Derivable given (ind a b)
  | comp {a b} : Derivable given a → Derivable given b → Derivable given (comp a b)
  | int {a b} : Derivable given a → Derivable given b → Derivable given (int a b)
  | neg {a} : Derivable given a → Derivable given (neg a)
  | rev {a b r} : Derivable given a → Derivable given b → rev a b = some r → Derivable given r

/-- the truth value supported by `total` units of evidence of which `positive` are positive (one unit is the
evidential horizon) -/
def ofEvidence (positive total : Rat) : Tv := ⟨positive / total, total / (total + 1)⟩

end Tv
end Nar
