import Verif.Spec.Course
/-! # Specification vocabulary: what follows if statements may be used again and again -/
namespace Nar
open Term

/-- What follows by the rules from the statements told, if each of them may be used as often as one likes: evidence does not matter. -/
inductive Implied (cfg : Cfg) (told : Term → Prop) : Term → Prop
  | told (t : Term) : told t → (calcComplexity t : Int) ≤ cfg.maxComplexity → Implied cfg told t
  | alone (a c : Term) : Implied cfg told a → (∃ ta tc, Rule1 a ta c tc) → (calcComplexity c : Int) ≤ cfg.maxComplexity → Implied cfg told c
  | both (a b c : Term) : Implied cfg told a → Implied cfg told b → ShareAPart a b → (∃ ta tb tc, Rule2 a ta b tb c tc) →
      (calcComplexity c : Int) ≤ cfg.maxComplexity → Implied cfg told c

end Nar
