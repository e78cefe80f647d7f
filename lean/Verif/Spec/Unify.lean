import Verif.Spec.Term
import Verif.Model.Unify
/-! # Specification vocabulary for matching -/
namespace Nar
open Term

mutual
/-- `inst θ t`: replace every variable `v` of `t` by `θ v`, simultaneously. -/
def inst (θ : Term → Term) : Term → Term
  | QVar n => θ (QVar n)
  | DepVar n => θ (DepVar n)
  | IndepVar n => θ (IndepVar n)
  | Name n => Name n
  | Stmt c s p => Stmt c (inst θ s) (inst θ p)
  | .Seq ts => .Seq (instL θ ts)
  | SetInt ts => SetInt (instL θ ts)
  | SetExt ts => SetExt (instL θ ts)
  | Conj ts => Conj (instL θ ts)
  | .Prod ts => .Prod (instL θ ts)
  | Img r i ts => Img (inst θ r) i (instL θ ts)
  | IntInt ts => IntInt (instL θ ts)
  | ExtInt ts => ExtInt (instL θ ts)
  | Par ts => Par (instL θ ts)
  | .Neg t => .Neg (inst θ t)
/-- `inst` on every element. -/
def instL (θ : Term → Term) : List Term → List Term
  | [] => []
  | t :: ts => inst θ t :: instL θ ts
end

/-- The bindings, read as an assignment of terms to variables (identity elsewhere): `θ` maps the
variable of every binding to its value and every other term to itself. -/
def Realises (σ : List Asgnment) (θ : Term → Term) : Prop :=
  (∀ a ∈ σ, θ a.var = a.val) ∧ ∀ t, (∀ a ∈ σ, a.var ≠ t) → θ t = t

end Nar
