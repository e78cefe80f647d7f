import Verif.Model.Term
/-!
# Specification vocabulary for terms (independent of the functions of Term.rs)
-/
namespace Nar
namespace Term

/-- The direct components of a term. -/
def parts : Term → List Term
  | Stmt _ s p => [s, p]
  | Name _ | QVar _ | DepVar _ | IndepVar _ => []
  | Seq ts | SetInt ts | SetExt ts | Conj ts | Prod ts | IntInt ts | ExtInt ts | Par ts => ts
  | Img r _ ts => r :: ts
  | Neg t => [t]

/-- `IsSubterm s t`: `s` is `t` or occurs somewhere inside `t`. -/
inductive IsSubterm : Term → Term → Prop
  | refl (t : Term) : IsSubterm t t
  | inside {s c t : Term} : c ∈ parts t → IsSubterm s c → IsSubterm s t

/-- The term has a text: no compound in it is empty. -/
def Printable (t : Term) : Prop := ∃ text, convTermToStr t = some text

/-- Variables of the three kinds. -/
def IsVar : Term → Prop
  | QVar _ | DepVar _ | IndepVar _ => True
  | _ => False

/-- Atoms: names and variables. -/
def IsAtom : Term → Prop
  | Name _ | QVar _ | DepVar _ | IndepVar _ => True
  | _ => False

instance : DecidablePred IsVar := fun t => by cases t <;> simp [IsVar] <;> infer_instance
instance : DecidablePred IsAtom := fun t => by cases t <;> simp [IsAtom] <;> infer_instance

/-- A term without variables. -/
def Ground (t : Term) : Prop := ∀ v, IsVar v → ¬ IsSubterm v t

/-- The nodes that complexity counts: atoms, statements, negations. -/
def Counted : Term → Bool
  | Stmt _ _ _ | Neg _ | Name _ | QVar _ | DepVar _ | IndepVar _ => true
  | _ => false

end Term
end Nar
