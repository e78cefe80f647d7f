import Verif.Spec.Parser
/-! # Terms whose printed text can be told from that of other terms -/
namespace Nar
open Term

/-- a name made of at least one letter, digit, `-`, `_` or `^` -/
def Spelled (w : String) : Prop := w.toList ≠ [] ∧ ∀ c ∈ w.toList, SignChar c

/-- names are spelled with the characters of words; a compound whose parts are joined by a sign has at least two parts; other
compounds have at least one part -/
def Term.Clear : Term → Prop
  | .Name w | .QVar w | .DepVar w | .IndepVar w => Spelled w
  | .Seq ts | .Conj ts | .Prod ts | .IntInt ts | .ExtInt ts | .Par ts => 2 ≤ ts.length
  | .SetInt ts | .SetExt ts | .Img _ _ ts => ts ≠ []
  | _ => True

/-- the same holds for everything inside the term -/
def Legible (t : Term) : Prop := ∀ s, IsSubterm s t → s.Clear

/-- how a trail of evidence is written: the numbers, with commas between them -/
def trailText (ids : List Int) : List Char := List.intercalate [','] (ids.map (fun i => (toString i).toList))

end Nar
