import Verif.Lemmas.Term
/-! # Specification vocabulary for variable introduction -/
namespace Nar
namespace Term

mutual
/-- All occurrences of terms inside a term, with repetitions.  The relation of an image is not descended into
(neither counting nor replacing looks there). -/
def occurrences : Term → List Term
  | Stmt c s p => Stmt c s p :: (occurrences s ++ occurrences p)
  | Name n => [Name n]
  | QVar n => [QVar n]
  | DepVar n => [DepVar n]
  | IndepVar n => [IndepVar n]
  | Seq ts => Seq ts :: occurrencesL ts
  | SetInt ts => SetInt ts :: occurrencesL ts
  | SetExt ts => SetExt ts :: occurrencesL ts
  | Conj ts => Conj ts :: occurrencesL ts
  | Prod ts => Prod ts :: occurrencesL ts
  | Img r i ts => Img r i ts :: occurrencesL ts
  | IntInt ts => IntInt ts :: occurrencesL ts
  | ExtInt ts => ExtInt ts :: occurrencesL ts
  | Par ts => Par ts :: occurrencesL ts
  | Neg t => Neg t :: occurrences t
/-- the occurrences in all elements of a list -/
def occurrencesL : List Term → List Term
  | [] => []
  | t :: ts => occurrences t ++ occurrencesL ts
end

/-- how often `s` occurs in `t` -/
def timesIn (s t : Term) : Nat := (occurrences t).count s

/-- the shape of rule in which a variable is introduced: `<(<x --> [ps]>, b) =/> c>` -/
def Introducible (x r : Term) : Prop :=
  ∃ ps b c, r = Stmt .PREDIMPL (Term.Seq [Stmt .INH x (SetInt ps), b]) c

end Term
end Nar
