import Mathlib.Data.Set.Basic
import Mathlib.Data.List.Forall2
import Verif.Spec.Decl
/-! # What statements mean

A set-theoretic reading of Narsese in the manner of first-order logic, independent of the reasoner: a term stands for the
things it covers, may be the case or not, and happens at certain moments. -/
namespace Nar
open Term

/-- what a term stands for in a world: the things it covers, whether it is the case, the moments at which it happens -/
structure Meaning (D T : Type) where
  covers : Set D
  holds : Prop
  happens : T → Prop

/-- A world with the things `D` and the moments `T`: what the names mean, which thing a tuple of things is, what it is to
have exactly a property and to be exactly an individual (no two concepts give the same property or individual), and what
else compounds mean about which nothing is assumed. -/
structure World (D T : Type) where
  name : String → Meaning D T
  tuple : List D → D
  property : Set D → Set D
  property_inj : Function.Injective property
  individual : Set D → Set D
  individual_inj : Function.Injective individual
  other : String → Nat → List (Meaning D T) → Meaning D T

/-- when a statement is the case: inheritance is inclusion, similarity is equality of what is covered; implication and
equivalence are those of propositions; a predictive implication says that the effect happens some time after the condition -/
def copulaHolds {D T : Type} [LT T] : Copula → Meaning D T → Meaning D T → Prop
  | .INH, s, p => s.covers ⊆ p.covers
  | .SIM, s, p => s.covers = p.covers
  | .IMPL, s, p => s.holds → p.holds
  | .EQUIV, s, p => s.holds ↔ p.holds
  | .PREDIMPL, s, p => ∀ t, s.happens t → ∃ t', t < t' ∧ p.happens t'

/-- the copula as a text, to tell the unspecified parts of the meaning of statements apart -/
def copulaTag : Copula → String
  | .INH => "-->" | .SIM => "<->" | .IMPL => "==>" | .EQUIV => "<=>" | .PREDIMPL => "=/>"

mutual
/-- the meaning of a term in a world, where the variables mean what `v` says -/
def meaning {D T : Type} [LT T] (M : World D T) (v : Term → Meaning D T) : Term → Meaning D T
  | .Name n => M.name n
  | .QVar n => v (.QVar n)
  | .DepVar n => v (.DepVar n)
  | .IndepVar n => v (.IndepVar n)
  | .Stmt c s p => { M.other (copulaTag c) 0 [meaning M v s, meaning M v p] with
      holds := copulaHolds c (meaning M v s) (meaning M v p) }
  | .Neg t => { M.other "!" 0 [meaning M v t] with holds := ¬ (meaning M v t).holds }
  | .Conj ts => { M.other "&&" 0 (meaningL M v ts) with holds := ∀ m ∈ meaningL M v ts, m.holds }
  | .Seq ts => M.other "," 0 (meaningL M v ts)
  | .Par ts => { M.other ";" 0 (meaningL M v ts) with happens := fun t => ∀ m ∈ meaningL M v ts, m.happens t }
  | .ExtInt ts => { M.other "&" 0 (meaningL M v ts) with covers := {x | ∀ m ∈ meaningL M v ts, x ∈ m.covers} }
  | .IntInt ts => { M.other "|" 0 (meaningL M v ts) with covers := {x | ∃ m ∈ meaningL M v ts, x ∈ m.covers} }
  | .SetInt ts => { M.other "[" 0 (meaningL M v ts) with covers := {x | ∀ m ∈ meaningL M v ts, x ∈ M.property m.covers} }
  | .SetExt ts => { M.other "{" 0 (meaningL M v ts) with covers := {x | ∃ m ∈ meaningL M v ts, x ∈ M.individual m.covers} }
  | .Prod ts => { M.other "*" 0 (meaningL M v ts) with
      covers := {x | ∃ xs, List.Forall₂ (fun y (m : Meaning D T) => y ∈ m.covers) xs (meaningL M v ts) ∧ M.tuple xs = x} }
  | .Img r i ts => { M.other "/" i (meaning M v r :: meaningL M v ts) with
      covers := {x | ∀ ys, List.Forall₂ (fun y (m : Meaning D T) => y ∈ m.covers) ys (meaningL M v ts) →
        M.tuple (ys.insertIdx i x) ∈ (meaning M v r).covers} }
/-- the meanings of several terms -/
def meaningL {D T : Type} [LT T] (M : World D T) (v : Term → Meaning D T) : List Term → List (Meaning D T)
  | [] => []
  | t :: ts => meaning M v t :: meaningL M v ts
end

/-- the statement is true in the world: for everything the independent variables may stand for there is something for the
other variables so that the statement is the case -/
def TrueIn {D T : Type} [LT T] (M : World D T) (t : Term) : Prop :=
  ∀ v : Term → Meaning D T, ∃ w : Term → Meaning D T, (∀ n, w (.IndepVar n) = v (.IndepVar n)) ∧ (meaning M w t).holds

/-- the statement is false in the world, whatever its independent variables stand for -/
def FalseIn {D T : Type} [LT T] (M : World D T) (t : Term) : Prop :=
  ∀ v : Term → Meaning D T, ¬ ∃ w : Term → Meaning D T, (∀ n, w (.IndepVar n) = v (.IndepVar n)) ∧ (meaning M w t).holds

/-- The truth value fits the world: what is said to be always so is true, what is said to be never so is false.  (About
frequencies in between nothing is said.) -/
def Fits {D T : Type} [LT T] (M : World D T) (t : Term) (tv : Tv) : Prop :=
  (tv.f = 1 → TrueIn M t) ∧ (tv.f = 0 → FalseIn M t)

/-- all variables of the term are independent ones, that is, it is about everything -/
def OnlyUniversal (t : Term) : Prop := ∀ s, IsSubterm s t → ∀ n, s ≠ .DepVar n ∧ s ≠ .QVar n

/-- not one of the terms with which the structural rules are wrong: dependent or query variable, disjunction of terms,
parallel events, product of other than two things -/
def UsualShape : Term → Prop
  | .DepVar _ | .QVar _ | .IntInt _ | .Par _ => False
  | .Prod ts => ts.length = 2
  | _ => True

/-- no such term occurs in it -/
def Usual (t : Term) : Prop := ∀ s, IsSubterm s t → UsualShape s

/-- everything the reasoner is told fits the world -/
def TruthfulTelling {D T : Type} [LT T] (M : World D T) (env : Env) (ops : List NarOp) : Prop :=
  ∀ pre op post r term tv, ops = pre ++ op :: post → runNar env pre = .ok r → Told env r op term tv → Fits M term tv

/-- everything the reasoner is told is of the usual shapes, and not claimed to be beyond doubt -/
def UsualTelling (env : Env) (ops : List NarOp) : Prop :=
  ∀ pre op post r term tv, ops = pre ++ op :: post → runNar env pre = .ok r → Told env r op term tv → Usual term ∧ Tv.Sane tv

end Nar
