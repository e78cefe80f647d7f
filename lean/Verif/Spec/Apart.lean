import Verif.Spec.Course
import Verif.Spec.Topics
/-! # Specification vocabulary: matters which have nothing to do with each other -/
namespace Nar
open Term

/-- something of the topic is mentioned -/
def About {α : Type} (topic : String → α) (τ : α) (t : Term) : Prop := ∃ x, Mentions t x ∧ topic x = τ

/-- a fact or a general rule, all of whose names belong to one topic -/
def SticksToTopic {α : Type} (topic : String → α) (t : Term) : Prop := FactOrRule t ∧ OneTopic topic t

/-- In both courses the same statements about the topic are told, equally often, in any order. -/
def SameAbout {α : Type} (topic : String → α) (τ : α) (as as' : List Lecture) : Prop :=
  ∃ mine : Term → Bool, (∀ t, t ∈ toldTerms as ∨ t ∈ toldTerms as' → (mine t = true ↔ About topic τ t)) ∧
    ((toldTerms as).filter mine).Perm ((toldTerms as').filter mine)

end Nar
