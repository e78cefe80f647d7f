import Verif.Lemmas.Term
/-! # Property theorems about terms (C01, C50) -/
namespace Nar.Props
open Nar Term

/-- C01: comparison decides identity. -/
theorem C01_comparison_decides_identity (a b : Term) : checkEqTerm a b = true ↔ a = b :=
  checkEqTerm_iff a b

/-- C01: hence comparison is an equivalence relation. -/
theorem C01_comparison_equivalence :
    (∀ a, checkEqTerm a a = true) ∧
    (∀ a b, checkEqTerm a b = true → checkEqTerm b a = true) ∧
    (∀ a b c, checkEqTerm a b = true → checkEqTerm b c = true → checkEqTerm a c = true) := by
  refine ⟨checkEqTerm_self, ?_, ?_⟩
  · intro a b h; rw [checkEqTerm_comm]; exact h
  · intro a b c h1 h2
    rw [checkEqTerm_iff] at *; rw [h1, h2]

example : checkEqTerm (.Img (.Name "r") 0 [.Name "a"]) (.Img (.Name "r") 1 [.Name "a"]) = false ∧
    checkEqTerm (.Seq [.Name "a", .QVar "x"]) (.Seq [.Name "a", .QVar "x"]) = true ∧
    checkEqTerm (.Seq [.Name "a"]) (.Seq [.Name "a", .QVar "x"]) = false := by decide

/-- C50: the enumerated sub-terms are exactly the term and everything inside it. -/
theorem C50_subterms_exact (s t : Term) : s ∈ retSubterms t ↔ IsSubterm s t := mem_retSubterms s t

/-- C50: the unique enumeration lists the same terms, each once. -/
theorem C50_unique_subterms (t : Term) :
    (retUniqueSubterms t).Nodup ∧ ∀ s, s ∈ retUniqueSubterms t ↔ IsSubterm s t :=
  ⟨nodup_retUniqueSubterms t, fun s => mem_retUniqueSubterms s t⟩

/-- C50: complexity counts exactly the atoms, statements and negations (with multiplicity). -/
theorem C50_complexity_counts (t : Term) :
    calcComplexity t = (retSubterms t).countP Counted := calcComplexity_eq t

example : retUniqueSubterms (.Stmt .INH (.Name "a") (.Prod [.Name "a", .Name "b"])) =
    [.Stmt .INH (.Name "a") (.Prod [.Name "a", .Name "b"]), .Name "a",
     .Prod [.Name "a", .Name "b"], .Name "b"] ∧
    calcComplexity (.Stmt .INH (.Name "a") (.Prod [.Name "a", .Name "b"])) = 4 := by decide

end Nar.Props
