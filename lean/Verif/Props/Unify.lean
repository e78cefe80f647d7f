import Verif.Lemmas.Unify
import Verif.Lemmas.List
/-! # Property theorems about matching (C02, C03, C04) -/
namespace Nar.Props
open Nar Term

/-- C02: substituting the reported bindings into the pattern gives exactly the matched term. -/
theorem C02_match_sound (pat t : Term) (σ : List Asgnment) (h : unify pat t = some σ) :
    unifySubst σ pat = t :=
  (unify2_sound pat t [] σ h).2 σ List.prefix_rfl

/-- C02, stated with the independent instantiation: every reading of the bindings as an assignment
turns the pattern into the matched term. -/
theorem C02_match_instantiates (pat t : Term) (σ : List Asgnment) (θ : Term → Term)
    (h : unify pat t = some σ) (hθ : Realises σ θ) : inst θ pat = t := by
  have hs := C02_match_sound pat t σ h
  have hn := (unify2_sound pat t [] σ h).1.nodup (by simp [KeysNodup])
  rw [unifySubst_eq_inst] at hs
  have : (fun v => substVar v σ) = θ := by
    funext v
    by_cases hv : ∃ a ∈ σ, a.var = v
    · obtain ⟨a, ha, e, hsv⟩ := substVar_mem v σ hv
      rw [hsv, ← hθ.1 a ha, e]
    · have hv' : ∀ a ∈ σ, a.var ≠ v := fun a ha e => hv ⟨a, ha, e⟩
      rw [substVar_not_mem v σ hv', hθ.2 v hv']
  rw [this] at hs; exact hs

/-- the hypotheses of C02 are met by a pattern with a repeated variable -/
example : ∃ σ, unify (.Stmt .INH (.QVar "x") (.Prod [.QVar "x", .QVar "y"]))
    (.Stmt .INH (.Name "a") (.Prod [.Name "a", .SetExt [.Name "b"]])) = some σ ∧ σ.length = 2 :=
  ⟨[⟨.QVar "x", .Name "a"⟩, ⟨.QVar "y", .SetExt [.Name "b"]⟩], by
    constructor <;> rfl⟩

/-- the same pattern, with the bindings read as an assignment -/
example : inst (fun v => if v = .QVar "x" then .Name "a" else if v = .QVar "y" then .SetExt [.Name "b"] else v)
      (.Stmt .INH (.QVar "x") (.Prod [.QVar "x", .QVar "y"])) =
    .Stmt .INH (.Name "a") (.Prod [.Name "a", .SetExt [.Name "b"]]) := by
  refine C02_match_instantiates _ _ [⟨.QVar "x", .Name "a"⟩, ⟨.QVar "y", .SetExt [.Name "b"]⟩] _ rfl ⟨?_, ?_⟩
  · intro a ha
    simp only [List.mem_cons, List.not_mem_nil, or_false] at ha
    rcases ha with rfl | rfl
    · rfl
    · rfl
  · intro v hv
    have h1 := hv _ (List.mem_cons_self ..)
    have h2 := hv ⟨.QVar "y", .SetExt [.Name "b"]⟩ (by simp)
    simp only at h1 h2
    show (if v = _ then _ else if v = _ then _ else v) = v
    rw [if_neg (Ne.symm h1), if_neg (Ne.symm h2)]

/-- C03: every variable-free instance of a pattern is matched, and the bindings are the ones of the
given assignment; every variable of the pattern is bound. -/
theorem C03_match_complete (pat t : Term) (θ : Term → Term) (hg : Ground t) (h : inst θ pat = t) :
    ∃ σ, unify pat t = some σ ∧ (∀ a ∈ σ, θ a.var = a.val) ∧
      ∀ v, IsVar v → IsSubterm v pat → ∃ a ∈ σ, a.var = v := by
  obtain ⟨σ, h1, h2, _, h4⟩ := unify2_complete pat θ t [] (by simp [Agrees])
    (fun v hv hs => hg v hv hs) h
  exact ⟨σ, h1, h2, h4⟩

/-- C03: matching a variable-free target decides whether the target is an instance. -/
theorem C03_match_iff_instance (pat t : Term) (hg : Ground t) :
    (unify pat t).isSome ↔ ∃ θ, inst θ pat = t := by
  constructor
  · intro h
    obtain ⟨σ, hσ⟩ := Option.isSome_iff_exists.1 h
    exact ⟨fun v => substVar v σ, by rw [← unifySubst_eq_inst]; exact C02_match_sound pat t σ hσ⟩
  · rintro ⟨θ, hθ⟩
    obtain ⟨σ, h1, _⟩ := C03_match_complete pat t θ hg hθ
    simp [h1]

example : Ground (.Stmt .INH (.Name "a") (.Name "b")) ∧
    inst (fun _ => .Name "a") (.Stmt .INH (.QVar "x") (.Name "b")) =
      .Stmt .INH (.Name "a") (.Name "b") := by
  refine ⟨?_, rfl⟩
  intro v hv hs
  rw [← mem_retSubterms] at hs
  simp [retSubterms] at hs
  rcases hs with rfl | rfl | rfl <;> simp [IsVar] at hv

/-- the instance is matched and its variable is bound as assigned -/
example : ∃ σ, unify (.Stmt .INH (.QVar "x") (.Name "b")) (.Stmt .INH (.Name "a") (.Name "b")) = some σ ∧
    ∃ a ∈ σ, a.var = .QVar "x" ∧ a.val = .Name "a" := by
  have hg : Ground (.Stmt .INH (.Name "a") (.Name "b")) := by
    intro v hv hs
    rw [← mem_retSubterms] at hs
    simp [retSubterms] at hs
    rcases hs with rfl | rfl | rfl <;> simp [IsVar] at hv
  obtain ⟨σ, h1, h2, h3⟩ := C03_match_complete _ _ (fun _ => .Name "a") hg
    (show inst (fun _ => .Name "a") (.Stmt .INH (.QVar "x") (.Name "b")) = .Stmt .INH (.Name "a") (.Name "b") from rfl)
  obtain ⟨a, ha, hv⟩ := h3 (.QVar "x") (by simp [IsVar]) (by rw [← mem_retSubterms]; simp [retSubterms])
  exact ⟨σ, h1, a, ha, hv, (h2 a ha).symm⟩

/-- C03 (negative part): with variables in the target completeness fails, a term with a variable
does not match itself although the identity assignment maps it to itself. -/
theorem C03_variable_target_not_matched :
    ∃ t : Term, inst id t = t ∧ unify t t = none :=
  ⟨.Stmt .INH (.QVar "x") (.Name "b"), rfl, rfl⟩

/-- C04: the bindings of a successful match are a function: each variable at most once, only
variables of the pattern, values are parts of the matched term and no variables themselves. -/
theorem C04_bindings_functional (pat t : Term) (σ : List Asgnment) (h : unify pat t = some σ) :
    (σ.map (·.var)).Nodup ∧
    (∀ a ∈ σ, IsVar a.var ∧ IsSubterm a.var pat) ∧
    (∀ a ∈ σ, IsSubterm a.val t ∧ ¬ IsVar a.val) ∧
    (∀ a ∈ σ, ∀ b ∈ σ, a.var = b.var → a.val = b.val) := by
  obtain ⟨⟨⟨δ, e, hδ⟩, hn⟩, _⟩ := unify2_sound pat t [] σ h
  simp only [List.nil_append] at e
  subst e
  have hnd : (σ.map (·.var)).Nodup := hn (by simp [KeysNodup])
  refine ⟨hnd, fun a ha => ⟨(hδ a ha).1, (hδ a ha).2.1⟩,
    fun a ha => ⟨(hδ a ha).2.2.2, (hδ a ha).2.2.1⟩, ?_⟩
  intro a ha b hb hab
  rw [eq_of_nodup_map hnd a ha b hb hab]

/-- the two bindings of the pattern with a repeated variable -/
example : ([⟨.QVar "x", .Name "a"⟩, ⟨.QVar "y", .SetExt [.Name "b"]⟩] : List Asgnment).map (·.var) =
      [.QVar "x", .QVar "y"] ∧
    IsSubterm (.SetExt [.Name "b"]) (.Stmt .INH (.Name "a") (.Prod [.Name "a", .SetExt [.Name "b"]])) :=
  ⟨rfl, ((C04_bindings_functional (.Stmt .INH (.QVar "x") (.Prod [.QVar "x", .QVar "y"])) _
    [⟨.QVar "x", .Name "a"⟩, ⟨.QVar "y", .SetExt [.Name "b"]⟩] rfl).2.2.1 ⟨.QVar "y", .SetExt [.Name "b"]⟩
      (by simp)).1⟩

end Nar.Props
