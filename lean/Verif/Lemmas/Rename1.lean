import Verif.Spec.Rename
import Verif.Lemmas.Term
/-! # Other names: terms and matching -/
namespace Nar
open Term

/-! ## panics -/

theorem R.bind_of_map {α β γ} (x : R α) (f : α → β) (k : β → R γ) : (x.map f >>= k) = (x >>= fun a => k (f a)) := by cases x <;> rfl

theorem R.map_of_bind {α β γ} (x : R α) (k : α → R β) (g : β → γ) : (x >>= k).map g = (x >>= fun a => (k a).map g) := by cases x <;> rfl

theorem R.map_id' {α} (x : R α) : x.map (fun a => a) = x := by cases x <;> rfl

theorem R.bind_same {α β} {x : R α} {k k' : α → R β} (h : ∀ a, k a = k' a) : (x >>= k) = (x >>= k') := by
  cases x with
  | error e => rfl
  | ok a => exact h a

theorem R.bind_rel {α α' β β'} {x : R α} {x' : R α'} {f : α → α'} {g : β → β'} {k : α → R β} {k' : α' → R β'}
    (hx : x' = x.map f) (hk : ∀ a, k' (f a) = (k a).map g) : (x' >>= k') = (x >>= k).map g := by
  subst hx; cases x with
  | error e => rfl
  | ok a => exact hk a

theorem foldlM_rel {α α' σ σ'} {g : σ → σ'} {f : α → α'} {k : σ → α → R σ} {k' : σ' → α' → R σ'}
    (h : ∀ s a, k' (g s) (f a) = (k s a).map g) (l : List α) (s : σ) :
    (l.map f).foldlM k' (g s) = (l.foldlM k s).map g := by
  induction l generalizing s with
  | nil => rfl
  | cons a l ih =>
    rw [List.map_cons, List.foldlM_cons, List.foldlM_cons]
    exact R.bind_rel (h s a) (fun s => ih s)

theorem foldlM_same {α σ σ'} {g : σ → σ'} {k : σ → α → R σ} {k' : σ' → α → R σ'}
    (h : ∀ s a, k' (g s) a = (k s a).map g) (l : List α) (s : σ) :
    l.foldlM k' (g s) = (l.foldlM k s).map g := by
  have := foldlM_rel (f := id) (k := k) (k' := k') (g := g) h l s
  rwa [List.map_id] at this

theorem foldl_rel {α α' σ σ'} {g : σ → σ'} {f : α → α'} {k : σ → α → σ} {k' : σ' → α' → σ'}
    (h : ∀ s a, k' (g s) (f a) = g (k s a)) (l : List α) (s : σ) : (l.map f).foldl k' (g s) = g (l.foldl k s) := by
  induction l generalizing s with
  | nil => rfl
  | cons a l ih => rw [List.map_cons, List.foldl_cons, List.foldl_cons, h]; exact ih _

theorem foldl_same {α σ σ'} {g : σ → σ'} {k : σ → α → σ} {k' : σ' → α → σ'}
    (h : ∀ s a, k' (g s) a = g (k s a)) (l : List α) (s : σ) : l.foldl k' (g s) = g (l.foldl k s) := by
  have := foldl_rel (f := id) (k := k) (k' := k') (g := g) h l s
  rwa [List.map_id] at this

theorem mapM_rel {α α' β β'} {f : α → α'} {g : β → β'} {k : α → R β} {k' : α' → R β'}
    (h : ∀ a, k' (f a) = (k a).map g) (l : List α) : (l.map f).mapM k' = (l.mapM k).map (List.map g) := by
  induction l with
  | nil => rfl
  | cons a l ih =>
    rw [List.map_cons, List.mapM_cons, List.mapM_cons]
    exact R.bind_rel (h a) (fun b => R.bind_rel ih (fun bs => rfl))

theorem mapM_same {α β β'} {g : β → β'} {k : α → R β} {k' : α → R β'}
    (h : ∀ a, k' a = (k a).map g) (l : List α) : l.mapM k' = (l.mapM k).map (List.map g) := by
  have := mapM_rel (f := id) (k := k) (k' := k') (g := g) h l
  rwa [List.map_id] at this

theorem indexAt_ren {α β} (f : α → β) (l : List α) (i : Nat) : indexAt (l.map f) i = (indexAt l i).map f := by
  unfold indexAt
  rw [List.getElem?_map]
  cases l[i]? <;> rfl

theorem unwrap_ren {α β} (f : α → β) (o : Option α) : unwrap (o.map f) = (unwrap o).map f := by cases o <;> rfl

theorem any_ren {α β} {f : α → β} {p : α → Bool} {p' : β → Bool} (h : ∀ a, p' (f a) = p a) (l : List α) :
    (l.map f).any p' = l.any p := by
  rw [List.any_map]
  congr 1; funext a; exact h a

theorem all_ren {α β} {f : α → β} {p : α → Bool} {p' : β → Bool} (h : ∀ a, p' (f a) = p a) (l : List α) :
    (l.map f).all p' = l.all p := by
  rw [List.all_map]
  congr 1; funext a; exact h a

theorem find?_ren {α β} {f : α → β} {p : α → Bool} {p' : β → Bool} (h : ∀ a, p' (f a) = p a) (l : List α) :
    (l.map f).find? p' = (l.find? p).map f := by
  rw [List.find?_map]
  have : (p' ∘ f) = p := funext h
  rw [this]

theorem findIdx?_ren {α β} {f : α → β} {p : α → Bool} {p' : β → Bool} (h : ∀ a, p' (f a) = p a) (l : List α) :
    (l.map f).findIdx? p' = l.findIdx? p := by
  rw [List.findIdx?_map]
  have : (p' ∘ f) = p := funext h
  rw [this]

theorem filter_ren {α β} {f : α → β} {p : α → Bool} {p' : β → Bool} (h : ∀ a, p' (f a) = p a) (l : List α) :
    (l.map f).filter p' = (l.filter p).map f := by
  rw [List.filter_map]
  have : (p' ∘ f) = p := funext h
  rw [this]

theorem flatMap_ren {α α' β β'} {f : α → α'} {g : β → β'} {k : α → List β} {k' : α' → List β'}
    (h : ∀ a, k' (f a) = (k a).map g) (l : List α) : (l.map f).flatMap k' = (l.flatMap k).map g := by
  induction l with
  | nil => rfl
  | cons a l ih => rw [List.map_cons, List.flatMap_cons, List.flatMap_cons, List.map_append, h, ih]

/-! ## terms -/

namespace Renaming
variable (ρ : Renaming)

theorem terms_map (ts : List Term) : ρ.terms ts = ts.map ρ.term := by
  induction ts with
  | nil => rw [terms]; rfl
  | cons t ts ih => rw [terms, ih]; rfl

theorem terms_length (ts : List Term) : (ρ.terms ts).length = ts.length := by rw [terms_map, List.length_map]

mutual
theorem term_inj : ∀ a b : Term, ρ.term a = ρ.term b → a = b
  | Stmt c s p, b, h => by
      cases b <;> simp only [term, Term.Stmt.injEq, reduceCtorEq] at h
      rw [h.1, term_inj s _ h.2.1, term_inj p _ h.2.2]
  | Name n, b, h => by
      cases b <;> simp only [term, Term.Name.injEq, reduceCtorEq] at h
      rw [ρ.name_inj _ _ h]
  | .Seq ts, b, h => by
      cases b <;> simp only [term, Term.Seq.injEq, reduceCtorEq] at h
      rw [terms_inj ts _ h]
  | SetInt ts, b, h => by
      cases b <;> simp only [term, Term.SetInt.injEq, reduceCtorEq] at h
      rw [terms_inj ts _ h]
  | SetExt ts, b, h => by
      cases b <;> simp only [term, Term.SetExt.injEq, reduceCtorEq] at h
      rw [terms_inj ts _ h]
  | QVar n, b, h => by
      cases b <;> simp only [term, Term.QVar.injEq, reduceCtorEq] at h
      rw [ρ.var_inj _ _ h]
  | DepVar n, b, h => by
      cases b <;> simp only [term, Term.DepVar.injEq, reduceCtorEq] at h
      rw [ρ.var_inj _ _ h]
  | IndepVar n, b, h => by
      cases b <;> simp only [term, Term.IndepVar.injEq, reduceCtorEq] at h
      rw [ρ.var_inj _ _ h]
  | Conj ts, b, h => by
      cases b <;> simp only [term, Term.Conj.injEq, reduceCtorEq] at h
      rw [terms_inj ts _ h]
  | .Prod ts, b, h => by
      cases b <;> simp only [term, Term.Prod.injEq, reduceCtorEq] at h
      rw [terms_inj ts _ h]
  | Img r i ts, b, h => by
      cases b <;> simp only [term, Term.Img.injEq, reduceCtorEq] at h
      rw [term_inj r _ h.1, h.2.1, terms_inj ts _ h.2.2]
  | IntInt ts, b, h => by
      cases b <;> simp only [term, Term.IntInt.injEq, reduceCtorEq] at h
      rw [terms_inj ts _ h]
  | ExtInt ts, b, h => by
      cases b <;> simp only [term, Term.ExtInt.injEq, reduceCtorEq] at h
      rw [terms_inj ts _ h]
  | Par ts, b, h => by
      cases b <;> simp only [term, Term.Par.injEq, reduceCtorEq] at h
      rw [terms_inj ts _ h]
  | .Neg t, b, h => by
      cases b <;> simp only [term, Term.Neg.injEq, reduceCtorEq] at h
      rw [term_inj t _ h]
theorem terms_inj : ∀ a b : List Term, ρ.terms a = ρ.terms b → a = b
  | [], b, h => by cases b <;> simp only [terms, reduceCtorEq] at h; rfl
  | t :: ts, b, h => by
      cases b <;> simp only [terms, List.cons.injEq, reduceCtorEq] at h
      rw [term_inj t _ h.1, terms_inj ts _ h.2]
end

theorem checkEq (a b : Term) : checkEqTerm (ρ.term a) (ρ.term b) = checkEqTerm a b := by
  rw [Bool.eq_iff_iff, checkEqTerm_iff, checkEqTerm_iff]
  exact ⟨ρ.term_inj a b, fun h => by rw [h]⟩

mutual
theorem subterms : ∀ t : Term, retSubterms (ρ.term t) = (retSubterms t).map ρ.term
  | Stmt c s p => by simp only [term, retSubterms, List.map_cons, List.map_append, subterms s, subterms p]
  | Name n => by simp only [term, retSubterms, List.map_cons, List.map_nil]
  | .Seq ts => by simp only [term, retSubterms, List.map_cons, subtermsL ts]
  | SetInt ts => by simp only [term, retSubterms, List.map_cons, subtermsL ts]
  | SetExt ts => by simp only [term, retSubterms, List.map_cons, subtermsL ts]
  | QVar n => by simp only [term, retSubterms, List.map_cons, List.map_nil]
  | DepVar n => by simp only [term, retSubterms, List.map_cons, List.map_nil]
  | IndepVar n => by simp only [term, retSubterms, List.map_cons, List.map_nil]
  | Conj ts => by simp only [term, retSubterms, List.map_cons, subtermsL ts]
  | .Prod ts => by simp only [term, retSubterms, List.map_cons, subtermsL ts]
  | Img r i ts => by simp only [term, retSubterms, List.map_cons, List.map_append, subtermsL ts, subterms r]
  | IntInt ts => by simp only [term, retSubterms, List.map_cons, subtermsL ts]
  | ExtInt ts => by simp only [term, retSubterms, List.map_cons, subtermsL ts]
  | Par ts => by simp only [term, retSubterms, List.map_cons, subtermsL ts]
  | .Neg t => by simp only [term, retSubterms, List.map_cons, subterms t]
theorem subtermsL : ∀ ts : List Term, retSubtermsL (ρ.terms ts) = (retSubtermsL ts).map ρ.term
  | [] => by simp only [terms, retSubtermsL, List.map_nil]
  | t :: ts => by simp only [terms, retSubtermsL, List.map_append, subterms t, subtermsL ts]
end

theorem uniqueSubterms (t : Term) : retUniqueSubterms (ρ.term t) = (retUniqueSubterms t).map ρ.term := by
  unfold retUniqueSubterms
  rw [subterms]
  refine foldl_rel (g := List.map ρ.term) ?_ _ []
  intro res a
  rw [any_ren (p := fun b => checkEqTerm a b) (fun b => ρ.checkEq a b)]
  split <;> simp

mutual
theorem complexity : ∀ t : Term, calcComplexity (ρ.term t) = calcComplexity t
  | Stmt c s p => by simp only [term, calcComplexity, complexity s, complexity p]
  | Name n => by simp only [term, calcComplexity]
  | .Seq ts => by simp only [term, calcComplexity, complexityL ts]
  | SetInt ts => by simp only [term, calcComplexity, complexityL ts]
  | SetExt ts => by simp only [term, calcComplexity, complexityL ts]
  | QVar n => by simp only [term, calcComplexity]
  | DepVar n => by simp only [term, calcComplexity]
  | IndepVar n => by simp only [term, calcComplexity]
  | Conj ts => by simp only [term, calcComplexity, complexityL ts]
  | .Prod ts => by simp only [term, calcComplexity, complexityL ts]
  | Img r i ts => by simp only [term, calcComplexity, complexityL ts, complexity r]
  | IntInt ts => by simp only [term, calcComplexity, complexityL ts]
  | ExtInt ts => by simp only [term, calcComplexity, complexityL ts]
  | Par ts => by simp only [term, calcComplexity, complexityL ts]
  | .Neg t => by simp only [term, calcComplexity, complexity t]
theorem complexityL : ∀ ts : List Term, calcComplexityL (ρ.terms ts) = calcComplexityL ts
  | [] => by simp only [terms, calcComplexityL]
  | t :: ts => by simp only [terms, calcComplexityL, complexity t, complexityL ts]
end

/-! ## matching -/

/-- a binding with other names -/
def asgn (a : Asgnment) : Asgnment := ⟨ρ.term a.var, ρ.term a.val⟩

theorem assigned (v : Term) (as : List Asgnment) : checkAssigned (ρ.term v) (as.map ρ.asgn) = checkAssigned v as :=
  any_ren (fun a => ρ.checkEq a.var v) as

theorem sameVal (v w : Term) (as : List Asgnment) : checkSameVal (ρ.term v) (ρ.term w) (as.map ρ.asgn) = checkSameVal v w as := by
  induction as with
  | nil => rfl
  | cons a as ih =>
    simp only [List.map_cons, checkSameVal, asgn, ρ.checkEq]
    rw [show checkSameVal (ρ.term v) (ρ.term w) (as.map ρ.asgn) = checkSameVal v w as from ih]

theorem unifyVar (a b : Term) (as : List Asgnment) :
    Nar.unifyVar (ρ.term a) (ρ.term b) (as.map ρ.asgn) = (Nar.unifyVar a b as).map (List.map ρ.asgn) := by
  have key : ∀ b' : Term, (if checkAssigned (ρ.term a) (as.map ρ.asgn) then
      if checkSameVal (ρ.term a) (ρ.term b') (as.map ρ.asgn) then some (as.map ρ.asgn) else none
      else some (as.map ρ.asgn ++ [⟨ρ.term a, ρ.term b'⟩])) =
    (if checkAssigned a as then if checkSameVal a b' as then some as else none else some (as ++ [⟨a, b'⟩])).map (List.map ρ.asgn) := by
    intro b'
    rw [assigned, sameVal]
    split
    · split <;> rfl
    · simp [asgn]
  cases b <;> first | rfl | exact key _

mutual
theorem unify2 : ∀ (a b : Term) (as : List Asgnment),
    Nar.unify2 (ρ.term a) (ρ.term b) (as.map ρ.asgn) = (Nar.unify2 a b as).map (List.map ρ.asgn)
  | QVar n, b, as => by
      have := ρ.unifyVar (QVar n) b as
      simp only [term, Nar.unify2] at this ⊢; exact this
  | DepVar n, b, as => by
      have := ρ.unifyVar (DepVar n) b as
      simp only [term, Nar.unify2] at this ⊢; exact this
  | IndepVar n, b, as => by
      have := ρ.unifyVar (IndepVar n) b as
      simp only [term, Nar.unify2] at this ⊢; exact this
  | Stmt c s p, b, as => by
      cases b <;> simp only [term, Nar.unify2, Option.map_none]
      rename_i c' s' p'
      split
      · rw [unify2 s s' as]
        cases h : Nar.unify2 s s' as with
        | none => rfl
        | some as1 => exact unify2 p p' as1
      · rfl
  | Name n, b, as => by
      cases b <;> simp only [term, Nar.unify2, Option.map_none]
      rename_i m
      have e : (ρ.name n == ρ.name m) = (n == m) := by
        rw [Bool.eq_iff_iff, beq_iff_eq, beq_iff_eq]; exact ⟨ρ.name_inj _ _, fun h => by rw [h]⟩
      rw [e]
      split <;> rfl
  | .Seq ts, b, as => by
      cases b <;> simp only [term, Nar.unify2, Option.map_none, terms_length]
      split <;> first | exact unify2L ts _ as | rfl
  | SetInt ts, b, as => by
      cases b <;> simp only [term, Nar.unify2, Option.map_none, terms_length]
      split <;> first | exact unify2L ts _ as | rfl
  | SetExt ts, b, as => by
      cases b <;> simp only [term, Nar.unify2, Option.map_none, terms_length]
      split <;> first | exact unify2L ts _ as | rfl
  | Conj ts, b, as => by
      cases b <;> simp only [term, Nar.unify2, Option.map_none, terms_length]
      split <;> first | exact unify2L ts _ as | rfl
  | .Prod ts, b, as => by
      cases b <;> simp only [term, Nar.unify2, Option.map_none, terms_length]
      split <;> first | exact unify2L ts _ as | rfl
  | Img r i ts, b, as => by
      cases b <;> simp only [term, Nar.unify2, Option.map_none, terms_length]
      rename_i r' i' ts'
      split
      · rw [unify2 r r' as]
        cases h : Nar.unify2 r r' as with
        | none => rfl
        | some as1 =>
          simp only [Option.map_some, Option.bind_eq_bind, Option.bind_some]
          split <;> first | exact unify2L ts ts' as1 | rfl
      · rfl
  | IntInt ts, b, as => by
      cases b <;> simp only [term, Nar.unify2, Option.map_none, terms_length]
      split <;> first | exact unify2L ts _ as | rfl
  | ExtInt ts, b, as => by
      cases b <;> simp only [term, Nar.unify2, Option.map_none, terms_length]
      split <;> first | exact unify2L ts _ as | rfl
  | Par ts, b, as => by
      cases b <;> simp only [term, Nar.unify2, Option.map_none, terms_length]
      split <;> first | exact unify2L ts _ as | rfl
  | .Neg t, b, as => by
      cases b <;> simp only [term, Nar.unify2, Option.map_none]
      exact unify2 t _ as
theorem unify2L : ∀ (a b : List Term) (as : List Asgnment),
    Nar.unify2L (ρ.terms a) (ρ.terms b) (as.map ρ.asgn) = (Nar.unify2L a b as).map (List.map ρ.asgn)
  | [], b, as => by simp only [terms, Nar.unify2L, Option.map_some]
  | t :: ts, [], as => by simp only [terms, Nar.unify2L, Option.map_some]
  | t :: ts, b :: bs, as => by
      simp only [terms, Nar.unify2L]
      rw [unify2 t b as]
      cases h : Nar.unify2 t b as with
      | none => rfl
      | some as1 => exact unify2L ts bs as1
end

theorem unify (a b : Term) : Nar.unify (ρ.term a) (ρ.term b) = (Nar.unify a b).map (List.map ρ.asgn) := ρ.unify2 a b []

theorem substVar (t : Term) (as : List Asgnment) : Nar.substVar (ρ.term t) (as.map ρ.asgn) = ρ.term (Nar.substVar t as) := by
  induction as with
  | nil => rfl
  | cons a as ih =>
    simp only [List.map_cons, Nar.substVar, asgn, ρ.checkEq]
    split
    · rfl
    · exact ih

mutual
theorem subst (as : List Asgnment) : ∀ t : Term, unifySubst (as.map ρ.asgn) (ρ.term t) = ρ.term (unifySubst as t)
  | Stmt c s p => by simp only [term, unifySubst, subst as s, subst as p]
  | Name n => by simp only [term, unifySubst]
  | .Seq ts => by simp only [term, unifySubst, substL as ts]
  | SetInt ts => by simp only [term, unifySubst, substL as ts]
  | SetExt ts => by simp only [term, unifySubst, substL as ts]
  | QVar n => by have := ρ.substVar (QVar n) as; simp only [term, unifySubst] at this ⊢; exact this
  | DepVar n => by have := ρ.substVar (DepVar n) as; simp only [term, unifySubst] at this ⊢; exact this
  | IndepVar n => by have := ρ.substVar (IndepVar n) as; simp only [term, unifySubst] at this ⊢; exact this
  | Conj ts => by simp only [term, unifySubst, substL as ts]
  | .Prod ts => by simp only [term, unifySubst, substL as ts]
  | Img r i ts => by simp only [term, unifySubst, subst as r, substL as ts]
  | IntInt ts => by simp only [term, unifySubst, substL as ts]
  | ExtInt ts => by simp only [term, unifySubst, substL as ts]
  | Par ts => by simp only [term, unifySubst, substL as ts]
  | .Neg t => by simp only [term, unifySubst, subst as t]
theorem substL (as : List Asgnment) : ∀ ts : List Term, unifySubstL (as.map ρ.asgn) (ρ.terms ts) = ρ.terms (unifySubstL as ts)
  | [] => by simp only [terms, unifySubstL]
  | t :: ts => by simp only [terms, unifySubstL, subst as t, substL as ts]
end

end Renaming
end Nar
