import Verif.Lemmas.Rules
import Mathlib.Tactic.Tauto
/-! # Helper lemmas about single-premise rules, questions and vocabulary -/
namespace Nar
open Term

section
variable {a t : Term} {ta tv : Tv} {p : Punct} {w : Rat}

theorem infNeg_iff : infNeg a .JUGEMENT (some ta) = .ok (some (t, tv, p, w)) ↔
    p = .JUGEMENT ∧ w = 1/2 ∧ a = .Neg t ∧ tv = Tv.neg ta := by
  constructor
  · simp only [infNeg, unwrap, ne_eq, not_true_eq_false, ↓reduceIte]
    intro h
    split at h
    · cases h; exact ⟨rfl, rfl, rfl, rfl⟩
    · cases h
  · rintro ⟨rfl, rfl, rfl, rfl⟩; rfl

theorem infStructPred1_iff (i) : infStructPred1 a .JUGEMENT (some ta) i = .ok (some (t, tv, p, w)) ↔
    p = .JUGEMENT ∧ w = 1 ∧ ∃ pre x post s, pre.length = i ∧
      a = .Stmt .INH s (.IntInt (pre ++ x :: post)) ∧ t = .Stmt .INH s x ∧ tv = ta := by
  constructor
  · simp only [infStructPred1, unwrap, ne_eq, not_true_eq_false, ↓reduceIte]
    intro h
    split at h
    · rename_i subj arr
      split at h
      · rename_i x hx
        cases h
        obtain ⟨hlt, hget⟩ := List.getElem?_eq_some_iff.1 hx
        refine ⟨rfl, rfl, arr.take i, x, arr.drop (i + 1), subj, by simp; omega, ?_, rfl, rfl⟩
        congr 2; rw [← hget]; simp
      · cases h
    · cases h
  · rintro ⟨rfl, rfl, pre, x, post, s, rfl, rfl, rfl, rfl⟩
    have h1 : (pre ++ x :: post)[pre.length]? = some x := by simp
    simp only [infStructPred1, unwrap, h1]; rfl

theorem infStructSubj1_iff (i) : infStructSubj1 a .JUGEMENT (some ta) i = .ok (some (t, tv, p, w)) ↔
    p = .JUGEMENT ∧ w = 9/10 ∧ ∃ pre x post s, pre.length = i ∧
      a = .Stmt .INH (.IntInt (pre ++ x :: post)) s ∧ t = .Stmt .INH x s ∧ tv = ta := by
  constructor
  · simp only [infStructSubj1, unwrap, ne_eq, not_true_eq_false, ↓reduceIte]
    intro h
    split at h
    · rename_i arr pred
      split at h
      · rename_i x hx
        cases h
        obtain ⟨hlt, hget⟩ := List.getElem?_eq_some_iff.1 hx
        refine ⟨rfl, rfl, arr.take i, x, arr.drop (i + 1), pred, by simp; omega, ?_, rfl, rfl⟩
        congr 2; rw [← hget]; simp
      · cases h
    · cases h
  · rintro ⟨rfl, rfl, pre, x, post, s, rfl, rfl, rfl, rfl⟩
    have h1 : (pre ++ x :: post)[pre.length]? = some x := by simp
    simp only [infStructSubj1, unwrap, h1]; rfl

theorem infStructProd0_iff : infStructProd0 a .JUGEMENT (some ta) = .ok (some (t, tv, p, w)) ↔
    p = .JUGEMENT ∧ w = 8/10 ∧ ∃ x y rest rel, a = .Stmt .INH (.Prod (x :: y :: rest)) rel ∧
      t = .Stmt .INH x (.Img rel 0 [y]) ∧ tv = ta := by
  constructor
  · simp only [infStructProd0, unwrap, ne_eq, not_true_eq_false, ↓reduceIte]
    intro h
    split at h
    · rename_i arr pred
      rcases arr with _ | ⟨x, _ | ⟨y, rest⟩⟩
      · cases h
      · cases h
      · cases h; exact ⟨rfl, rfl, _, _, _, _, rfl, rfl, rfl⟩
    · cases h
  · rintro ⟨rfl, rfl, x, y, rest, rel, rfl, rfl, rfl⟩
    rfl

theorem infStructProd1_iff : infStructProd1 a .JUGEMENT (some ta) = .ok (some (t, tv, p, w)) ↔
    p = .JUGEMENT ∧ w = 8/10 ∧ ∃ x y rel, a = .Stmt .INH (.Prod [x, y]) rel ∧
      t = .Stmt .INH y (.Img rel 1 [x]) ∧ tv = ta := by
  constructor
  · simp only [infStructProd1, unwrap, ne_eq, not_true_eq_false, ↓reduceIte]
    intro h
    split at h
    · rename_i arr pred
      rcases arr with _ | ⟨x, _ | ⟨y, _ | ⟨z, rest⟩⟩⟩
      · cases h
      · cases h
      · cases h; exact ⟨rfl, rfl, _, _, _, rfl, rfl, rfl⟩
      · simp at h
    · cases h
  · rintro ⟨rfl, rfl, x, y, rel, rfl, rfl, rfl⟩
    rfl

theorem infStructImg0_iff : infStructImg0 a .JUGEMENT (some ta) = .ok (some (t, tv, p, w)) ↔
    p = .JUGEMENT ∧ w = 9/10 ∧ ∃ x y rel, a = .Stmt .INH x (.Img rel 0 [y]) ∧
      t = .Stmt .INH (.Prod [x, y]) rel ∧ tv = ta := by
  constructor
  · simp only [infStructImg0, unwrap, ne_eq, not_true_eq_false, false_and, ↓reduceIte]
    intro h
    split at h
    · cases h; exact ⟨rfl, rfl, _, _, _, rfl, rfl, rfl⟩
    · cases h
  · rintro ⟨rfl, rfl, x, y, rel, rfl, rfl, rfl⟩
    rfl

theorem infStructImg1_iff : infStructImg1 a .JUGEMENT (some ta) = .ok (some (t, tv, p, w)) ↔
    p = .JUGEMENT ∧ w = 9/10 ∧ ∃ x y rel, a = .Stmt .INH y (.Img rel 1 [x]) ∧
      t = .Stmt .INH (.Prod [x, y]) rel ∧ tv = ta := by
  constructor
  · simp only [infStructImg1, unwrap, ne_eq, not_true_eq_false, false_and, ↓reduceIte]
    intro h
    split at h
    · cases h; exact ⟨rfl, rfl, _, _, _, rfl, rfl, rfl⟩
    · cases h
  · rintro ⟨rfl, rfl, x, y, rel, rfl, rfl, rfl⟩
    rfl

theorem infStructSetInt_iff : infStructSetInt a .JUGEMENT (some ta) = .ok (some (t, tv, p, w)) ↔
    p = .JUGEMENT ∧ w = 1 ∧ ∃ x y, a = .Stmt .SIM (.SetInt [x]) (.SetInt [y]) ∧
      t = .Stmt .SIM x y ∧ tv = ta := by
  constructor
  · simp only [infStructSetInt, unwrap, ne_eq, not_true_eq_false, ↓reduceIte]
    intro h
    split at h
    · cases h; exact ⟨rfl, rfl, _, _, rfl, rfl, rfl⟩
    · cases h
  · rintro ⟨rfl, rfl, x, y, rfl, rfl, rfl⟩
    rfl

theorem infStructSetExt_iff : infStructSetExt a .JUGEMENT (some ta) = .ok (some (t, tv, p, w)) ↔
    p = .JUGEMENT ∧ w = 1 ∧ ∃ x y, a = .Stmt .SIM (.SetExt [x]) (.SetExt [y]) ∧
      t = .Stmt .SIM x y ∧ tv = ta := by
  constructor
  · simp only [infStructSetExt, unwrap, ne_eq, not_true_eq_false, ↓reduceIte]
    intro h
    split at h
    · cases h; exact ⟨rfl, rfl, _, _, rfl, rfl, rfl⟩
    · cases h
  · rintro ⟨rfl, rfl, x, y, rfl, rfl, rfl⟩
    rfl

end

theorem mapM_ok_map {α β} (f : α → β) (l : List α) (g : α → R β) (h : ∀ x ∈ l, g x = .ok (f x)) :
    l.mapM g = (.ok (l.map f) : R (List β)) := by
  induction l with
  | nil => rfl
  | cons x l ih => rw [List.mapM_cons, h x (by simp), ih (fun y hy => h y (by simp [hy]))]; rfl

/-- the conclusions of the parallel decomposition -/
def parConcls (a : Term) (ta : Tv) : List Concl1 :=
  match a with
  | .Stmt .PREDIMPL subj (.Par arr) => arr.map (fun x => (.Stmt .PREDIMPL subj x, ta, .JUGEMENT, 9/10))
  | _ => []

theorem infStructDecomposePar_eq (a : Term) (ta : Tv) :
    ∃ o, infStructDecomposePar a .JUGEMENT (some ta) = .ok o ∧ o.getD [] = parConcls a ta := by
  simp only [infStructDecomposePar, unwrap, ne_eq, not_true_eq_false, ↓reduceIte]
  split
  · rename_i subj arr
    refine ⟨some (parConcls (.Stmt .PREDIMPL subj (.Par arr)) ta), ?_, rfl⟩
    rw [mapM_ok_map (fun x => (.Stmt .PREDIMPL subj x, ta, .JUGEMENT, 9/10))]
    · rfl
    · intro x _; rfl
  · refine ⟨none, rfl, ?_⟩
    unfold parConcls
    split
    · rename_i h; exact absurd rfl (h _ _)
    · rfl

/-- the rule list of `infSinglePremise` before the parallel decomposition -/
def singleRules (a : Term) (punct : Punct) (aTv : Option Tv) : List (R (Option Concl1)) :=
  [ infNeg a punct aTv,
    infStructSubj1 a punct aTv 0, infStructSubj1 a punct aTv 1, infStructSubj1 a punct aTv 2,
    infStructPred1 a punct aTv 0, infStructPred1 a punct aTv 1, infStructPred1 a punct aTv 2,
    infStructProd0 a punct aTv, infStructProd1 a punct aTv,
    infStructImg0 a punct aTv, infStructImg1 a punct aTv,
    infStructSetInt a punct aTv, infStructSetExt a punct aTv ]

theorem infSinglePremise_ok {a p ta rs} (h : infSinglePremise a p ta = .ok rs) :
    ∃ par, infStructDecomposePar a p ta = .ok par ∧
    (∀ r ∈ singleRules a p ta, ∃ o, r = .ok o) ∧
    ∀ x, x ∈ rs ↔ .ok (some x) ∈ singleRules a p ta ∨ x ∈ par.getD [] := by
  unfold infSinglePremise at h
  change (do let rs ← (singleRules a p ta).mapM id; _) = _ at h
  cases hm : (singleRules a p ta).mapM id with
  | error e => rw [hm] at h; cases h
  | ok vs =>
    rw [hm] at h
    have hv := (mapM_id_ok _ _).1 hm
    cases hp : infStructDecomposePar a p ta with
    | error e => rw [hp] at h; cases h
    | ok par =>
      rw [hp] at h
      cases h
      refine ⟨par, rfl, ?_, ?_⟩
      · intro r hr; rw [hv] at hr; simp at hr; obtain ⟨o, _, rfl⟩ := hr; exact ⟨o, rfl⟩
      · intro x; rw [hv]; simp

theorem infSinglePremise_total {a p ta} (h : ∀ r ∈ singleRules a p ta, ∃ o, r = .ok o)
    (hp : ∃ o, infStructDecomposePar a p ta = .ok o) : ∃ rs, infSinglePremise a p ta = .ok rs := by
  obtain ⟨vs, hm⟩ := mapM_id_total _ h
  obtain ⟨o, hp⟩ := hp
  refine ⟨vs.filterMap id ++ o.getD [], ?_⟩
  unfold infSinglePremise
  change (do let rs ← (singleRules a p ta).mapM id; _) = _
  rw [hm, hp]; rfl

/-- A judgement on which the structural rules index out of range. -/
def ShortProduct (a : Term) : Prop := ∃ arr p, a = .Stmt .INH (.Prod arr) p ∧ arr.length < 2

theorem singleRules_total {a : Term} {ta : Tv} (hs : ¬ ShortProduct a) :
    ∀ r ∈ singleRules a .JUGEMENT (some ta), ∃ o, r = .ok o := by
  intro r hr
  simp only [singleRules, List.mem_cons, List.not_mem_nil, or_false] at hr
  rcases hr with rfl | rfl | rfl | rfl | rfl | rfl | rfl | rfl | rfl | rfl | rfl | rfl | rfl
  · simp only [infNeg, unwrap]; total_tac
  iterate 3
    · simp only [infStructSubj1, unwrap]; total_tac
  iterate 3
    · simp only [infStructPred1, unwrap]; total_tac
  · simp only [infStructProd0, unwrap, ne_eq, not_true_eq_false, ↓reduceIte]
    split
    · rename_i arr pred
      rcases arr with _ | ⟨x, _ | ⟨y, rest⟩⟩
      · exact absurd ⟨_, _, rfl, by simp⟩ hs
      · exact absurd ⟨_, _, rfl, by simp⟩ hs
      · exact ⟨_, rfl⟩
    · exact ⟨_, rfl⟩
  · simp only [infStructProd1, unwrap, ne_eq, not_true_eq_false, ↓reduceIte]
    split
    · rename_i arr pred
      rcases arr with _ | ⟨x, _ | ⟨y, _ | ⟨z, rest⟩⟩⟩
      · exact absurd ⟨_, _, rfl, by simp⟩ hs
      · exact absurd ⟨_, _, rfl, by simp⟩ hs
      · exact ⟨_, rfl⟩
      · exact ⟨none, by simp⟩
    · exact ⟨_, rfl⟩
  · simp only [infStructImg0, unwrap]; total_tac
  · simp only [infStructImg1, unwrap]; total_tac
  · simp only [infStructSetInt, unwrap]; total_tac
  · simp only [infStructSetExt, unwrap]; total_tac

theorem singleRules_iff {a : Term} {ta : Tv} (t : Term) (tv : Tv) (p : Punct) :
    (∃ w, .ok (some (t, tv, p, w)) ∈ singleRules a .JUGEMENT (some ta) ∨
      (t, tv, p, w) ∈ parConcls a ta) ↔ p = .JUGEMENT ∧ Rule1 a ta t tv := by
  simp only [singleRules, List.mem_cons, List.not_mem_nil, or_false,
    eq_comm (a := (Except.ok (some (t, tv, p, _)) : R (Option Concl1))),
    infNeg_iff, infStructSubj1_iff, infStructPred1_iff, infStructProd0_iff, infStructProd1_iff,
    infStructImg0_iff, infStructImg1_iff, infStructSetInt_iff, infStructSetExt_iff]
  constructor
  · rintro ⟨w, ((h | h | h | h | h | h | h | h | h | h | h | h | h) | h)⟩
    · obtain ⟨rfl, _, rfl, rfl⟩ := h; exact ⟨rfl, .negation ..⟩
    iterate 3
      · obtain ⟨rfl, _, pre, x, post, s, hl, rfl, rfl, rfl⟩ := h
        exact ⟨rfl, .decomposeSubj _ _ _ _ _ (by omega)⟩
    iterate 3
      · obtain ⟨rfl, _, pre, x, post, s, hl, rfl, rfl, rfl⟩ := h
        exact ⟨rfl, .decomposePred _ _ _ _ _ (by omega)⟩
    · obtain ⟨rfl, _, x, y, rest, rel, rfl, rfl, rfl⟩ := h; exact ⟨rfl, .productLeft ..⟩
    · obtain ⟨rfl, _, x, y, rel, rfl, rfl, rfl⟩ := h; exact ⟨rfl, .productRight ..⟩
    · obtain ⟨rfl, _, x, y, rel, rfl, rfl, rfl⟩ := h; exact ⟨rfl, .imageLeft ..⟩
    · obtain ⟨rfl, _, x, y, rel, rfl, rfl, rfl⟩ := h; exact ⟨rfl, .imageRight ..⟩
    · obtain ⟨rfl, _, x, y, rfl, rfl, rfl⟩ := h; exact ⟨rfl, .setInt ..⟩
    · obtain ⟨rfl, _, x, y, rfl, rfl, rfl⟩ := h; exact ⟨rfl, .setExt ..⟩
    · unfold parConcls at h
      split at h
      · simp only [List.mem_map, Prod.mk.injEq] at h
        obtain ⟨x, hx, rfl, rfl, rfl, _⟩ := h
        exact ⟨rfl, .decomposePar _ _ _ _ hx⟩
      · simp at h
  · rintro ⟨rfl, h⟩
    cases h with
    | negation => exact ⟨_, Or.inl (Or.inl ⟨rfl, rfl, rfl, rfl⟩)⟩
    | decomposeSubj pre x post p _ hl =>
      have : pre.length = 0 ∨ pre.length = 1 ∨ pre.length = 2 := by omega
      rcases this with h0 | h0 | h0
      · refine ⟨9/10, Or.inl ?_⟩; iterate 1 right
        left; exact ⟨rfl, rfl, pre, x, post, p, h0, rfl, rfl, rfl⟩
      · refine ⟨9/10, Or.inl ?_⟩; iterate 2 right
        left; exact ⟨rfl, rfl, pre, x, post, p, h0, rfl, rfl, rfl⟩
      · refine ⟨9/10, Or.inl ?_⟩; iterate 3 right
        left; exact ⟨rfl, rfl, pre, x, post, p, h0, rfl, rfl, rfl⟩
    | decomposePred pre x post s _ hl =>
      have : pre.length = 0 ∨ pre.length = 1 ∨ pre.length = 2 := by omega
      rcases this with h0 | h0 | h0
      · refine ⟨1, Or.inl ?_⟩; iterate 4 right
        left; exact ⟨rfl, rfl, pre, x, post, s, h0, rfl, rfl, rfl⟩
      · refine ⟨1, Or.inl ?_⟩; iterate 5 right
        left; exact ⟨rfl, rfl, pre, x, post, s, h0, rfl, rfl, rfl⟩
      · refine ⟨1, Or.inl ?_⟩; iterate 6 right
        left; exact ⟨rfl, rfl, pre, x, post, s, h0, rfl, rfl, rfl⟩
    | productLeft x y rest rel =>
      refine ⟨8/10, Or.inl ?_⟩; iterate 7 right
      left; exact ⟨rfl, rfl, x, y, rest, rel, rfl, rfl, rfl⟩
    | productRight x y rel =>
      refine ⟨8/10, Or.inl ?_⟩; iterate 8 right
      left; exact ⟨rfl, rfl, x, y, rel, rfl, rfl, rfl⟩
    | imageLeft x y rel =>
      refine ⟨9/10, Or.inl ?_⟩; iterate 9 right
      left; exact ⟨rfl, rfl, x, y, rel, rfl, rfl, rfl⟩
    | imageRight x y rel =>
      refine ⟨9/10, Or.inl ?_⟩; iterate 10 right
      left; exact ⟨rfl, rfl, x, y, rel, rfl, rfl, rfl⟩
    | setInt x y =>
      refine ⟨1, Or.inl ?_⟩; iterate 11 right
      left; exact ⟨rfl, rfl, x, y, rfl, rfl, rfl⟩
    | setExt x y =>
      refine ⟨1, Or.inl ?_⟩; iterate 12 right
      exact ⟨rfl, rfl, x, y, rfl, rfl, rfl⟩
    | decomposePar s parts x _ hx =>
      refine ⟨9/10, Or.inr ?_⟩
      simp [parConcls, hx]

/-! ## vocabulary -/

/-- atoms of `t` -/
def Occ (x t : Term) : Prop := IsAtom x ∧ IsSubterm x t

theorem occ_iff_parts {x t : Term} (ht : ¬ IsAtom t) : Occ x t ↔ ∃ c ∈ parts t, Occ x c := by
  unfold Occ
  rw [isSubterm_iff]
  constructor
  · rintro ⟨ha, rfl | ⟨c, hc, hs⟩⟩
    · exact absurd ha ht
    · exact ⟨c, hc, ha, hs⟩
  · rintro ⟨c, hc, ha, hs⟩; exact ⟨ha, Or.inr ⟨c, hc, hs⟩⟩

theorem occ_stmt {x c s p} : Occ x (.Stmt c s p) ↔ Occ x s ∨ Occ x p := by
  rw [occ_iff_parts (by simp [IsAtom])]; simp [parts]
theorem occ_setInt {x ts} : Occ x (.SetInt ts) ↔ ∃ c ∈ ts, Occ x c := by
  rw [occ_iff_parts (by simp [IsAtom])]; simp [parts]
theorem occ_setExt {x ts} : Occ x (.SetExt ts) ↔ ∃ c ∈ ts, Occ x c := by
  rw [occ_iff_parts (by simp [IsAtom])]; simp [parts]
theorem occ_conj {x ts} : Occ x (.Conj ts) ↔ ∃ c ∈ ts, Occ x c := by
  rw [occ_iff_parts (by simp [IsAtom])]; simp [parts]
theorem occ_prod {x ts} : Occ x (.Prod ts) ↔ ∃ c ∈ ts, Occ x c := by
  rw [occ_iff_parts (by simp [IsAtom])]; simp [parts]
theorem occ_intInt {x ts} : Occ x (.IntInt ts) ↔ ∃ c ∈ ts, Occ x c := by
  rw [occ_iff_parts (by simp [IsAtom])]; simp [parts]
theorem occ_extInt {x ts} : Occ x (.ExtInt ts) ↔ ∃ c ∈ ts, Occ x c := by
  rw [occ_iff_parts (by simp [IsAtom])]; simp [parts]
theorem occ_par {x ts} : Occ x (.Par ts) ↔ ∃ c ∈ ts, Occ x c := by
  rw [occ_iff_parts (by simp [IsAtom])]; simp [parts]
theorem occ_neg {x t} : Occ x (.Neg t) ↔ Occ x t := by
  rw [occ_iff_parts (by simp [IsAtom])]; simp [parts]
theorem occ_img {x r i ts} : Occ x (.Img r i ts) ↔ Occ x r ∨ ∃ c ∈ ts, Occ x c := by
  rw [occ_iff_parts (by simp [IsAtom])]; simp [parts]

theorem occ_conjOf {x ts} (h : Occ x (conjOf ts)) : ∃ c ∈ ts, Occ x c := by
  rcases ts with _ | ⟨y, _ | ⟨z, ts⟩⟩
  · exact occ_conj.1 h
  · exact ⟨y, by simp, h⟩
  · exact occ_conj.1 h

theorem occ_mono {x s t} (h : Occ x s) (hst : IsSubterm s t) : Occ x t := ⟨h.1, h.2.trans hst⟩

theorem occ_substVar {x v : Term} {σ : List Asgnment} (h : Occ x (substVar v σ)) :
    Occ x v ∨ ∃ a ∈ σ, Occ x a.val := by
  induction σ with
  | nil => exact Or.inl h
  | cons a σ ih =>
    simp only [substVar] at h
    split at h
    · exact Or.inr ⟨a, by simp, h⟩
    · rcases ih h with h | ⟨b, hb, h⟩
      · exact Or.inl h
      · exact Or.inr ⟨b, by simp [hb], h⟩

theorem parts_unifySubst {σ : List Asgnment} {t : Term} (ht : ¬ IsVar t) :
    parts (unifySubst σ t) = (parts t).map (unifySubst σ) := by
  cases t <;> simp_all [IsVar, unifySubst, parts, unifySubstL_eq_map]

theorem isAtom_unifySubst {σ : List Asgnment} {t : Term} (ht : ¬ IsAtom t) : ¬ IsAtom (unifySubst σ t) := by
  cases t <;> simp_all [IsAtom, unifySubst]

theorem occ_unifySubst {x : Term} {σ : List Asgnment} (t : Term) (h : Occ x (unifySubst σ t)) :
    Occ x t ∨ ∃ a ∈ σ, Occ x a.val := by
  induction t using Term.indParts with
  | _ t ih =>
    by_cases hv : IsVar t
    · apply occ_substVar
      cases t <;> simp_all [IsVar, unifySubst]
    · by_cases ha : IsAtom t
      · left; cases t <;> simp_all [IsVar, IsAtom, unifySubst]
      · rw [occ_iff_parts (isAtom_unifySubst ha), parts_unifySubst hv] at h
        obtain ⟨c, hc, ho⟩ := h
        obtain ⟨d, hd, rfl⟩ := List.mem_map.1 hc
        rcases ih d hd ho with h | h
        · exact Or.inl ((occ_iff_parts ha).2 ⟨d, hd, h⟩)
        · exact Or.inr h

theorem occ_unify {x p b q : Term} {σ : List Asgnment} (h : unify p b = some σ)
    (ho : Occ x (unifySubst σ q)) : Occ x q ∨ Occ x b := by
  rcases occ_unifySubst q ho with h' | ⟨a, ha, h'⟩
  · exact Or.inl h'
  · obtain ⟨⟨⟨δ, e, d⟩, _⟩, _⟩ := unify2_sound p b [] σ h
    simp only [List.nil_append] at e; subst e
    exact Or.inr (occ_mono h' (d a ha).2.2.2)

theorem rule2_occ {a ta b tb t tv x} (h : Rule2 a ta b tb t tv) (ho : Occ x t) : Occ x a ∨ Occ x b := by
  cases h with
  | setUnion => 
    simp only [occ_stmt, occ_setInt, List.mem_append] at ho ⊢
    rcases ho with ho | ⟨c, hc | hc, ho⟩
    · exact Or.inl (Or.inl ho)
    · exact Or.inl (Or.inr ⟨c, hc, ho⟩)
    · exact Or.inr (Or.inr ⟨c, hc, ho⟩)
  | intersection => simp [occ_stmt, occ_extInt] at ho ⊢; tauto
  | comparePred => simp [occ_stmt] at ho ⊢; tauto
  | compareSubj => simp [occ_stmt] at ho ⊢; tauto
  | deduction => simp [occ_stmt] at ho ⊢; tauto
  | abduction => simp [occ_stmt] at ho ⊢; tauto
  | induction => simp [occ_stmt] at ho ⊢; tauto
  | detach p q _ σ _ _ hu =>
    have := occ_unify hu ho
    simp [occ_stmt]; tauto
  | conjDetach pre c post q _ σ _ _ hl hu =>
    simp only [occ_stmt, occ_conj] at ho ⊢
    rcases ho with ho | ho
    · obtain ⟨d, hd, ho⟩ := occ_conjOf ho
      obtain ⟨e, he, rfl⟩ := List.mem_map.1 hd
      rcases occ_unify hu ho with h' | h'
      · refine Or.inl (Or.inl ⟨e, ?_, h'⟩)
        simp at he ⊢; tauto
      · exact Or.inr h'
    · rcases occ_unify hu ho with h' | h'
      · exact Or.inl (Or.inr h')
      · exact Or.inr h'

theorem rule1_occ {a ta t tv x} (h : Rule1 a ta t tv) (ho : Occ x t) : Occ x a := by
  cases h with
  | negation => exact occ_neg.2 ho
  | decomposeSubj pre y post =>
    simp only [occ_stmt, occ_intInt] at ho ⊢
    rcases ho with ho | ho
    · exact Or.inl ⟨y, by simp, ho⟩
    · exact Or.inr ho
  | decomposePred pre y post =>
    simp only [occ_stmt, occ_intInt] at ho ⊢
    rcases ho with ho | ho
    · exact Or.inl ho
    · exact Or.inr ⟨y, by simp, ho⟩
  | productLeft => simp [occ_stmt, occ_prod, occ_img] at ho ⊢; tauto
  | productRight => simp [occ_stmt, occ_prod, occ_img] at ho ⊢; tauto
  | imageLeft => simp [occ_stmt, occ_prod, occ_img] at ho ⊢; tauto
  | imageRight => simp [occ_stmt, occ_prod, occ_img] at ho ⊢; tauto
  | setInt => simpa [occ_stmt, occ_setInt] using ho
  | setExt => simpa [occ_stmt, occ_setExt] using ho
  | decomposePar s parts y _ hy =>
    simp only [occ_stmt, occ_par] at ho ⊢
    rcases ho with ho | ho
    · exact Or.inl ho
    · exact Or.inr ⟨y, hy, ho⟩

/-! ## arbitrary punctuation -/

macro "none_tac" h:ident : tactic => `(tactic| (repeat' split at $h:ident) <;> first | (cases $h:ident; done) | (simp_all; done))

/-- A conclusion needs two judgements with truth values, or comes from the question rule. -/
theorem binaryRules_some {a b : Term} {pa pb : Punct} {ta tb : Option Tv} {x : Concl2}
    (h : .ok (some x) ∈ binaryRules a pa ta b pb tb) :
    (pa = .JUGEMENT ∧ pb = .JUGEMENT ∧ ∃ ta' tb', ta = some ta' ∧ tb = some tb') ∨
    (pa = .QUESTION ∧ pb = .JUGEMENT ∧ ∃ tb' s q σ, tb = some tb' ∧ a = .Stmt .IMPL s q ∧
      unify q b = some σ ∧ x = (unifySubst σ a, tb', .JUGEMENT)) := by
  by_cases hj : pa = .JUGEMENT ∧ pb = .JUGEMENT
  · left
    obtain ⟨rfl, rfl⟩ := hj
    refine ⟨rfl, rfl, ?_⟩
    cases ta with
    | none =>
      exfalso
      simp only [binaryRules, List.mem_cons, List.not_mem_nil, or_false] at h
      rcases h with h | h | h | h | h | h | h | h | h | h | h | h | h | h | h | h <;>
      simp only [inf3, inf4, inf5, infImplDed, inf7, inf10, infCompPred, infCompSubj,
        infGeneralizedJudgJudg, unwrap] at h <;> none_tac h
    | some ta =>
      cases tb with
      | none =>
        exfalso
        simp only [binaryRules, List.mem_cons, List.not_mem_nil, or_false] at h
        rcases h with h | h | h | h | h | h | h | h | h | h | h | h | h | h | h | h <;>
        simp only [inf3, inf4, inf5, infImplDed, inf7, inf10, infCompPred, infCompSubj,
          infGeneralizedJudgJudg, unwrap] at h <;> none_tac h
      | some tb => exact ⟨_, _, rfl, rfl⟩
  · right
    have hj' : pa ≠ .JUGEMENT ∨ pb ≠ .JUGEMENT := by tauto
    simp only [binaryRules, List.mem_cons, List.not_mem_nil, or_false, inf3, inf4, inf5,
      infImplDed, inf10, infCompPred, infCompSubj, infGeneralizedJudgJudg, hj', ↓reduceIte,
      Except.ok.injEq, reduceCtorEq, false_or] at h
    simp only [inf7] at h
    split at h
    · cases h
    · rename_i hq
      have hq : pa = .QUESTION ∧ pb = .JUGEMENT := by tauto
      refine ⟨hq.1, hq.2, ?_⟩
      split at h
      · split at h
        · cases h
        · rename_i hu
          cases tb with
          | none => cases h
          | some tb => cases h; exact ⟨_, _, _, _, rfl, rfl, hu, rfl⟩
      · cases h

end Nar

namespace Nar
open Term

theorem singleRules_some {a : Term} {p : Punct} {ta : Option Tv} {x : Concl1}
    (h : .ok (some x) ∈ singleRules a p ta) :
    (∃ ta', ta = some ta') ∧ (p = .JUGEMENT ∨ p = .QUESTION) ∧
      .ok (some x) ∈ singleRules a .JUGEMENT ta := by
  cases ta with
  | none =>
    exfalso
    simp only [singleRules, List.mem_cons, List.not_mem_nil, or_false] at h
    rcases h with h | h | h | h | h | h | h | h | h | h | h | h | h <;>
    simp only [infNeg, infStructSubj1, infStructPred1, infStructProd0, infStructProd1, infStructImg0,
      infStructImg1, infStructSetInt, infStructSetExt, unwrap] at h
    case inr.inr.inr.inr.inr.inr.inr.inl =>
      split at h
      · cases h
      · split at h
        · rename_i arr _
          rcases arr with _ | ⟨x, _ | ⟨y, rest⟩⟩ <;> cases h
        · cases h
    case inr.inr.inr.inr.inr.inr.inr.inr.inl =>
      split at h
      · cases h
      · split at h
        · rename_i arr _
          rcases arr with _ | ⟨x, _ | ⟨y, _ | ⟨z, rest⟩⟩⟩
          · cases h
          · cases h
          · cases h
          · simp at h
        · cases h
    all_goals none_tac h
  | some ta =>
    refine ⟨⟨_, rfl⟩, ?_⟩
    cases p with
    | JUGEMENT => exact ⟨Or.inl rfl, h⟩
    | QUESTION =>
      refine ⟨Or.inr rfl, ?_⟩
      simp only [singleRules, List.mem_cons, List.not_mem_nil, or_false, infNeg, infStructSubj1,
        infStructPred1, infStructProd0, infStructProd1, infStructSetInt, infStructSetExt,
        ne_eq, reduceCtorEq, not_false_eq_true, ↓reduceIte, Except.ok.injEq, false_or] at h
      have e0 : infStructImg0 a .QUESTION (some ta) = infStructImg0 a .JUGEMENT (some ta) := by
        simp [infStructImg0]
      have e1 : infStructImg1 a .QUESTION (some ta) = infStructImg1 a .JUGEMENT (some ta) := by
        simp [infStructImg1]
      rw [e0, e1] at h
      simp only [singleRules, List.mem_cons, List.not_mem_nil, or_false]
      tauto
    | GOAL =>
      exfalso
      simp only [singleRules, List.mem_cons, List.not_mem_nil, or_false, infNeg, infStructSubj1,
        infStructPred1, infStructProd0, infStructProd1, infStructSetInt, infStructSetExt, infStructImg0,
        infStructImg1, and_self,
        ne_eq, reduceCtorEq, not_false_eq_true, ↓reduceIte, Except.ok.injEq] at h

/-- every conclusion of one premise is a documented one -/
theorem infSinglePremise_rule {a : Term} {p : Punct} {ta : Option Tv} {rs t tv q w}
    (h : infSinglePremise a p ta = .ok rs) (hx : (t, tv, q, w) ∈ rs) :
    ∃ ta', ta = some ta' ∧ (p = .JUGEMENT ∨ p = .QUESTION) ∧ q = .JUGEMENT ∧ Rule1 a ta' t tv := by
  obtain ⟨par, hpar, -, hmem⟩ := infSinglePremise_ok h
  rcases (hmem _).1 hx with hx | hx
  · obtain ⟨⟨ta', rfl⟩, hp, hx⟩ := singleRules_some hx
    exact ⟨ta', rfl, hp, (singleRules_iff t tv q).1 ⟨w, Or.inl hx⟩⟩
  · by_cases hp : p = .JUGEMENT
    · subst hp
      cases ta with
      | none =>
        exfalso
        simp only [infStructDecomposePar, unwrap, ne_eq, not_true_eq_false, ↓reduceIte] at hpar
        split at hpar
        · rename_i subj arr
          cases arr with
          | nil => cases hpar; simp at hx
          | cons y ys => rw [List.mapM_cons] at hpar; cases hpar
        · cases hpar; simp at hx
      | some ta =>
        obtain ⟨o, ho, ho2⟩ := infStructDecomposePar_eq a ta
        rw [ho] at hpar; cases hpar
        rw [ho2] at hx
        exact ⟨ta, rfl, Or.inl rfl, (singleRules_iff t tv q).1 ⟨w, Or.inr hx⟩⟩
    · exfalso
      simp only [infStructDecomposePar, ne_eq, hp, not_false_eq_true, ↓reduceIte] at hpar
      cases hpar; simp at hx

theorem infBinary_ok {a pa ta b pb tb rs w} (h : infBinary a pa ta b pb tb = .ok (rs, w)) :
    (∀ x, x ∈ rs ↔ .ok (some x) ∈ binaryRules a pa ta b pb tb ∨
      .ok (some x) ∈ binaryRules b pb ta a pa tb) ∧ w = decide (rs ≠ []) := by
  unfold infBinary at h
  cases h1 : infBinaryInner a pa ta b pb tb false with
  | error e => rw [h1] at h; cases h
  | ok r1 =>
    obtain ⟨r1, w1⟩ := r1
    rw [h1] at h
    simp only [bind, Except.bind] at h
    cases h2 : infBinaryInner b pb ta a pa tb w1 with
    | error e => rw [h2] at h; cases h
    | ok r2 =>
      obtain ⟨r2, w2⟩ := r2
      rw [h2] at h
      cases h
      obtain ⟨m1, e1⟩ := infBinaryInner_ok h1
      obtain ⟨m2, e2⟩ := infBinaryInner_ok h2
      refine ⟨fun x => by rw [List.mem_append, m1, m2], ?_⟩
      rw [e2, e1]
      cases r1 <;> cases r2 <;> simp

theorem infBinary_total {a b : Term} {ta tb : Tv} :
    ∃ rs w, infBinary a .JUGEMENT (some ta) b .JUGEMENT (some tb) = .ok (rs, w) := by
  obtain ⟨⟨r1, w1⟩, h1⟩ := infBinaryInner_total (w := false)
    (binaryRules_total (a := a) (b := b) (ta := ta) (tb := tb))
  obtain ⟨⟨r2, w2⟩, h2⟩ := infBinaryInner_total (w := w1)
    (binaryRules_total (a := b) (b := a) (ta := ta) (tb := tb))
  refine ⟨r1 ++ r2, w2, ?_⟩
  unfold infBinary
  rw [h1]; simp only [bind, Except.bind]; rw [h2]

theorem inference_ok {pa pb : Sentence} {cs w} (h : inference pa pb = .ok (cs, w)) :
    ∃ ta tb rs, retTv pa = .ok ta ∧ retTv pb = .ok tb ∧
      infBinary pa.term pa.punct ta pb.term pb.punct tb = .ok (rs, w) ∧
      cs = if Stamp.checkOverlap pa.stamp pb.stamp then [] else
        rs.map (fun x => (conclSentence x.1 x.2.1 x.2.2 (Stamp.merge pa.stamp pb.stamp), (1 : Rat))) := by
  unfold inference at h
  cases h1 : retTv pa with
  | error e => rw [h1] at h; cases h
  | ok ta =>
    cases h2 : retTv pb with
    | error e => rw [h1, h2] at h; cases h
    | ok tb =>
      rw [h1, h2] at h
      simp only [bind, Except.bind, inference2] at h
      cases h3 : infBinary pa.term pa.punct ta pb.term pb.punct tb with
      | error e => rw [h3] at h; cases h
      | ok r =>
        obtain ⟨rs, w'⟩ := r
        rw [h3] at h
        simp only at h
        split at h
        · rename_i hc
          cases h
          refine ⟨ta, tb, rs, rfl, rfl, h3, ?_⟩
          simp at hc; simp [hc.2]
        · rename_i hc
          cases h
          refine ⟨ta, tb, rs, rfl, rfl, h3, ?_⟩
          split
          · rename_i ho
            cases rs with
            | nil => rfl
            | cons => simp [ho] at hc
          · rfl

theorem inference_total {pa pb : Sentence} {ta tb rs w} (h1 : retTv pa = .ok ta) (h2 : retTv pb = .ok tb)
    (h3 : infBinary pa.term pa.punct ta pb.term pb.punct tb = .ok (rs, w)) :
    ∃ cs, inference pa pb = .ok (cs, w) := by
  unfold inference
  rw [h1, h2]
  simp only [bind, Except.bind, inference2, h3]
  split
  · exact ⟨_, rfl⟩
  · exact ⟨_, rfl⟩

theorem infSinglePremise2_ok {pa : Sentence} {cs} (h : infSinglePremise2 pa = .ok cs) :
    ∃ ta rs, retTv pa = .ok ta ∧ infSinglePremise pa.term pa.punct ta = .ok rs ∧
      cs = rs.map (fun x => (conclSentence x.1 x.2.1 x.2.2.1 pa.stamp, x.2.2.2)) := by
  unfold infSinglePremise2 at h
  cases h1 : retTv pa with
  | error e => rw [h1] at h; cases h
  | ok ta =>
    rw [h1] at h
    simp only [bind, Except.bind] at h
    cases h2 : infSinglePremise pa.term pa.punct ta with
    | error e => rw [h2] at h; cases h
    | ok rs => rw [h2] at h; cases h; exact ⟨ta, rs, rfl, h2, rfl⟩

end Nar
