import Verif.Model.Rules
import Verif.Spec.Rules
import Verif.Lemmas.Term
import Verif.Lemmas.Unify
/-! # Helper lemmas about the declarative rules -/
namespace Nar
open Term

theorem mapM_id_ok {α} (l : List (R α)) (rs : List α) :
    l.mapM id = (.ok rs : R (List α)) ↔ l = rs.map .ok := by
  induction l generalizing rs with
  | nil =>
    simp only [List.mapM_nil]
    constructor
    · intro h; cases h; rfl
    · intro h; cases rs with
      | nil => rfl
      | cons => simp at h
  | cons x l ih =>
    rw [List.mapM_cons]
    cases x with
    | error e =>
      constructor
      · intro h; cases h
      · intro h; cases rs <;> simp at h
    | ok v =>
      constructor
      · intro h
        cases hl : l.mapM (id : R α → R α) with
        | error e => rw [hl] at h; cases h
        | ok vs => rw [hl] at h; cases h; simp [(ih vs).1 hl]
      · intro h
        cases rs with
        | nil => simp at h
        | cons r rs =>
          simp only [List.map_cons, List.cons.injEq, Except.ok.injEq] at h
          obtain ⟨rfl, h2⟩ := h
          rw [(ih rs).2 h2]; rfl

theorem mapM_id_total {α} (l : List (R α)) (h : ∀ x ∈ l, ∃ o, x = .ok o) :
    ∃ rs, l.mapM id = (.ok rs : R (List α)) := by
  induction l with
  | nil => exact ⟨[], rfl⟩
  | cons x l ih =>
    obtain ⟨o, rfl⟩ := h x (by simp)
    obtain ⟨rs, hrs⟩ := ih (fun y hy => h y (by simp [hy]))
    exact ⟨o :: rs, by rw [mapM_id_ok]; rw [mapM_id_ok] at hrs; simp [hrs]⟩

theorem foldl_pushRes (rs : List (Option Concl2)) (acc : List Concl2 × Bool) :
    rs.foldl pushRes acc = (acc.1 ++ rs.filterMap id, acc.2 || rs.any (·.isSome)) := by
  induction rs generalizing acc with
  | nil => simp
  | cons r rs ih =>
    rw [List.foldl_cons, ih]
    cases r <;> simp [pushRes]

theorem any_isSome {α} (vs : List (Option α)) :
    (vs.any (·.isSome)) = decide (vs.filterMap id ≠ []) := by
  induction vs with
  | nil => simp
  | cons v vs ih => cases v <;> simp [ih]

theorem infBinaryInner_ok {a pa ta b pb tb w rs w'}
    (h : infBinaryInner a pa ta b pb tb w = .ok (rs, w')) :
    (∀ x, x ∈ rs ↔ .ok (some x) ∈ binaryRules a pa ta b pb tb) ∧
    (w' = (w || decide (rs ≠ []))) := by
  unfold infBinaryInner at h
  cases hm : (binaryRules a pa ta b pb tb).mapM id with
  | error e => rw [hm] at h; cases h
  | ok vs =>
    rw [hm] at h
    have hv := (mapM_id_ok _ _).1 hm
    have h2 : (Except.ok (vs.foldl pushRes ([], w)) : R _) = .ok (rs, w') := h
    rw [foldl_pushRes] at h2
    simp only [List.nil_append, Except.ok.injEq, Prod.mk.injEq] at h2
    obtain ⟨rfl, rfl⟩ := h2
    constructor
    · intro x
      rw [hv]
      simp
    · rw [any_isSome]

theorem infBinaryInner_total {a pa ta b pb tb w}
    (h : ∀ x ∈ binaryRules a pa ta b pb tb, ∃ o, x = .ok o) :
    ∃ r, infBinaryInner a pa ta b pb tb w = .ok r := by
  obtain ⟨rs, hrs⟩ := mapM_id_total _ h
  exact ⟨rs.foldl pushRes ([], w), by unfold infBinaryInner; rw [hrs]; rfl⟩

/-! ## per-rule characterisations on judgements -/

section
variable {a b t : Term} {ta tb tv : Tv} {p : Punct}

macro "total_tac" : tactic => `(tactic| (repeat' split) <;> exact ⟨_, rfl⟩)

theorem inf3_total : ∃ o, inf3 a .JUGEMENT (some ta) b .JUGEMENT (some tb) = .ok o := by
  simp only [inf3, unwrap]; total_tac
theorem inf5_total (i) : ∃ o, inf5 a .JUGEMENT (some ta) b .JUGEMENT (some tb) i = .ok o := by
  simp only [inf5, unwrap]; total_tac
theorem infImplDed_total : ∃ o, infImplDed a .JUGEMENT (some ta) b .JUGEMENT (some tb) = .ok o := by
  simp only [infImplDed, unwrap]; total_tac
theorem inf7_total : ∃ o, inf7 a .JUGEMENT (some ta) b .JUGEMENT (some tb) = .ok o := by
  simp only [inf7, unwrap]; total_tac
theorem inf10_total : ∃ o, inf10 a .JUGEMENT (some ta) b .JUGEMENT (some tb) = .ok o := by
  simp only [inf10, unwrap]; total_tac
theorem infCompPred_total : ∃ o, infCompPred a .JUGEMENT (some ta) b .JUGEMENT (some tb) = .ok o := by
  simp only [infCompPred, unwrap]; total_tac
theorem infCompSubj_total : ∃ o, infCompSubj a .JUGEMENT (some ta) b .JUGEMENT (some tb) = .ok o := by
  simp only [infCompSubj, unwrap]; total_tac
theorem infGen_total (c1 c2 c3 s1 s2 f) : ∃ o, infGeneralizedJudgJudg a .JUGEMENT (some ta)
    b .JUGEMENT (some tb) c1 c2 c3 s1 s2 f = .ok o := by
  simp only [infGeneralizedJudgJudg, unwrap]; total_tac

theorem inf3_iff : inf3 a .JUGEMENT (some ta) b .JUGEMENT (some tb) = .ok (some (t, tv, p)) ↔
    p = .JUGEMENT ∧ ∃ x A B, a = .Stmt .INH x (.SetInt A) ∧ b = .Stmt .INH x (.SetInt B) ∧
      t = .Stmt .INH x (.SetInt (A ++ B)) ∧ tv = Tv.int ta tb := by
  constructor
  · simp only [inf3, unwrap]
    intro h
    simp only [ne_eq, not_true_eq_false, or_self, ↓reduceIte] at h
    split at h
    · split at h
      · rename_i hc
        rw [checkEqTerm_iff] at hc; subst hc
        cases h
        exact ⟨rfl, _, _, _, rfl, rfl, rfl, rfl⟩
      · cases h
    · cases h
  · rintro ⟨rfl, x, A, B, rfl, rfl, rfl, rfl⟩
    simp [inf3, unwrap, checkEqTerm_self]; rfl

theorem inf10_iff : inf10 a .JUGEMENT (some ta) b .JUGEMENT (some tb) = .ok (some (t, tv, p)) ↔
    p = .JUGEMENT ∧ ∃ x y z, y ≠ z ∧ a = .Stmt .INH x y ∧ b = .Stmt .INH x z ∧
      t = .Stmt .INH x (.ExtInt [y, z]) ∧ tv = Tv.int ta tb := by
  constructor
  · simp only [inf10, unwrap]
    intro h
    simp only [ne_eq, not_true_eq_false, or_self, ↓reduceIte] at h
    split at h
    · split at h
      · rename_i hc
        rw [Bool.and_eq_true, Bool.not_eq_true', checkEqTerm_iff, checkEqTerm_false_iff] at hc
        obtain ⟨h1, rfl⟩ := hc
        cases h
        exact ⟨rfl, _, _, _, h1, rfl, rfl, rfl, rfl⟩
      · cases h
    · cases h
  · rintro ⟨rfl, x, y, z, h, rfl, rfl, rfl, rfl⟩
    simp [inf10, unwrap, checkEqTerm_self, (checkEqTerm_false_iff y z).2 h]; rfl

theorem infCompPred_iff : infCompPred a .JUGEMENT (some ta) b .JUGEMENT (some tb) = .ok (some (t, tv, p)) ↔
    p = .JUGEMENT ∧ ∃ ca cb x y z, (ca = .INH ∨ ca = .SIM) ∧ (cb = .INH ∨ cb = .SIM) ∧ y ≠ z ∧
      a = .Stmt ca x y ∧ b = .Stmt cb x z ∧ t = .Stmt .SIM y z ∧ tv = Tv.comp ta tb := by
  constructor
  · simp only [infCompPred, unwrap]
    intro h
    simp only [ne_eq, not_true_eq_false, or_self, ↓reduceIte] at h
    split at h
    · split at h
      · rename_i hk
        split at h
        · rename_i hc
          rw [Bool.and_eq_true, Bool.not_eq_true', checkEqTerm_iff, checkEqTerm_false_iff] at hc
          obtain ⟨h1, rfl⟩ := hc
          cases h
          exact ⟨rfl, _, _, _, _, _, hk.1, hk.2, h1, rfl, rfl, rfl, rfl⟩
        · cases h
      · cases h
    · cases h
  · rintro ⟨rfl, ca, cb, x, y, z, h1, h2, h, rfl, rfl, rfl, rfl⟩
    simp [infCompPred, unwrap, checkEqTerm_self, (checkEqTerm_false_iff y z).2 h, h1, h2]; rfl

theorem infCompSubj_iff : infCompSubj a .JUGEMENT (some ta) b .JUGEMENT (some tb) = .ok (some (t, tv, p)) ↔
    p = .JUGEMENT ∧ ∃ ca cb x y z, (ca = .INH ∨ ca = .SIM) ∧ (cb = .INH ∨ cb = .SIM) ∧ y ≠ z ∧
      a = .Stmt ca y x ∧ b = .Stmt cb z x ∧ t = .Stmt .SIM y z ∧ tv = Tv.comp ta tb := by
  constructor
  · simp only [infCompSubj, unwrap]
    intro h
    simp only [ne_eq, not_true_eq_false, or_self, ↓reduceIte] at h
    split at h
    · split at h
      · rename_i hk
        split at h
        · rename_i hc
          rw [Bool.and_eq_true, Bool.not_eq_true', checkEqTerm_iff, checkEqTerm_false_iff] at hc
          obtain ⟨h1, rfl⟩ := hc
          cases h
          exact ⟨rfl, _, _, _, _, _, hk.1, hk.2, h1, rfl, rfl, rfl, rfl⟩
        · cases h
      · cases h
    · cases h
  · rintro ⟨rfl, ca, cb, x, y, z, h1, h2, h, rfl, rfl, rfl, rfl⟩
    simp [infCompSubj, unwrap, checkEqTerm_self, (checkEqTerm_false_iff y z).2 h, h1, h2]; rfl

theorem infGen_iff (ca cb cc : Copula) (sa sb : Int) (f : Tv → Tv → Tv) :
    infGeneralizedJudgJudg a .JUGEMENT (some ta) b .JUGEMENT (some tb) ca cb cc sa sb f =
      .ok (some (t, tv, p)) ↔
    p = .JUGEMENT ∧ ∃ s1 p1 s2 p2, a = .Stmt ca s1 p1 ∧ b = .Stmt cb s2 p2 ∧
      sel s1 p1 sa = sel s2 p2 sb ∧ sel s1 p1 (-sa) ≠ sel s2 p2 (-sb) ∧
      t = .Stmt cc (sel s1 p1 (-sa)) (sel s2 p2 (-sb)) ∧ tv = f ta tb := by
  constructor
  · simp only [infGeneralizedJudgJudg, unwrap]
    intro h
    simp only [ne_eq, not_true_eq_false, or_self, ↓reduceIte] at h
    split at h
    · split at h
      · rename_i hk
        obtain ⟨rfl, rfl⟩ := hk
        split at h
        · rename_i hc
          rw [Bool.and_eq_true, Bool.not_eq_true', checkEqTerm_iff, checkEqTerm_false_iff] at hc
          cases h
          exact ⟨rfl, _, _, _, _, rfl, rfl, hc.1, hc.2, rfl, rfl⟩
        · cases h
      · cases h
    · cases h
  · rintro ⟨rfl, s1, p1, s2, p2, rfl, rfl, h1, h2, rfl, rfl⟩
    simp [infGeneralizedJudgJudg, unwrap, (checkEqTerm_iff _ _).2 h1, (checkEqTerm_false_iff _ _).2 h2]; rfl

theorem infImplDed_iff : infImplDed a .JUGEMENT (some ta) b .JUGEMENT (some tb) = .ok (some (t, tv, p)) ↔
    p = .JUGEMENT ∧ ∃ s q σ, a = .Stmt .IMPL s q ∧ unify s b = some σ ∧
      t = unifySubst σ q ∧ tv = Tv.ded ta tb := by
  constructor
  · simp only [infImplDed, unwrap]
    intro h
    simp only [ne_eq, not_true_eq_false, or_self, ↓reduceIte] at h
    split at h
    · split at h
      · cases h
      · rename_i hu
        cases h
        exact ⟨rfl, _, _, _, rfl, hu, rfl, rfl⟩
    · cases h
  · rintro ⟨rfl, s, q, σ, rfl, h, rfl, rfl⟩
    simp [infImplDed, unwrap, h]; rfl

theorem inf7_judg : inf7 a .JUGEMENT (some ta) b .JUGEMENT (some tb) = .ok none := by
  simp [inf7]

theorem inf5Rest_aux (σ : List Asgnment) : ∀ (arr : List Term) (k : Nat) (i : Nat),
    (arr.zipIdx k).filterMap (fun p => if p.2 == i + k then none else some (unifySubst σ p.1)) =
      (arr.eraseIdx i).map (unifySubst σ) := by
  intro arr
  induction arr with
  | nil => intro k i; simp
  | cons x arr ih =>
    intro k i
    cases i with
    | zero =>
      simp only [Nat.zero_add, List.zipIdx_cons, List.filterMap_cons, beq_self_eq_true, ↓reduceIte,
        List.eraseIdx_cons_zero]
      have : ∀ (l : List Term) (k' : Nat), k < k' →
          (l.zipIdx k').filterMap (fun p => if p.2 == k then none else some (unifySubst σ p.1)) =
          l.map (unifySubst σ) := by
        intro l
        induction l with
        | nil => intros; rfl
        | cons y l ihl =>
          intro k' hk
          have : (k' == k) = false := by simp; omega
          simp only [List.zipIdx_cons, List.filterMap_cons, this, Bool.false_eq_true, ↓reduceIte,
            List.map_cons, List.cons.injEq, true_and]
          exact ihl (k' + 1) (by omega)
      exact this arr (k + 1) (by omega)
    | succ i =>
      have h0 : (k == i + 1 + k) = false := by simp
      simp only [List.zipIdx_cons, List.filterMap_cons, h0, Bool.false_eq_true, ↓reduceIte,
        List.eraseIdx_cons_succ, List.map_cons, List.cons.injEq, true_and]
      have := ih (k + 1) i
      rw [show i + (k + 1) = i + 1 + k by omega] at this
      exact this

theorem inf5Rest_eq (arr : List Term) (i : Nat) (σ : List Asgnment) :
    inf5Rest arr i σ = (arr.eraseIdx i).map (unifySubst σ) := by
  have := inf5Rest_aux σ arr 0 i
  simpa [inf5Rest] using this

theorem inf5_iff (i : Nat) :
    inf5 a .JUGEMENT (some ta) b .JUGEMENT (some tb) i = .ok (some (t, tv, p)) ↔
    p = .JUGEMENT ∧ ∃ pre c post q σ, pre.length = i ∧ a = .Stmt .IMPL (.Conj (pre ++ c :: post)) q ∧
      unify c b = some σ ∧
      t = .Stmt .IMPL (conjOf ((pre ++ post).map (unifySubst σ))) (unifySubst σ q) ∧
      tv = Tv.ded ta tb := by
  have hconj : ∀ (l : List Term) (q : Term), inf5Concl l q = .Stmt .IMPL (conjOf l) q := by
    intro l q
    rcases l with _ | ⟨x, _ | ⟨y, l⟩⟩ <;> rfl
  constructor
  · simp only [inf5, unwrap]
    intro h
    simp only [ne_eq, not_true_eq_false, or_self, ↓reduceIte] at h
    split at h
    · rename_i arr q
      split at h
      · cases h
      · rename_i c hc
        split at h
        · cases h
        · rename_i σ hu
          rw [hconj, inf5Rest_eq] at h
          cases h
          obtain ⟨hlt, hget⟩ := List.getElem?_eq_some_iff.1 hc
          refine ⟨rfl, arr.take i, c, arr.drop (i + 1), q, σ, ?_, ?_, hu, ?_, rfl⟩
          · simp; omega
          · congr 2
            rw [← hget]; simp
          · rw [List.eraseIdx_eq_take_drop_succ]
    · cases h
  · rintro ⟨rfl, pre, c, post, q, σ, rfl, rfl, hu, rfl, rfl⟩
    have h1 : (pre ++ c :: post)[pre.length]? = some c := by simp
    have h2 : (pre ++ c :: post).eraseIdx pre.length = pre ++ post := by
      rw [List.eraseIdx_append_of_length_le (Nat.le_refl _)]; simp
    simp only [inf5, unwrap, h1, hu, inf5Rest_eq, hconj, h2]
    rfl

end

theorem binaryRules_total {a b : Term} {ta tb : Tv} :
    ∀ x ∈ binaryRules a .JUGEMENT (some ta) b .JUGEMENT (some tb), ∃ o, x = .ok o := by
  intro x hx
  simp only [binaryRules, List.mem_cons, List.not_mem_nil, or_false] at hx
  rcases hx with rfl | rfl | rfl | rfl | rfl | rfl | rfl | rfl | rfl | rfl | rfl | rfl | rfl | rfl | rfl | rfl
  · exact inf3_total
  · exact ⟨_, rfl⟩
  · exact inf5_total 0
  · exact inf5_total 1
  · exact inf5_total 2
  · exact inf5_total 3
  · exact infImplDed_total
  · exact inf7_total
  · exact inf10_total
  · exact infCompPred_total
  · exact infCompSubj_total
  all_goals exact infGen_total ..

/-- the rule list draws exactly the documented conclusions -/
theorem binaryRules_iff {a b : Term} {ta tb : Tv} (t : Term) (tv : Tv) (p : Punct) :
    .ok (some (t, tv, p)) ∈ binaryRules a .JUGEMENT (some ta) b .JUGEMENT (some tb) ↔
      p = .JUGEMENT ∧ Rule2 a ta b tb t tv := by
  simp only [binaryRules, List.mem_cons, List.not_mem_nil, or_false,
    eq_comm (a := (Except.ok (some (t, tv, p)) : R (Option Concl2))),
    inf3_iff, inf5_iff, infImplDed_iff, inf7_judg, inf10_iff, infCompPred_iff, infCompSubj_iff,
    infGen_iff]
  constructor
  · rintro (h | h | h | h | h | h | h | h | h | h | h | h | h | h | h | h)
    · obtain ⟨rfl, x, A, B, rfl, rfl, rfl, rfl⟩ := h
      exact ⟨rfl, .setUnion ..⟩
    · cases h
    iterate 4
      · obtain ⟨rfl, pre, c, post, q, σ, hl, rfl, hu, rfl, rfl⟩ := h
        exact ⟨rfl, .conjDetach _ _ _ _ _ _ _ _ (by omega) hu⟩
    · obtain ⟨rfl, s, q, σ, rfl, hu, rfl, rfl⟩ := h
      exact ⟨rfl, .detach _ _ _ _ _ _ hu⟩
    · cases h
    · obtain ⟨rfl, x, y, z, h, rfl, rfl, rfl, rfl⟩ := h
      exact ⟨rfl, .intersection _ _ _ _ _ h⟩
    · obtain ⟨rfl, ca, cb, x, y, z, h1, h2, h3, rfl, rfl, rfl, rfl⟩ := h
      exact ⟨rfl, .comparePred _ _ _ _ _ _ _ h1 h2 h3⟩
    · obtain ⟨rfl, ca, cb, x, y, z, h1, h2, h3, rfl, rfl, rfl, rfl⟩ := h
      exact ⟨rfl, .compareSubj _ _ _ _ _ _ _ h1 h2 h3⟩
    · obtain ⟨rfl, s1, p1, s2, p2, rfl, rfl, h1, h2, rfl, rfl⟩ := h
      simp [sel] at h1 h2 ⊢; subst h1; exact .deduction _ _ _ _ _ _ (by simp) h2
    · obtain ⟨rfl, s1, p1, s2, p2, rfl, rfl, h1, h2, rfl, rfl⟩ := h
      simp [sel] at h1 h2 ⊢; subst h1; exact .deduction _ _ _ _ _ _ (by simp) h2
    · obtain ⟨rfl, s1, p1, s2, p2, rfl, rfl, h1, h2, rfl, rfl⟩ := h
      simp [sel] at h1 h2 ⊢; subst h1; exact .deduction _ _ _ _ _ _ (by simp) h2
    · obtain ⟨rfl, s1, p1, s2, p2, rfl, rfl, h1, h2, rfl, rfl⟩ := h
      simp [sel] at h1 h2 ⊢; subst h1; exact .abduction _ _ _ _ _ h2
    · obtain ⟨rfl, s1, p1, s2, p2, rfl, rfl, h1, h2, rfl, rfl⟩ := h
      simp [sel] at h1 h2 ⊢; subst h1; exact .induction _ _ _ _ _ h2
  · rintro ⟨rfl, h⟩
    cases h with
    | setUnion x A B => exact Or.inl ⟨rfl, x, A, B, rfl, rfl, rfl, rfl⟩
    | intersection x p q _ _ h =>
      exact Or.inr <| Or.inr <| Or.inr <| Or.inr <| Or.inr <| Or.inr <| Or.inr <| Or.inr <| Or.inl
        ⟨rfl, x, p, q, h, rfl, rfl, rfl, rfl⟩
    | comparePred ca cb x p q _ _ h1 h2 h3 =>
      exact Or.inr <| Or.inr <| Or.inr <| Or.inr <| Or.inr <| Or.inr <| Or.inr <| Or.inr <| Or.inr <|
        Or.inl ⟨rfl, ca, cb, x, p, q, h1, h2, h3, rfl, rfl, rfl, rfl⟩
    | compareSubj ca cb x p q _ _ h1 h2 h3 =>
      exact Or.inr <| Or.inr <| Or.inr <| Or.inr <| Or.inr <| Or.inr <| Or.inr <| Or.inr <| Or.inr <|
        Or.inr <| Or.inl ⟨rfl, ca, cb, x, p, q, h1, h2, h3, rfl, rfl, rfl, rfl⟩
    | deduction cop S M P _ _ hc h =>
      rcases hc with rfl | rfl | rfl
      · iterate 13 right
        left
        exact ⟨rfl, S, M, M, P, rfl, rfl, by simp [sel], by simpa [sel] using h, by simp [sel], rfl⟩
      · iterate 12 right
        left
        exact ⟨rfl, S, M, M, P, rfl, rfl, by simp [sel], by simpa [sel] using h, by simp [sel], rfl⟩
      · iterate 11 right
        left
        exact ⟨rfl, S, M, M, P, rfl, rfl, by simp [sel], by simpa [sel] using h, by simp [sel], rfl⟩
    | abduction S M P _ _ h =>
      iterate 14 right
      left
      exact ⟨rfl, S, M, P, M, rfl, rfl, by simp [sel], by simpa [sel] using h, by simp [sel], rfl⟩
    | induction S M P _ _ h =>
      iterate 15 right
      exact ⟨rfl, M, S, M, P, rfl, rfl, by simp [sel], by simpa [sel] using h, by simp [sel], rfl⟩
    | detach p q _ σ _ _ h =>
      iterate 6 right
      left
      exact ⟨rfl, p, q, σ, rfl, h, rfl, rfl⟩
    | conjDetach pre c post q _ σ _ _ hl h =>
      have : pre.length = 0 ∨ pre.length = 1 ∨ pre.length = 2 ∨ pre.length = 3 := by omega
      rcases this with h0 | h0 | h0 | h0
      · iterate 2 right
        left; exact ⟨rfl, pre, c, post, q, σ, h0, rfl, h, rfl, rfl⟩
      · iterate 3 right
        left; exact ⟨rfl, pre, c, post, q, σ, h0, rfl, h, rfl, rfl⟩
      · iterate 4 right
        left; exact ⟨rfl, pre, c, post, q, σ, h0, rfl, h, rfl, rfl⟩
      · iterate 5 right
        left; exact ⟨rfl, pre, c, post, q, σ, h0, rfl, h, rfl, rfl⟩

end Nar
