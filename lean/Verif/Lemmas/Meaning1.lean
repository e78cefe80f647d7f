import Mathlib.Tactic.Linarith
import Verif.Spec.Meaning
import Verif.Lemmas.Decl4
/-! # Lemmas: the rules keep to what statements mean -/
namespace Nar
open Term

/-! ## usual terms -/

theorem usual_iff {t : Term} : Usual t ↔ UsualShape t ∧ ∀ c ∈ parts t, Usual c := by
  constructor
  · intro h
    exact ⟨h t (.refl t), fun c hc s hs => h s (hs.trans (isSubterm_of_part hc))⟩
  · rintro ⟨h1, h2⟩ s hs
    rcases (isSubterm_iff s t).1 hs with rfl | ⟨c, hc, hs⟩
    · exact h1
    · exact h2 c hc s hs

theorem Usual.sub {s t : Term} (h : Usual t) (hs : IsSubterm s t) : Usual s := fun u hu => h u (hu.trans hs)

theorem Usual.part {c t : Term} (h : Usual t) (hc : c ∈ parts t) : Usual c := (usual_iff.1 h).2 c hc

theorem usual_stmt {c : Copula} {s p : Term} : Usual (.Stmt c s p) ↔ Usual s ∧ Usual p := by
  rw [usual_iff]; simp [parts, UsualShape]

theorem substVar_usual {v : Term} {σ : List Asgnment} (hv : Usual v) (hσ : ∀ x ∈ σ, Usual x.val) : Usual (substVar v σ) := by
  by_cases hm : ∃ x ∈ σ, x.var = v
  · obtain ⟨x, hx, -, e⟩ := substVar_mem v σ hm
    rw [e]; exact hσ x hx
  · rw [substVar_not_mem v σ (fun x hx e => hm ⟨x, hx, e⟩)]; exact hv

theorem unifySubst_usual {σ : List Asgnment} (hσ : ∀ x ∈ σ, Usual x.val) {t : Term} (ht : Usual t) :
    Usual (unifySubst σ t) := by
  induction t using Term.indParts with
  | h t ih =>
    have h1 : ∀ c ∈ parts t, Usual (unifySubst σ c) := fun c hc => ih c hc (ht.part hc)
    have h2 := (usual_iff.1 ht).1
    cases t with
    | Name n => simpa [unifySubst] using ht
    | QVar n | DepVar n | IndepVar n => simp only [unifySubst]; exact substVar_usual ht hσ
    | Stmt c s p => simp only [unifySubst]; rw [usual_stmt]; exact ⟨h1 s (by simp [parts]), h1 p (by simp [parts])⟩
    | Neg t =>
      simp only [unifySubst]; rw [usual_iff]
      exact ⟨trivial, by simpa [parts] using h1 t (by simp [parts])⟩
    | Img r i ts =>
      simp only [unifySubst, unifySubstL_eq_map]; rw [usual_iff]
      refine ⟨trivial, ?_⟩
      simp only [parts, List.mem_cons, List.mem_map]
      rintro c (rfl | ⟨d, hd, rfl⟩)
      · exact h1 r (by simp [parts])
      · exact h1 d (by simp [parts, hd])
    | Seq ts | SetInt ts | SetExt ts | IntInt ts | ExtInt ts | Par ts | Prod ts | Conj ts =>
      simp only [unifySubst, unifySubstL_eq_map]; rw [usual_iff]
      refine ⟨by simpa [UsualShape] using h2, ?_⟩
      simp only [parts, List.mem_map]
      rintro c ⟨d, hd, rfl⟩
      exact h1 d hd

theorem conjOf_usual {ts : List Term} (h : ∀ t ∈ ts, Usual t) : Usual (conjOf ts) := by
  match ts with
  | [] => exact usual_iff.2 ⟨trivial, h⟩
  | [x] => exact h x (by simp)
  | x :: y :: ts => exact usual_iff.2 ⟨trivial, h⟩

theorem rule2_usual {a b c : Term} {ta tb tc : Tv} (h : Rule2 a ta b tb c tc) (ha : Usual a) (hb : Usual b) : Usual c := by
  cases h with
  | setUnion x A B =>
    rw [usual_stmt] at ha hb ⊢
    refine ⟨ha.1, usual_iff.2 ⟨trivial, ?_⟩⟩
    intro d hd
    rcases List.mem_append.1 hd with hd | hd
    · exact ha.2.part hd
    · exact hb.2.part hd
  | intersection x p q =>
    rw [usual_stmt] at ha hb ⊢
    exact ⟨ha.1, usual_iff.2 ⟨trivial, by simp [parts, ha.2, hb.2]⟩⟩
  | comparePred => rw [usual_stmt] at ha hb ⊢; exact ⟨ha.2, hb.2⟩
  | compareSubj => rw [usual_stmt] at ha hb ⊢; exact ⟨ha.1, hb.1⟩
  | deduction => rw [usual_stmt] at ha hb ⊢; exact ⟨ha.1, hb.2⟩
  | abduction => rw [usual_stmt] at ha hb ⊢; exact ⟨ha.1, hb.1⟩
  | induction => rw [usual_stmt] at ha hb ⊢; exact ⟨ha.2, hb.2⟩
  | detach p q b σ _ _ hu =>
    rw [usual_stmt] at ha
    exact unifySubst_usual (fun x hx => hb.sub (unify_vals hu x hx)) ha.2
  | conjDetach pre c post q b σ _ _ hl hu =>
    rw [usual_stmt] at ha ⊢
    have hσ : ∀ x ∈ σ, Usual x.val := fun x hx => hb.sub (unify_vals hu x hx)
    refine ⟨conjOf_usual ?_, unifySubst_usual hσ ha.2⟩
    intro t ht
    obtain ⟨d, hd, rfl⟩ := List.mem_map.1 ht
    refine unifySubst_usual hσ (ha.1.part ?_)
    simp only [parts, List.mem_append, List.mem_cons] at hd ⊢
    tauto

theorem rule1_usual {a c : Term} {ta tc : Tv} (h : Rule1 a ta c tc) (ha : Usual a) : Usual c := by
  cases h with
  | negation a => exact ha.part (by simp [parts])
  | decomposeSubj pre x post p => rw [usual_stmt] at ha; exact ((usual_iff.1 ha.1).1).elim
  | decomposePred pre x post p => rw [usual_stmt] at ha; exact ((usual_iff.1 ha.2).1).elim
  | productLeft x y rest rel =>
    rw [usual_stmt] at ha ⊢
    refine ⟨ha.1.part (by simp [parts]), usual_iff.2 ⟨trivial, ?_⟩⟩
    simp only [parts, List.mem_cons, List.not_mem_nil, or_false]
    rintro c (rfl | rfl)
    exacts [ha.2, ha.1.part (by simp [parts])]
  | productRight x y rel =>
    rw [usual_stmt] at ha ⊢
    refine ⟨ha.1.part (by simp [parts]), usual_iff.2 ⟨trivial, ?_⟩⟩
    simp only [parts, List.mem_cons, List.not_mem_nil, or_false]
    rintro c (rfl | rfl)
    exacts [ha.2, ha.1.part (by simp [parts])]
  | imageLeft x y rel =>
    rw [usual_stmt] at ha ⊢
    refine ⟨usual_iff.2 ⟨rfl, ?_⟩, ha.2.part (by simp [parts])⟩
    simp only [parts, List.mem_cons, List.not_mem_nil, or_false]
    rintro c (rfl | rfl)
    exacts [ha.1, ha.2.part (by simp [parts])]
  | imageRight x y rel =>
    rw [usual_stmt] at ha ⊢
    refine ⟨usual_iff.2 ⟨rfl, ?_⟩, ha.2.part (by simp [parts])⟩
    simp only [parts, List.mem_cons, List.not_mem_nil, or_false]
    rintro c (rfl | rfl)
    exacts [ha.2.part (by simp [parts]), ha.1]
  | setInt a b => rw [usual_stmt] at ha ⊢; exact ⟨ha.1.part (by simp [parts]), ha.2.part (by simp [parts])⟩
  | setExt a b => rw [usual_stmt] at ha ⊢; exact ⟨ha.1.part (by simp [parts]), ha.2.part (by simp [parts])⟩
  | decomposePar s ps x => rw [usual_stmt] at ha; exact ((usual_iff.1 ha.2).1).elim

/-! ## meaning -/

section
variable {D T : Type} [LT T] (M : World D T)

theorem meaningL_eq_map (v : Term → Meaning D T) (ts : List Term) : meaningL M v ts = ts.map (meaning M v) := by
  induction ts with
  | nil => rfl
  | cons t ts ih => simp only [meaningL, List.map_cons, ih]

/-- the meaning of an instance is the meaning of the pattern where the variables stand for what replaces them -/
theorem meaning_inst (v : Term → Meaning D T) (θ : Term → Term) (t : Term) :
    meaning M v (inst θ t) = meaning M (fun x => meaning M v (θ x)) t := by
  induction t using Term.ind with
  | name | qvar | depvar | indepvar => simp only [inst, meaning]
  | stmt c s p hs hp => simp only [inst, meaning, hs, hp]
  | neg t ht => simp only [inst, meaning, ht]
  | img r i ts hr hts =>
    have : meaningL M v (instL θ ts) = meaningL M (fun x => meaning M v (θ x)) ts := by
      simp only [meaningL_eq_map, instL_eq_map, List.map_map]
      exact List.map_congr_left hts
    simp only [inst, meaning, hr, this]
  | seq ts hts | setInt ts hts | setExt ts hts | conj ts hts | prod ts hts
  | intInt ts hts | extInt ts hts | par ts hts =>
    have : meaningL M v (instL θ ts) = meaningL M (fun x => meaning M v (θ x)) ts := by
      simp only [meaningL_eq_map, instL_eq_map, List.map_map]
      exact List.map_congr_left hts
    simp only [inst, meaning, this]

/-- the meaning depends on the variables which occur only -/
theorem meaning_congr {v w : Term → Meaning D T} {t : Term} (h : ∀ x, IsVar x → IsSubterm x t → v x = w x) :
    meaning M v t = meaning M w t := by
  have part : ∀ t, (∀ x, IsVar x → IsSubterm x t → v x = w x) → ∀ c ∈ parts t, ∀ x, IsVar x → IsSubterm x c → v x = w x :=
    fun t h c hc x hx hs => h x hx (hs.trans (isSubterm_of_part hc))
  induction t using Term.ind with
  | name => simp only [meaning]
  | qvar | depvar | indepvar => simp only [meaning]; exact h _ trivial (.refl _)
  | stmt c s p hs hp =>
    simp only [meaning, hs (part _ h s (by simp [parts])), hp (part _ h p (by simp [parts]))]
  | neg t ht => simp only [meaning, ht (part _ h t (by simp [parts]))]
  | img r i ts hr hts =>
    have : meaningL M v ts = meaningL M w ts := by
      simp only [meaningL_eq_map]
      exact List.map_congr_left (fun t ht => hts t ht (part _ h t (by simp [parts, ht])))
    simp only [meaning, hr (part _ h r (by simp [parts])), this]
  | seq ts hts | setInt ts hts | setExt ts hts | conj ts hts | prod ts hts
  | intInt ts hts | extInt ts hts | par ts hts =>
    have : meaningL M v ts = meaningL M w ts := by
      simp only [meaningL_eq_map]
      exact List.map_congr_left (fun t ht => hts t ht (part _ h t (by simp [parts, ht])))
    simp only [meaning, this]

theorem Usual.universal {t : Term} (h : Usual t) : OnlyUniversal t := by
  intro s hs n
  have := h s hs
  constructor <;> rintro rfl <;> exact this

theorem OnlyUniversal.meaning_eq {t : Term} (ht : OnlyUniversal t) {v w : Term → Meaning D T}
    (h : ∀ n, w (.IndepVar n) = v (.IndepVar n)) : meaning M w t = meaning M v t := by
  refine meaning_congr M (fun x hx hs => ?_)
  have := ht x hs
  cases x <;> simp_all [IsVar]

theorem trueIn_of {t : Term} (h : ∀ v, (meaning M v t).holds) : TrueIn M t := fun v => ⟨v, fun _ => rfl, h v⟩

theorem falseIn_of {t : Term} (h : ∀ v, ¬ (meaning M v t).holds) : FalseIn M t := fun _ ⟨w, _, hw⟩ => h w hw

theorem OnlyUniversal.true_iff {t : Term} (ht : OnlyUniversal t) : TrueIn M t ↔ ∀ v, (meaning M v t).holds := by
  constructor
  · intro h v
    obtain ⟨w, hw, h⟩ := h v
    rwa [ht.meaning_eq M hw] at h
  · exact trueIn_of M

theorem OnlyUniversal.false_iff {t : Term} (ht : OnlyUniversal t) : FalseIn M t ↔ ∀ v, ¬ (meaning M v t).holds :=
  ⟨fun h v hv => h v ⟨v, fun _ => rfl, hv⟩, falseIn_of M⟩

end

/-- in every world in which both premises are true the conclusion is -/
def Follow2 (a b c : Term) : Prop :=
  ∀ (D T : Type) (_ : Preorder T) (M : World D T), TrueIn M a → TrueIn M b → TrueIn M c

/-- … and if a premise is false the conclusion is -/
def Share2 (a b c : Term) : Prop :=
  ∀ (D T : Type) (_ : Preorder T) (M : World D T), FalseIn M a ∨ FalseIn M b → FalseIn M c

theorem conjOf_holds {D T : Type} [LT T] (M : World D T) (v : Term → Meaning D T) (ts : List Term) :
    (meaning M v (conjOf ts)).holds ↔ ∀ t ∈ ts, (meaning M v t).holds := by
  match ts with
  | [] => simp [conjOf, meaning, meaningL]
  | [x] => simp [conjOf]
  | x :: y :: ts => simp [conjOf, meaning, meaningL_eq_map]

/-- how a rule with two premises comes to its truth value: deduction and intersection keep to the meaning, the other rules
give at most one unit of evidence -/
theorem rule2_kind {a b c : Term} {ta tb tc : Tv} (h : Rule2 a ta b tb c tc) (ha : OnlyUniversal a) (hb : OnlyUniversal b) :
    (tc = Tv.ded ta tb ∧ Follow2 a b c) ∨ (tc = Tv.int ta tb ∧ Follow2 a b c ∧ Share2 a b c) ∨
    tc = Tv.abd ta tb ∨ tc = Tv.abd tb ta ∨ tc = Tv.comp ta tb := by
  cases h with
  | setUnion x A B =>
    refine .inr (.inl ⟨rfl, ?_, ?_⟩)
    · intro D T _ M h1 h2
      rw [ha.true_iff] at h1; rw [hb.true_iff] at h2; apply trueIn_of
      intro v
      have h1 := h1 v; have h2 := h2 v
      simp only [meaning, copulaHolds, meaningL_eq_map] at h1 h2 ⊢
      intro y hy m hm
      rw [List.map_append, List.mem_append] at hm
      rcases hm with hm | hm
      · exact h1 hy m hm
      · exact h2 hy m hm
    · intro D T _ M h1
      rw [ha.false_iff, hb.false_iff] at h1; apply falseIn_of
      intro v h
      simp only [meaning, copulaHolds, meaningL_eq_map] at h
      rcases h1 with h1 | h1
      · refine h1 v ?_
        simp only [meaning, copulaHolds, meaningL_eq_map]
        exact fun y hy m hm => h hy m (by rw [List.map_append]; exact List.mem_append_left _ hm)
      · refine h1 v ?_
        simp only [meaning, copulaHolds, meaningL_eq_map]
        exact fun y hy m hm => h hy m (by rw [List.map_append]; exact List.mem_append_right _ hm)
  | intersection x p q =>
    refine .inr (.inl ⟨rfl, ?_, ?_⟩)
    · intro D T _ M h1 h2
      rw [ha.true_iff] at h1; rw [hb.true_iff] at h2; apply trueIn_of
      intro v
      have h1 := h1 v; have h2 := h2 v
      simp only [meaning, copulaHolds, meaningL] at h1 h2 ⊢
      intro y hy m hm
      simp only [List.mem_cons, List.not_mem_nil, or_false] at hm
      rcases hm with rfl | rfl
      · exact h1 hy
      · exact h2 hy
    · intro D T _ M h1
      rw [ha.false_iff, hb.false_iff] at h1; apply falseIn_of
      intro v h
      simp only [meaning, copulaHolds, meaningL] at h
      rcases h1 with h1 | h1
      · refine h1 v ?_
        simp only [meaning, copulaHolds]
        exact fun y hy => h hy _ (by simp)
      · refine h1 v ?_
        simp only [meaning, copulaHolds]
        exact fun y hy => h hy _ (by simp)
  | comparePred => exact .inr (.inr (.inr (.inr rfl)))
  | compareSubj => exact .inr (.inr (.inr (.inr rfl)))
  | abduction => exact .inr (.inr (.inl rfl))
  | induction => exact .inr (.inr (.inr (.inl rfl)))
  | deduction cop S Mid P _ _ hcop =>
    refine .inl ⟨rfl, ?_⟩
    intro D T _ M h1 h2
    rw [ha.true_iff] at h1; rw [hb.true_iff] at h2; apply trueIn_of
    intro v
    have h1 := h1 v; have h2 := h2 v
    simp only [meaning] at h1 h2 ⊢
    rcases hcop with rfl | rfl | rfl
    · exact fun y hy => h2 (h1 hy)
    · exact fun hs => h2 (h1 hs)
    · intro t ht
      obtain ⟨t1, k1, k2⟩ := h1 t ht
      obtain ⟨t2, k3, k4⟩ := h2 t1 k2
      exact ⟨t2, lt_trans k1 k3, k4⟩
  | detach p q b σ _ _ hu =>
    refine .inl ⟨rfl, ?_⟩
    intro D T _ M h1 h2
    rw [ha.true_iff] at h1; rw [hb.true_iff] at h2; apply trueIn_of
    intro v
    have h2 := h2 v
    rw [← (unify2_sound p b [] σ hu).2 σ List.prefix_rfl, unifySubst_eq_inst, meaning_inst] at h2
    rw [unifySubst_eq_inst, meaning_inst]
    have h1 := h1 (fun x => meaning M v (substVar x σ))
    simp only [meaning, copulaHolds] at h1
    exact h1 h2
  | conjDetach pre c post q b σ _ _ hl hu =>
    refine .inl ⟨rfl, ?_⟩
    intro D T _ M h1 h2
    rw [ha.true_iff] at h1; rw [hb.true_iff] at h2; apply trueIn_of
    intro v
    have h2 := h2 v
    rw [← (unify2_sound c b [] σ hu).2 σ List.prefix_rfl, unifySubst_eq_inst, meaning_inst] at h2
    have h1 := h1 (fun x => meaning M v (substVar x σ))
    simp only [meaning, copulaHolds, meaningL_eq_map] at h1 ⊢
    rw [conjOf_holds]
    intro h3
    rw [unifySubst_eq_inst, meaning_inst]
    refine h1 ?_
    intro m hm
    obtain ⟨d, hd, rfl⟩ := List.mem_map.1 hm
    rcases List.mem_append.1 hd with hd | hd
    · have := h3 _ (List.mem_map_of_mem (List.mem_append_left _ hd))
      rwa [unifySubst_eq_inst, meaning_inst] at this
    · rcases List.mem_cons.1 hd with rfl | hd
      · exact h2
      · have := h3 _ (List.mem_map_of_mem (List.mem_append_right _ hd))
        rwa [unifySubst_eq_inst, meaning_inst] at this

theorem prod2 {D T : Type} {M : World D T} {a b : Meaning D T} {x : D} :
    (∃ xs, List.Forall₂ (fun y (m : Meaning D T) => y ∈ m.covers) xs [a, b] ∧ M.tuple xs = x) ↔
      ∃ y ∈ a.covers, ∃ z ∈ b.covers, M.tuple [y, z] = x := by
  constructor
  · rintro ⟨xs, h, rfl⟩
    cases h with
    | cons h1 h =>
      cases h with
      | cons h2 h => cases h; exact ⟨_, h1, _, h2, rfl⟩
  · rintro ⟨y, hy, z, hz, rfl⟩
    exact ⟨_, .cons hy (.cons hz .nil), rfl⟩

theorem img1 {D T : Type} {P : List D → Prop} {b : Meaning D T} :
    (∀ ys, List.Forall₂ (fun y (m : Meaning D T) => y ∈ m.covers) ys [b] → P ys) ↔ ∀ z ∈ b.covers, P [z] := by
  constructor
  · exact fun h z hz => h _ (.cons hz .nil)
  · intro h ys hy
    cases hy with
    | cons h1 h2 => cases h2; exact h _ h1

/-- the rules with one premise keep the meaning, with the usual terms -/
theorem rule1_meaning {a c : Term} {ta tc : Tv} (h : Rule1 a ta c tc) (ha : Usual a) {D T : Type} [LT T] (M : World D T)
    (hf : Fits M a ta) : Fits M c tc := by
  have same : ta = tc → (∀ v, (meaning M v a).holds ↔ (meaning M v c).holds) → Fits M c tc := by
    rintro rfl e
    refine ⟨fun h1 => ?_, fun h0 => ?_⟩
    · have := hf.1 h1
      rw [ha.universal.true_iff] at this; apply trueIn_of
      exact fun v => (e v).1 (this v)
    · have := hf.2 h0
      rw [ha.universal.false_iff] at this; apply falseIn_of
      exact fun v h => this v ((e v).2 h)
  cases h with
  | negation a =>
    refine ⟨fun h1 => ?_, fun h0 => ?_⟩
    · have := hf.2 (by simp only [Tv.neg] at h1; linarith)
      rw [ha.universal.false_iff] at this; apply trueIn_of
      intro v
      have := this v
      simp only [meaning] at this
      exact not_not.1 this
    · have := hf.1 (by simp only [Tv.neg] at h0; linarith)
      rw [ha.universal.true_iff] at this; apply falseIn_of
      intro v
      have := this v
      simpa only [meaning] using this
  | decomposeSubj pre x post p => rw [usual_stmt] at ha; exact ((usual_iff.1 ha.1).1).elim
  | decomposePred pre x post p => rw [usual_stmt] at ha; exact ((usual_iff.1 ha.2).1).elim
  | decomposePar s ps x => rw [usual_stmt] at ha; exact ((usual_iff.1 ha.2).1).elim
  | productLeft x y rest rel =>
    have hl : rest = [] := by
      rw [usual_stmt] at ha
      have := (usual_iff.1 ha.1).1
      simpa [UsualShape] using this
    subst hl
    refine same rfl (fun v => ?_)
    simp only [meaning, copulaHolds, meaningL, prod2, img1]
    constructor
    · exact fun h u hu z hz => h ⟨u, hu, z, hz, rfl⟩
    · rintro h _ ⟨u, hu, z, hz, rfl⟩
      exact h hu z hz
  | productRight x y rel =>
    refine same rfl (fun v => ?_)
    simp only [meaning, copulaHolds, meaningL, prod2, img1]
    constructor
    · exact fun h u hu z hz => h ⟨z, hz, u, hu, rfl⟩
    · rintro h _ ⟨u, hu, z, hz, rfl⟩
      exact h hz u hu
  | imageLeft x y rel =>
    refine same rfl (fun v => ?_)
    simp only [meaning, copulaHolds, meaningL, prod2, img1]
    constructor
    · rintro h _ ⟨u, hu, z, hz, rfl⟩
      exact h hu z hz
    · exact fun h u hu z hz => h ⟨u, hu, z, hz, rfl⟩
  | imageRight x y rel =>
    refine same rfl (fun v => ?_)
    simp only [meaning, copulaHolds, meaningL, prod2, img1]
    constructor
    · rintro h _ ⟨u, hu, z, hz, rfl⟩
      exact h hz u hu
    · exact fun h u hu z hz => h ⟨z, hz, u, hu, rfl⟩
  | setInt a b =>
    refine same rfl (fun v => ?_)
    simp only [meaning, copulaHolds, meaningL, List.mem_singleton, forall_eq, Set.setOf_mem_eq]
    exact M.property_inj.eq_iff
  | setExt a b =>
    refine same rfl (fun v => ?_)
    simp only [meaning, copulaHolds, meaningL, List.mem_singleton, exists_eq_left, Set.setOf_mem_eq]
    exact M.individual_inj.eq_iff

end Nar
