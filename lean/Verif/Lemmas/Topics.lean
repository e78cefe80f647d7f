import Verif.Spec.Topics
import Verif.Lemmas.Meaning2
/-! # Conclusions stay within a topic -/
namespace Nar
open Term

theorem occ_name {t : Term} {x : String} : Occ (.Name x) t ↔ Mentions t x := ⟨fun h => h.2, fun h => ⟨trivial, h⟩⟩

theorem var_atom {v : Term} (h : IsVar v) : IsAtom v := by cases v <;> simp_all [IsVar, IsAtom]

theorem ground_occ {t : Term} : Ground t ↔ ∀ v, IsVar v → ¬ Occ v t :=
  ⟨fun h v hv ho => h v hv ho.2, fun h v hv hs => h v hv ⟨var_atom hv, hs⟩⟩

theorem Term.Ground.sub {s t : Term} (h : Ground t) (hs : IsSubterm s t) : Ground s := fun v hv hvs => h v hv (hvs.trans hs)

theorem ground_stmt {c : Copula} {s p : Term} : Ground (.Stmt c s p) ↔ Ground s ∧ Ground p := by
  simp only [ground_occ, occ_stmt]
  constructor
  · intro h; exact ⟨fun v hv ho => h v hv (.inl ho), fun v hv ho => h v hv (.inr ho)⟩
  · rintro ⟨h1, h2⟩ v hv (h | h)
    · exact h1 v hv h
    · exact h2 v hv h

theorem wf_atom {t : Term} (h : WellFormed t) : ∃ x, Occ x t := by
  induction t using Term.indParts with
  | h t ih =>
    by_cases ha : IsAtom t
    · exact ⟨t, ha, .refl t⟩
    · have : ∃ c, c ∈ parts t := by
        have h2 := (wf_iff.1 h).1
        cases t with
        | Prod ts | Conj ts =>
          cases ts with
          | nil => simp [Shaped] at h2
          | cons a ts => exact ⟨a, by simp [parts]⟩
        | Seq ts | SetInt ts | SetExt ts | IntInt ts | ExtInt ts | Par ts =>
          cases ts with
          | nil => simp [Shaped] at h2
          | cons a ts => exact ⟨a, by simp [parts]⟩
        | Img r i ts => exact ⟨r, by simp [parts]⟩
        | Stmt c s p => exact ⟨s, by simp [parts]⟩
        | Neg t => exact ⟨t, by simp [parts]⟩
        | _ => simp [IsAtom] at ha
      obtain ⟨c, hc⟩ := this
      obtain ⟨x, hx⟩ := ih c hc (h.part hc)
      exact ⟨x, occ_mono hx (isSubterm_of_part hc)⟩

theorem ground_named {t : Term} (h : WellFormed t) (hg : Ground t) : ∃ x, Mentions t x := by
  obtain ⟨a, ha, hs⟩ := wf_atom h
  cases a with
  | Name x => exact ⟨x, hs⟩
  | QVar _ | DepVar _ | IndepVar _ => exact absurd hs (hg _ trivial)
  | _ => exact ha.elim

/-! ## substitution -/

theorem occ_subst_stays {x : Term} {σ : List Asgnment} (hx : IsVar x → substVar x σ = x) (t : Term) (h : Occ x t) :
    Occ x (unifySubst σ t) := by
  induction t using Term.indParts with
  | h t ih =>
    by_cases ha : IsAtom t
    · have : x = t := by
        rcases (isSubterm_iff _ _).1 h.2 with e | ⟨c, hc, _⟩
        · exact e
        · cases t <;> simp_all [IsAtom, parts]
      subst this
      have : unifySubst σ x = x := by
        cases x <;> simp_all [IsAtom, IsVar, unifySubst]
      rw [this]; exact h
    · have hv : ¬ IsVar t := fun k => ha (var_atom k)
      rw [occ_iff_parts ha] at h
      rw [occ_iff_parts (isAtom_unifySubst ha), parts_unifySubst hv]
      obtain ⟨c, hc, ho⟩ := h
      exact ⟨_, List.mem_map_of_mem hc, ih c hc ho⟩

theorem occ_subst_left {x : Term} {σ : List Asgnment} (hx : IsVar x) (hσ : ∀ a ∈ σ, Ground a.val) (t : Term)
    (h : Occ x (unifySubst σ t)) : Occ x t ∧ substVar x σ = x := by
  induction t using Term.indParts with
  | h t ih =>
    by_cases hv : IsVar t
    · have e : unifySubst σ t = substVar t σ := by cases t <;> simp_all [IsVar, unifySubst]
      rw [e] at h
      by_cases hk : ∃ a ∈ σ, a.var = t
      · obtain ⟨a, ha, _, e⟩ := substVar_mem t σ hk
        rw [e] at h
        exact absurd h.2 (hσ a ha x hx)
      · have e := substVar_not_mem t σ (fun a ha hc => hk ⟨a, ha, hc⟩)
        rw [e] at h
        have : x = t := by
          rcases (isSubterm_iff _ _).1 h.2 with e | ⟨c, hc, _⟩
          · exact e
          · cases t <;> simp_all [IsVar, parts]
        subst this
        exact ⟨h, e⟩
    · by_cases ha : IsAtom t
      · have : unifySubst σ t = t := by cases t <;> simp_all [IsVar, IsAtom, unifySubst]
        rw [this] at h
        rcases (isSubterm_iff _ _).1 h.2 with e | ⟨c, hc, _⟩
        · subst e; exact absurd hx hv
        · cases t <;> simp_all [IsAtom, parts]
      · rw [occ_iff_parts (isAtom_unifySubst ha), parts_unifySubst hv] at h
        obtain ⟨c, hc, ho⟩ := h
        obtain ⟨d, hd, rfl⟩ := List.mem_map.1 hc
        obtain ⟨h1, h2⟩ := ih d hd ho
        exact ⟨(occ_iff_parts ha).2 ⟨d, hd, h1⟩, h2⟩

theorem unify_eq {p b : Term} {σ : List Asgnment} (h : unify p b = some σ) : unifySubst σ p = b :=
  (unify2_sound p b [] σ h).2 σ (List.prefix_refl _)

/-- a name of the pattern occurs in what matches it -/
theorem unify_mentions {p b : Term} {σ : List Asgnment} (h : unify p b = some σ) {x : String} (hx : Mentions p x) : Mentions b x := by
  rw [← unify_eq h]
  exact occ_name.1 (occ_subst_stays (fun k => by cases k) p (occ_name.2 hx))

theorem unify_ground_pattern {p b : Term} {σ : List Asgnment} (h : unify p b = some σ) (hg : Ground p) : Ground b := by
  rw [ground_occ]
  intro v hv ho
  have hvars : ∀ a ∈ σ, IsSubterm a.var p ∧ IsVar a.var := by
    obtain ⟨⟨δ, e, hd⟩, _⟩ := (unify2_sound p b [] σ h).1
    intro a ha
    rw [e] at ha
    have := hd a (by simpa using ha)
    exact ⟨this.2.1, this.1⟩
  have : σ = [] := by
    rw [List.eq_nil_iff_forall_not_mem]
    intro a ha
    exact hg _ (hvars a ha).2 (hvars a ha).1
  subst this
  rw [← unify_eq h] at ho
  exact hg v hv (occ_subst_left hv (fun a ha => by cases ha) p ho).1.2

/-! ## facts and rules -/

theorem FactOrRule.ground {c : Copula} {s p : Term} (h : FactOrRule (.Stmt c s p)) (hc : c ≠ .IMPL) : Ground (.Stmt c s p) := by
  rcases h with h | ⟨p', q, e, _⟩
  · exact h
  · cases e; exact absurd rfl hc

/-- the conditions of a rule are not about nothing -/
theorem rule_named {p q : Term} (hw : WellFormed p) (h : FactOrRule (.Stmt .IMPL p q)) : ∃ x, Mentions p x := by
  rcases h with h | ⟨p', q', e, hc, _⟩
  · exact ground_named hw (ground_stmt.1 h).1
  · cases e
    cases p with
    | Conj ts =>
      have h2 := (wf_iff.1 hw).1
      cases ts with
      | nil => simp [Shaped] at h2
      | cons a ts =>
        obtain ⟨_, _, _, _, _, x, hx⟩ := hc a (by simp [conditionsOf])
        exact ⟨x, hx.trans (isSubterm_of_part (by simp [parts]))⟩
    | _ =>
      obtain ⟨_, _, _, _, _, x, hx⟩ := hc _ (by simp only [conditionsOf, List.mem_singleton]; rfl)
      exact ⟨x, hx⟩

/-- what matches a named condition is about particular things -/
theorem condition_ground {c b : Term} {σ : List Asgnment} (hc : NamedCondition c) (h : unify c b = some σ) (hb : FactOrRule b) :
    Ground b := by
  obtain ⟨cop, s, p, rfl, hcop, _⟩ := hc
  have e := unify_eq h
  simp only [unifySubst] at e
  subst e
  exact hb.ground (by rintro rfl; simp at hcop)

/-- what matches all conditions of a rule is about particular things -/
theorem conditions_ground {p q b : Term} {σ : List Asgnment} (hr : FactOrRule (.Stmt .IMPL p q)) (h : unify p b = some σ)
    (hb : FactOrRule b) : Ground b := by
  rcases hr with hr | ⟨p', q', e, hc, _⟩
  · exact unify_ground_pattern h (ground_stmt.1 hr).1
  · cases e
    cases p with
    | Conj ts =>
      have e := unify_eq h
      simp only [unifySubst] at e
      subst e
      rcases hb with hb | ⟨_, _, e, _⟩
      · exact hb
      · cases e
    | _ => exact condition_ground (hc _ (by simp only [conditionsOf, List.mem_singleton])) h hb

/-- the premises of a conclusion mention something in common -/
theorem rule2_shares {a b c : Term} {ta tb tc : Tv} (h : Rule2 a ta b tb c tc) (wa : WellFormed a) (wb : WellFormed b)
    (fa : FactOrRule a) (fb : FactOrRule b) : ∃ x, Mentions a x ∧ Mentions b x := by
  have common : ∀ (m : Term), IsSubterm m a → IsSubterm m b → (∃ x, Mentions m x) → ∃ x, Mentions a x ∧ Mentions b x := by
    rintro m h1 h2 ⟨x, hx⟩
    exact ⟨x, hx.trans h1, hx.trans h2⟩
  have left : ∀ (cop : Copula) (s p : Term), IsSubterm s (.Stmt cop s p) := fun _ _ _ => isSubterm_of_part (by simp [parts])
  have right : ∀ (cop : Copula) (s p : Term), IsSubterm p (.Stmt cop s p) := fun _ _ _ => isSubterm_of_part (by simp [parts])
  cases h with
  | setUnion x A B => 
    exact common x (left _ _ _) (left _ _ _) (ground_named (wf_stmt.1 wa).1 (ground_stmt.1 (fa.ground (by simp))).1)
  | intersection x p q =>
    exact common x (left _ _ _) (left _ _ _) (ground_named (wf_stmt.1 wa).1 (ground_stmt.1 (fa.ground (by simp))).1)
  | comparePred ca cb x p q _ _ h1 h2 =>
    exact common x (left _ _ _) (left _ _ _)
      (ground_named (wf_stmt.1 wa).1 (ground_stmt.1 (fa.ground (by rintro rfl; simp at h1))).1)
  | compareSubj ca cb x p q _ _ h1 h2 =>
    exact common x (right _ _ _) (right _ _ _)
      (ground_named (wf_stmt.1 wa).2 (ground_stmt.1 (fa.ground (by rintro rfl; simp at h1))).2)
  | deduction cop S M P _ _ h1 =>
    refine common M (right _ _ _) (left _ _ _) ?_
    by_cases hc : cop = .IMPL
    · subst hc; exact rule_named (wf_stmt.1 wb).1 fb
    · exact ground_named (wf_stmt.1 wa).2 (ground_stmt.1 (fa.ground hc)).2
  | abduction S M P =>
    exact common M (right _ _ _) (right _ _ _) (ground_named (wf_stmt.1 wa).2 (ground_stmt.1 (fa.ground (by simp))).2)
  | induction S M P =>
    exact common M (left _ _ _) (left _ _ _) (ground_named (wf_stmt.1 wa).1 (ground_stmt.1 (fa.ground (by simp))).1)
  | detach p q b σ _ _ hu =>
    obtain ⟨x, hx⟩ := rule_named (wf_stmt.1 wa).1 fa
    exact ⟨x, hx.trans (left _ _ _), unify_mentions hu hx⟩
  | conjDetach pre c post q b σ _ _ _ hu =>
    have hcp : IsSubterm c (.Conj (pre ++ c :: post)) := isSubterm_of_part (by simp [parts])
    have : ∃ x, Mentions c x := by
      rcases fa with fa | ⟨p', q', e, hc, _⟩
      · exact ground_named ((wf_stmt.1 wa).1.sub hcp) ((Term.Ground.sub (ground_stmt.1 fa).1 hcp))
      · cases e
        obtain ⟨_, _, _, _, _, x, hx⟩ := hc c (by simp [conditionsOf])
        exact ⟨x, hx⟩
    obtain ⟨x, hx⟩ := this
    exact ⟨x, (hx.trans hcp).trans (left _ _ _), unify_mentions hu hx⟩

theorem named_subst {c : Term} (σ : List Asgnment) (h : NamedCondition c) : NamedCondition (unifySubst σ c) := by
  obtain ⟨cop, s, p, rfl, hcop, x, hx⟩ := h
  refine ⟨cop, unifySubst σ s, unifySubst σ p, by simp [unifySubst], hcop, x, ?_⟩
  exact occ_name.1 (occ_subst_stays (fun k => by cases k) _ (occ_name.2 hx))

theorem conditionsOf_conjOf {ts : List Term} (h : ∀ t ∈ ts, NamedCondition t) :
    ∀ t ∈ conditionsOf (conjOf ts), NamedCondition t := by
  rcases ts with _ | ⟨y, _ | ⟨z, ts⟩⟩
  · intro t ht; simp [conjOf, conditionsOf] at ht
  · obtain ⟨cop, s, p, rfl, k⟩ := h y (by simp)
    intro t ht
    simp only [conjOf, conditionsOf, List.mem_singleton] at ht
    subst ht
    exact ⟨cop, s, p, rfl, k⟩
  · exact h

theorem occ_conjOf_iff {x : Term} {ts : List Term} : Occ x (conjOf ts) ↔ ∃ c ∈ ts, Occ x c := by
  refine ⟨occ_conjOf, ?_⟩
  rcases ts with _ | ⟨y, _ | ⟨z, ts⟩⟩
  · simp
  · rintro ⟨c, hc, h⟩
    rw [List.mem_singleton] at hc; subst hc; exact h
  · exact occ_conj.2

/-- conclusions of facts and rules are facts and rules -/
theorem rule2_facts {a b c : Term} {ta tb tc : Tv} (h : Rule2 a ta b tb c tc) (fa : FactOrRule a) (fb : FactOrRule b) :
    FactOrRule c := by
  have both : Ground a → Ground b → FactOrRule c := fun ga gb => .inl (ground_occ.2 fun v hv ho => by
    rcases rule2_occ h ho with ho | ho
    · exact ground_occ.1 ga v hv ho
    · exact ground_occ.1 gb v hv ho)
  cases h with
  | setUnion | intersection | abduction | induction => exact both (fa.ground (by simp)) (fb.ground (by simp))
  | comparePred _ _ _ _ _ _ _ h1 h2 | compareSubj _ _ _ _ _ _ _ h1 h2 =>
    exact both (fa.ground (by rintro rfl; simp at h1)) (fb.ground (by rintro rfl; simp at h2))
  | deduction cop S M P _ _ h1 =>
    by_cases hc : cop = .IMPL
    · subst hc
      rcases fa with ga | ⟨p, q, e, hc, hv⟩
      · refine .inl (ground_stmt.2 ⟨(ground_stmt.1 ga).1, ?_⟩)
        rcases fb with gb | ⟨p, q, e, hc, hv⟩
        · exact (ground_stmt.1 gb).2
        · cases e
          exact fun v hv' hs => (ground_stmt.1 ga).2 v hv' (hv v hv' hs)
      · cases e
        refine .inr ⟨_, _, rfl, hc, fun v hv' hs => hv v hv' ?_⟩
        rcases fb with gb | ⟨p, q, e, hc, hw⟩
        · exact absurd hs ((ground_stmt.1 gb).2 v hv')
        · cases e
          exact hw v hv' hs
    · exact both (fa.ground hc) (fb.ground hc)
  | detach p q b σ _ _ hu =>
    have gb := conditions_ground fa hu fb
    have gσ : ∀ a ∈ σ, Ground a.val := fun a ha => Term.Ground.sub gb (unify_vals hu a ha)
    refine .inl (ground_occ.2 fun v hv ho => ?_)
    obtain ⟨h1, h2⟩ := occ_subst_left hv gσ q ho
    rcases fa with ga | ⟨p', q', e, _, hvars⟩
    · exact ground_occ.1 (ground_stmt.1 ga).2 v hv h1
    · cases e
      have := occ_subst_stays (fun _ => h2) p ⟨var_atom hv, hvars v hv h1.2⟩
      rw [unify_eq hu] at this
      exact gb v hv this.2
  | conjDetach pre d post q b σ _ _ _ hu =>
    rcases fa with ga | ⟨p', q', e, hc, hvars⟩
    · have hd : IsSubterm d (.Stmt .IMPL (.Conj (pre ++ d :: post)) q) :=
        (isSubterm_of_part (t := .Conj (pre ++ d :: post)) (by simp [parts])).trans (isSubterm_of_part (by simp [parts]))
      exact both ga (unify_ground_pattern hu (Term.Ground.sub ga hd))
    · cases e
      have gb := condition_ground (hc d (by simp [conditionsOf])) hu fb
      have gσ : ∀ a ∈ σ, Ground a.val := fun a ha => Term.Ground.sub gb (unify_vals hu a ha)
      refine .inr ⟨_, _, rfl, conditionsOf_conjOf ?_, ?_⟩
      · intro t ht
        obtain ⟨e, he, rfl⟩ := List.mem_map.1 ht
        refine named_subst σ (hc e ?_)
        simp only [conditionsOf, List.mem_append, List.mem_cons] at he ⊢
        tauto
      · intro v hv hs
        obtain ⟨h1, h2⟩ := occ_subst_left hv gσ q ⟨var_atom hv, hs⟩
        have h3 : Occ v (.Conj (pre ++ d :: post)) := ⟨var_atom hv, hvars v hv h1.2⟩
        obtain ⟨e, he, ho⟩ := occ_conj.1 h3
        have h4 := occ_subst_stays (fun _ => h2) e ho
        simp only [List.mem_append, List.mem_cons] at he
        have : e ≠ d := by
          rintro rfl
          rw [unify_eq hu] at h4
          exact gb v hv h4.2
        refine (occ_conjOf_iff.2 ⟨_, List.mem_map_of_mem (a := e) ?_, h4⟩).2
        simp only [List.mem_append]; tauto

theorem rule1_facts {a c : Term} {ta tc : Tv} (h : Rule1 a ta c tc) (fa : FactOrRule a) : FactOrRule c := by
  have : Ground a := by
    rcases fa with fa | ⟨p, q, rfl, _⟩
    · exact fa
    · cases h
  exact .inl (ground_occ.2 fun v hv ho => ground_occ.1 this v hv (rule1_occ h ho))

/-- what follows from two judgements follows by one of the rules, from the premises in either order -/
theorem follows_rule {p s c : Sentence} {w : Rat} (hp : p.punct = .JUGEMENT) (hs : s.punct = .JUGEMENT) (h : Follows p s c w) :
    c.punct = .JUGEMENT ∧ ∃ ta tb tc, Rule2 p.term ta s.term tb c.term tc ∨ Rule2 s.term ta p.term tb c.term tc := by
  obtain ⟨cs, w', h, hc⟩ := h
  obtain ⟨ta, tb, rs, h1, h2, hbin, rfl⟩ := inference_ok h
  split at hc
  · simp at hc
  · obtain ⟨⟨t, tv, q⟩, hr, e⟩ := List.mem_map.1 hc
    cases e
    rw [hp, hs] at hbin
    rcases ((infBinary_ok hbin).1 _).1 hr with hm | hm
    · rcases binaryRules_some hm with ⟨_, _, ta', tb', rfl, rfl⟩ | ⟨k, _⟩
      · obtain ⟨rfl, hrule⟩ := (binaryRules_iff t tv q).1 hm
        exact ⟨rfl, _, _, _, .inl hrule⟩
      · cases k
    · rcases binaryRules_some hm with ⟨_, _, ta', tb', rfl, rfl⟩ | ⟨k, _⟩
      · obtain ⟨rfl, hrule⟩ := (binaryRules_iff t tv q).1 hm
        exact ⟨rfl, _, _, _, .inr hrule⟩
      · cases k

/-- what follows from a single sentence follows by one of the rules -/
theorem followsAlone_rule {p c : Sentence} {w : Rat} (h : FollowsAlone p c w) :
    c.punct = .JUGEMENT ∧ ∃ ta tc, Rule1 p.term ta c.term tc := by
  obtain ⟨cs, h, hc⟩ := h
  obtain ⟨ta, rs, h1, hs, rfl⟩ := infSinglePremise2_ok h
  obtain ⟨⟨t, tv, q, v⟩, hr, e⟩ := List.mem_map.1 hc
  cases e
  obtain ⟨ta', rfl, _, rfl, hrule⟩ := infSinglePremise_rule hs hr
  exact ⟨rfl, _, _, hrule⟩

/-! ## the whole reasoner -/

/-- a judgement which is a fact or a rule and stays within a topic -/
def OnTopic {α : Type} (topic : String → α) (s : Sentence) : Prop :=
  s.punct = .JUGEMENT ∧ WellFormed s.term ∧ FactOrRule s.term ∧ OneTopic topic s.term

variable {α : Type} (topic : String → α)

theorem rule2_topic {a b c : Term} {ta tb tc : Tv} (h : Rule2 a ta b tb c tc) (wa : WellFormed a) (wb : WellFormed b)
    (fa : FactOrRule a) (fb : FactOrRule b) (oa : OneTopic topic a) (ob : OneTopic topic b) :
    WellFormed c ∧ FactOrRule c ∧ OneTopic topic c := by
  refine ⟨rule2_wf h wa wb, rule2_facts h fa fb, ?_⟩
  obtain ⟨z, za, zb⟩ := rule2_shares h wa wb fa fb
  have key : ∀ x, Mentions c x → topic x = topic z := by
    intro x hx
    rcases rule2_occ h (occ_name.2 hx) with k | k
    · exact oa _ _ (occ_name.1 k) za
    · exact ob _ _ (occ_name.1 k) zb
  exact fun x y hx hy => (key x hx).trans (key y hy).symm

theorem onTopic_closed : SentClosed (OnTopic topic) where
  pool _ b s r hb hs hsame hno h := by
    obtain ⟨ta, tb, tv, h1, h2, h3, rfl⟩ := revisedBelief_ok h
    exact hb
  used s u h := h
  two p s c w hp hs h := by
    obtain ⟨hc, ta, tb, tc, hrule | hrule⟩ := follows_rule hp.1 hs.1 h
    · exact ⟨hc, rule2_topic topic hrule hp.2.1 hs.2.1 hp.2.2.1 hs.2.2.1 hp.2.2.2 hs.2.2.2⟩
    · exact ⟨hc, rule2_topic topic hrule hs.2.1 hp.2.1 hs.2.2.1 hp.2.2.1 hs.2.2.2 hp.2.2.2⟩
  alone p c w hp h := by
    obtain ⟨hc, ta, tc, hrule⟩ := followsAlone_rule h
    refine ⟨hc, rule1_wf hrule hp.2.1, rule1_facts hrule hp.2.2.1, fun x y hx hy => ?_⟩
    exact hp.2.2.2 x y (occ_name.1 (rule1_occ hrule (occ_name.2 hx))) (occ_name.1 (rule1_occ hrule (occ_name.2 hy)))

theorem runNar_onTopic {env : Env} {ops : List NarOp} {r : Reasoner} (h : runNar env ops = .ok r)
    (hf : FactsAndRules env ops) (ht : ∀ t, WasTold env ops t → OneTopic topic t) :
    RInv (fun _ => OnTopic topic) (fun _ => True) r := by
  refine (moreNar_RInv ⟨fun _ => onTopic_closed topic, fun _ _ _ _ h => h⟩ h ?_ (fun _ _ _ _ _ _ _ => trivial)
    (createNar_RInv _ _)).1
  intro pre post op r0 he hr term tv hk n _
  have k : WasTold env ops term := ⟨pre, op, post, r0, tv, he, hr, hk⟩
  exact ⟨rfl, (hf term k).1, (hf term k).2, ht term k⟩

/-- a judgement whose atoms all occur in something told -/
def FromTold (env : Env) (ops : List NarOp) (s : Sentence) : Prop :=
  s.punct = .JUGEMENT ∧ ∀ x, Occ x s.term → ∃ t, WasTold env ops t ∧ IsSubterm x t

theorem fromTold_closed (env : Env) (ops : List NarOp) : SentClosed (FromTold env ops) where
  pool _ b s r hb hs hsame hno h := by
    obtain ⟨ta, tb, tv, h1, h2, h3, rfl⟩ := revisedBelief_ok h
    exact hb
  used s u h := h
  two p s c w hp hs h := by
    obtain ⟨hc, ta, tb, tc, hrule | hrule⟩ := follows_rule hp.1 hs.1 h
    · exact ⟨hc, fun x hx => (rule2_occ hrule hx).elim (hp.2 x) (hs.2 x)⟩
    · exact ⟨hc, fun x hx => (rule2_occ hrule hx).elim (hs.2 x) (hp.2 x)⟩
  alone p c w hp h := by
    obtain ⟨hc, ta, tc, hrule⟩ := followsAlone_rule h
    exact ⟨hc, fun x hx => hp.2 x (rule1_occ hrule hx)⟩

theorem runNar_fromTold {env : Env} {ops : List NarOp} {r : Reasoner} (h : runNar env ops = .ok r) :
    RInv (fun _ => FromTold env ops) (fun _ => True) r := by
  refine (moreNar_RInv ⟨fun _ => fromTold_closed env ops, fun _ _ _ _ h => h⟩ h ?_ (fun _ _ _ _ _ _ _ => trivial)
    (createNar_RInv _ _)).1
  intro pre post op r0 he hr term tv hk n _
  exact ⟨rfl, fun x hx => ⟨term, ⟨pre, op, post, r0, tv, he, hr, hk⟩, hx.2⟩⟩

end Nar
