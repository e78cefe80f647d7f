import Verif.Spec.Decl
import Verif.Lemmas.Sent
import Verif.Lemmas.MemSane
import Verif.Lemmas.Rules1
/-! # The declarative reasoner keeps sentences sane -/
namespace Nar
open Term

theorem wf_iff {t : Term} : WellFormed t ↔ Shaped t ∧ ∀ c ∈ parts t, WellFormed c := by
  constructor
  · intro h
    exact ⟨h t (.refl t), fun c hc s hs => h s (hs.trans (isSubterm_of_part hc))⟩
  · rintro ⟨h1, h2⟩ s hs
    rcases (isSubterm_iff s t).1 hs with rfl | ⟨c, hc, hs⟩
    · exact h1
    · exact h2 c hc s hs

theorem WellFormed.sub {s t : Term} (h : WellFormed t) (hs : IsSubterm s t) : WellFormed s :=
  fun u hu => h u (hu.trans hs)

theorem WellFormed.part {c t : Term} (h : WellFormed t) (hc : c ∈ parts t) : WellFormed c :=
  (wf_iff.1 h).2 c hc

theorem wf_stmt {c : Copula} {s p : Term} : WellFormed (.Stmt c s p) ↔ WellFormed s ∧ WellFormed p := by
  rw [wf_iff]; simp [parts, Shaped]

theorem complexityL_pos {ts : List Term} (hn : ts ≠ []) (h : ∀ t ∈ ts, 1 ≤ calcComplexity t) : 1 ≤ calcComplexityL ts := by
  cases ts with
  | nil => exact absurd rfl hn
  | cons a ts => have := h a (by simp); simp only [calcComplexityL]; omega

theorem WellFormed.complexity {t : Term} (h : WellFormed t) : 1 ≤ calcComplexity t := by
  induction t using Term.indParts with
  | h t ih =>
    have h1 : ∀ c ∈ parts t, 1 ≤ calcComplexity c := fun c hc => ih c hc (h.part hc)
    have h2 := (wf_iff.1 h).1
    cases t with
    | Prod ts | Conj ts =>
      simp only [calcComplexity]
      exact complexityL_pos (by rintro rfl; simp [Shaped] at h2) h1
    | Seq ts | SetInt ts | SetExt ts | IntInt ts | ExtInt ts | Par ts =>
      simp only [calcComplexity]
      exact complexityL_pos h2 h1
    | Img r i ts =>
      have := h1 r (by simp [parts])
      simp only [calcComplexity]; omega
    | _ => simp only [calcComplexity]; omega

theorem unify_vals {a b : Term} {σ : List Asgnment} (h : unify a b = some σ) : ∀ x ∈ σ, IsSubterm x.val b := by
  obtain ⟨⟨δ, e, hd⟩, _⟩ := (unify2_sound a b [] σ h).1
  intro x hx
  rw [e] at hx
  exact (hd x (by simpa using hx)).2.2.2

theorem substVar_wf {v : Term} {σ : List Asgnment} (hv : WellFormed v) (hσ : ∀ x ∈ σ, WellFormed x.val) :
    WellFormed (substVar v σ) := by
  by_cases h : ∃ a ∈ σ, a.var = v
  · obtain ⟨a, ha, _, e⟩ := substVar_mem v σ h
    rw [e]; exact hσ a ha
  · rw [substVar_not_mem v σ (fun a ha hc => h ⟨a, ha, hc⟩)]; exact hv

theorem unifySubst_wf {σ : List Asgnment} (hσ : ∀ x ∈ σ, WellFormed x.val) {t : Term} (ht : WellFormed t) :
    WellFormed (unifySubst σ t) := by
  induction t using Term.indParts with
  | h t ih =>
    have h1 : ∀ c ∈ parts t, WellFormed (unifySubst σ c) := fun c hc => ih c hc (ht.part hc)
    have h2 := (wf_iff.1 ht).1
    cases t with
    | Name n => simpa [unifySubst] using ht
    | QVar n | DepVar n | IndepVar n => simp only [unifySubst]; exact substVar_wf ht hσ
    | Stmt c s p => simp only [unifySubst]; rw [wf_stmt]; exact ⟨h1 s (by simp [parts]), h1 p (by simp [parts])⟩
    | Neg t =>
      simp only [unifySubst]; rw [wf_iff]
      exact ⟨trivial, by simpa [parts] using h1 t (by simp [parts])⟩
    | Img r i ts =>
      simp only [unifySubst, unifySubstL_eq_map]; rw [wf_iff]
      refine ⟨by simpa [Shaped] using h2, ?_⟩
      simp only [parts, List.mem_cons, List.mem_map]
      rintro c (rfl | ⟨d, hd, rfl⟩)
      · exact h1 r (by simp [parts])
      · exact h1 d (by simp [parts, hd])
    | Seq ts | SetInt ts | SetExt ts | IntInt ts | ExtInt ts | Par ts | Prod ts | Conj ts =>
      simp only [unifySubst, unifySubstL_eq_map]; rw [wf_iff]
      refine ⟨by simpa [Shaped] using h2, ?_⟩
      simp only [parts, List.mem_map]
      rintro c ⟨d, hd, rfl⟩
      exact h1 d hd

/-! ## the rules -/

theorem conjOf_wf {ts : List Term} (hn : ts ≠ []) (h : ∀ t ∈ ts, WellFormed t) : WellFormed (conjOf ts) := by
  match ts with
  | [] => exact absurd rfl hn
  | [x] => exact h x (by simp)
  | x :: y :: ts =>
    show WellFormed (.Conj (x :: y :: ts))
    rw [wf_iff]
    exact ⟨by simp [Shaped], h⟩

theorem rule2_wf {a b c : Term} {ta tb tc : Tv} (h : Rule2 a ta b tb c tc) (ha : WellFormed a) (hb : WellFormed b) :
    WellFormed c := by
  cases h with
  | setUnion x A B =>
    rw [wf_stmt] at ha hb ⊢
    refine ⟨ha.1, ?_⟩
    have h1 := wf_iff.1 ha.2
    have h2 := wf_iff.1 hb.2
    rw [wf_iff]
    refine ⟨?_, ?_⟩
    · have := h1.1
      simp only [Shaped, ne_eq] at this ⊢
      intro hc; exact this (List.append_eq_nil_iff.1 hc).1
    · intro d hd
      rcases List.mem_append.1 hd with hd | hd
      · exact h1.2 d hd
      · exact h2.2 d hd
  | intersection x p q =>
    rw [wf_stmt] at ha hb ⊢
    refine ⟨ha.1, ?_⟩
    rw [wf_iff]
    exact ⟨by simp [Shaped], by simp [parts, ha.2, hb.2]⟩
  | comparePred => rw [wf_stmt] at ha hb ⊢; exact ⟨ha.2, hb.2⟩
  | compareSubj => rw [wf_stmt] at ha hb ⊢; exact ⟨ha.1, hb.1⟩
  | deduction => rw [wf_stmt] at ha hb ⊢; exact ⟨ha.1, hb.2⟩
  | abduction => rw [wf_stmt] at ha hb ⊢; exact ⟨ha.1, hb.1⟩
  | induction => rw [wf_stmt] at ha hb ⊢; exact ⟨ha.2, hb.2⟩
  | detach p q b σ _ _ hu =>
    rw [wf_stmt] at ha
    exact unifySubst_wf (fun x hx => hb.sub (unify_vals hu x hx)) ha.2
  | conjDetach pre c post q b σ _ _ hl hu =>
    rw [wf_stmt] at ha ⊢
    have hσ : ∀ x ∈ σ, WellFormed x.val := fun x hx => hb.sub (unify_vals hu x hx)
    have h1 := wf_iff.1 ha.1
    refine ⟨conjOf_wf ?_ ?_, unifySubst_wf hσ ha.2⟩
    · have := h1.1
      simp only [Shaped, List.length_append, List.length_cons] at this
      intro hc
      have h3 := congrArg List.length hc
      simp only [List.length_map, List.length_append, List.length_nil] at h3
      omega
    · intro t ht
      obtain ⟨d, hd, rfl⟩ := List.mem_map.1 ht
      refine unifySubst_wf hσ (h1.2 d ?_)
      simp only [parts, List.mem_append, List.mem_cons] at hd ⊢
      tauto

theorem rule1_wf {a c : Term} {ta tc : Tv} (h : Rule1 a ta c tc) (ha : WellFormed a) : WellFormed c := by
  cases h with
  | negation a => exact ha.part (by simp [parts])
  | decomposeSubj pre x post p =>
    rw [wf_stmt] at ha ⊢
    exact ⟨ha.1.part (by simp [parts]), ha.2⟩
  | decomposePred pre x post p =>
    rw [wf_stmt] at ha ⊢
    exact ⟨ha.1, ha.2.part (by simp [parts])⟩
  | productLeft x y rest rel =>
    rw [wf_stmt] at ha ⊢
    refine ⟨ha.1.part (by simp [parts]), ?_⟩
    rw [wf_iff]
    exact ⟨by simp [Shaped], by simp only [parts, List.mem_cons, List.not_mem_nil, or_false]; rintro c (rfl | rfl); exacts [ha.2, ha.1.part (by simp [parts])]⟩
  | productRight x y rel =>
    rw [wf_stmt] at ha ⊢
    refine ⟨ha.1.part (by simp [parts]), ?_⟩
    rw [wf_iff]
    exact ⟨by simp [Shaped], by simp only [parts, List.mem_cons, List.not_mem_nil, or_false]; rintro c (rfl | rfl); exacts [ha.2, ha.1.part (by simp [parts])]⟩
  | imageLeft x y rel =>
    rw [wf_stmt] at ha ⊢
    refine ⟨?_, ha.2.part (by simp [parts])⟩
    rw [wf_iff]
    exact ⟨by simp [Shaped], by simp only [parts, List.mem_cons, List.not_mem_nil, or_false]; rintro c (rfl | rfl); exacts [ha.1, ha.2.part (by simp [parts])]⟩
  | imageRight x y rel =>
    rw [wf_stmt] at ha ⊢
    refine ⟨?_, ha.2.part (by simp [parts])⟩
    rw [wf_iff]
    exact ⟨by simp [Shaped], by simp only [parts, List.mem_cons, List.not_mem_nil, or_false]; rintro c (rfl | rfl); exacts [ha.2.part (by simp [parts]), ha.1]⟩
  | setInt a b => rw [wf_stmt] at ha ⊢; exact ⟨ha.1.part (by simp [parts]), ha.2.part (by simp [parts])⟩
  | setExt a b => rw [wf_stmt] at ha ⊢; exact ⟨ha.1.part (by simp [parts]), ha.2.part (by simp [parts])⟩
  | decomposePar s ps x _ hx => rw [wf_stmt] at ha ⊢; exact ⟨ha.1, ha.2.part hx⟩

theorem rule2_sane {a b c : Term} {ta tb tc : Tv} (h : Rule2 a ta b tb c tc) (ha : Tv.Sane ta) (hb : Tv.Sane tb) :
    Tv.Sane tc := by
  have hd : Tv.Sane (Tv.ded ta tb) := Tv.sane_of_range (Tv.ded_range ha.range hb.range)
    (lt_of_le_of_lt (Tv.ded_c_le_left ha.range hb.range) ha.2.2.2)
  have hc : Tv.Sane (Tv.comp ta tb) := by
    have := Tv.comp_range ha.range hb.range
    exact Tv.sane_of_range this.1 (lt_of_le_of_lt this.2.2.1 ha.2.2.2)
  have hi : Tv.Sane (Tv.int ta tb) := by
    have := Tv.int_range ha.range hb.range
    exact Tv.sane_of_range this.1 (lt_of_le_of_lt this.2.1 ha.2.2.2)
  cases h with
  | setUnion => exact hi
  | intersection => exact hi
  | comparePred => exact hc
  | compareSubj => exact hc
  | deduction => exact hd
  | abduction =>
    have := Tv.abd_range ha.range hb.range
    exact Tv.sane_of_range this.1 (lt_of_le_of_lt this.2.2.1 ha.2.2.2)
  | induction =>
    have := Tv.abd_range hb.range ha.range
    exact Tv.sane_of_range this.1 (lt_of_le_of_lt this.2.2.1 hb.2.2.2)
  | detach => exact hd
  | conjDetach => exact hd

theorem rule1_sane {a c : Term} {ta tc : Tv} (h : Rule1 a ta c tc) (ha : Tv.Sane ta) : Tv.Sane tc := by
  cases h with
  | negation => exact Tv.sane_of_range (Tv.neg_range ha.range) ha.2.2.2
  | _ => exact ha

/-! ## good sentences -/

/-- a judgement with a sane truth value about a well-formed term -/
def Good (s : Sentence) : Prop :=
  s.punct = .JUGEMENT ∧ (∃ tv, s.evi = some (.TV tv) ∧ Tv.Sane tv) ∧ WellFormed s.term

theorem Good.truth {s : Sentence} (h : Good s) : ∃ tv, HasTruth s tv ∧ Tv.Sane tv := by
  obtain ⟨_, ⟨tv, h1, h2⟩, _⟩ := h
  exact ⟨tv, by unfold HasTruth retTv; rw [h1], h2⟩

theorem Good.sane {s : Sentence} (h : Good s) : SaneBelief s := by
  obtain ⟨tv, h1, h2⟩ := h.truth
  exact ⟨tv, h1, h2⟩

theorem Good.retTv {s : Sentence} (h : Good s) {o : Option Tv} (he : retTv s = .ok o) : ∃ tv, o = some tv ∧ Tv.Sane tv := by
  obtain ⟨tv, h1, h2⟩ := h.truth
  unfold HasTruth at h1
  rw [h1] at he; cases he
  exact ⟨tv, rfl, h2⟩

theorem good_closed : SentClosed Good where
  pool _ b s r hb hs hsame hno h := by
    obtain ⟨ta, tb, tv, h1, h2, h3, rfl⟩ := revisedBelief_ok h
    obtain ⟨_, e1, sa⟩ := hb.retTv h1
    cases e1
    obtain ⟨_, e2, sb⟩ := hs.retTv h2
    cases e2
    obtain ⟨tv', e, hr⟩ := Tv.rev_sane sa sb
    rw [h3] at e; cases e
    exact ⟨hb.1, ⟨tv, rfl, hr⟩, hb.2.2⟩
  used s u h := h
  two p s c w hp hs h := by
    obtain ⟨cs, w', h, hc⟩ := h
    obtain ⟨ta, tb, rs, h1, h2, hbin, rfl⟩ := inference_ok h
    obtain ⟨ta, rfl, sa⟩ := hp.retTv h1
    obtain ⟨tb, rfl, sb⟩ := hs.retTv h2
    split at hc
    · simp at hc
    · obtain ⟨⟨t, tv, q⟩, hr, e⟩ := List.mem_map.1 hc
      cases e
      rw [hp.1, hs.1] at hbin
      have key : ∀ {a b : Term}, WellFormed a → WellFormed b →
          .ok (some (t, tv, q)) ∈ binaryRules a .JUGEMENT (some ta) b .JUGEMENT (some tb) →
          q = .JUGEMENT ∧ Tv.Sane tv ∧ WellFormed t := by
        intro a b ha hb hm
        obtain ⟨rfl, hrule⟩ := (binaryRules_iff t tv q).1 hm
        exact ⟨rfl, rule2_sane hrule sa sb, rule2_wf hrule ha hb⟩
      have : q = .JUGEMENT ∧ Tv.Sane tv ∧ WellFormed t := by
        rcases ((infBinary_ok hbin).1 _).1 hr with hm | hm
        · exact key hp.2.2 hs.2.2 hm
        · exact key hs.2.2 hp.2.2 hm
      exact ⟨this.1, ⟨tv, rfl, this.2.1⟩, this.2.2⟩
  alone p c w hp h := by
    obtain ⟨cs, h, hc⟩ := h
    obtain ⟨ta, rs, h1, hs, rfl⟩ := infSinglePremise2_ok h
    obtain ⟨⟨t, tv, q, v⟩, hr, e⟩ := List.mem_map.1 hc
    cases e
    obtain ⟨ta', rfl, _, rfl, hrule⟩ := infSinglePremise_rule hs hr
    obtain ⟨_, e, sa⟩ := hp.retTv h1
    cases e
    exact ⟨rfl, ⟨tv, rfl, rule1_sane hrule sa⟩, rule1_wf hrule hp.2.2⟩

end Nar
