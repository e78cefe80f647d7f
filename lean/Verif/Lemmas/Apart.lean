import Verif.Spec.Apart
import Verif.Lemmas.Topics
import Verif.Lemmas.Course2
import Verif.Lemmas.Best3
/-! # Helper lemmas: what is deduced about a topic is deduced from what was told about it -/
namespace Nar
open Term

/-- everything deduced stays within a topic -/
theorem deducible_topic {α : Type} {topic : String → α} {cfg : Cfg} {told : Sentence → Prop}
    (ht : ∀ s, told s → WellFormed s.term ∧ FactOrRule s.term ∧ OneTopic topic s.term) {t : Term} {E : List Int}
    (h : Deducible cfg told t E) : WellFormed t ∧ FactOrRule t ∧ OneTopic topic t := by
  induction h with
  | told s h1 _ _ => exact ht s h1
  | alone a c E _ h1 _ ih =>
    obtain ⟨ta, tc, h1⟩ := h1
    exact ⟨rule1_wf h1 ih.1, rule1_facts h1 ih.2.1, fun x y hx hy =>
      ih.2.2 x y (occ_name.1 (rule1_occ h1 (occ_name.2 hx))) (occ_name.1 (rule1_occ h1 (occ_name.2 hy)))⟩
  | both a b c E F _ _ _ _ h3 _ ih1 ih2 =>
    obtain ⟨ta, tb, tc, h3⟩ := h3
    exact rule2_topic topic h3 ih1.1 ih2.1 ih1.2.1 ih2.2.1 ih1.2.2 ih2.2.2

/-- what is deduced about a topic is deduced from what was told about it -/
theorem deducible_about {α : Type} {topic : String → α} {τ : α} {cfg : Cfg} {told : Sentence → Prop}
    (ht : ∀ s, told s → WellFormed s.term ∧ FactOrRule s.term ∧ OneTopic topic s.term) {t : Term} {E : List Int}
    (h : Deducible cfg told t E) (ha : About topic τ t) : Deducible cfg (fun s => told s ∧ About topic τ s.term) t E := by
  induction h with
  | told s h1 h2 h3 => exact .told s ⟨h1, ha⟩ h2 h3
  | alone a c E _ h1 h2 ih =>
    obtain ⟨x, hx, hτ⟩ := ha
    obtain ⟨ta, tc, hr⟩ := h1
    exact .alone a c E (ih ⟨x, occ_name.1 (rule1_occ hr (occ_name.2 hx)), hτ⟩) ⟨ta, tc, hr⟩ h2
  | both a b c E F d1 d2 h1 h2 h3 h4 ih1 ih2 =>
    obtain ⟨x, hx, hτ⟩ := ha
    obtain ⟨ta, tb, tc, hr⟩ := h3
    obtain ⟨w1, f1, o1⟩ := deducible_topic ht d1
    obtain ⟨w2, f2, o2⟩ := deducible_topic ht d2
    obtain ⟨z, za, zb⟩ := rule2_shares hr w1 w2 f1 f2
    have hz : topic z = τ := by
      rcases rule2_occ hr (occ_name.2 hx) with k | k
      · rw [← hτ]; exact o1 _ _ za (occ_name.1 k)
      · rw [← hτ]; exact o2 _ _ zb (occ_name.1 k)
    exact .both a b c E F (ih1 ⟨z, za, hz⟩) (ih2 ⟨z, zb, hz⟩) h1 h2 ⟨ta, tb, tc, hr⟩ h4

theorem numberedIn_sane {as : List Lecture} (hf : ∀ a ∈ as, a.Fine) : ∀ {n : Nat} {p : Nat × Term × Tv}, p ∈ numberedIn n as →
    SaneStatement p.2.1 p.2.2 := by
  induction as with
  | nil => intro n p h; cases h
  | cons a as ih =>
    have ih := @ih (fun a ha => hf a (by simp [ha]))
    intro n p h
    cases a with
    | tell st =>
      rcases List.mem_cons.1 h with rfl | h
      · exact ((hf (.tell st) (by simp)).2.1 rfl rfl).2
      · exact ih h
    | ask q => exact ih (n := n + 1) h
    | cycle v => exact ih (n := n) h
    | work => exact ih (n := n) h

theorem lectured_topic {α : Type} {topic : String → α} {as : List Lecture} (hf : ∀ a ∈ as, a.Fine)
    (ht : ∀ t ∈ toldTerms as, SticksToTopic topic t) (s : Sentence) (h : Lectured as s) :
    WellFormed s.term ∧ FactOrRule s.term ∧ OneTopic topic s.term := by
  obtain ⟨p, hp, rfl⟩ := h
  have h1 := ht _ (List.mem_map.2 ⟨p, hp, rfl⟩)
  exact ⟨(numberedIn_sane hf hp).1, h1.1, h1.2⟩

/-- who was told the same about a topic can deduce the same about it -/
theorem deducible_same {α : Type} {topic : String → α} {τ : α} {cfg : Cfg} {as as' : List Lecture} (hf : ∀ a ∈ as, a.Fine)
    (ht : ∀ t ∈ toldTerms as, SticksToTopic topic t) (hs : SameAbout topic τ as as') {t : Term} {E : List Int}
    (h : Deducible cfg (Lectured as) t E) (ha : About topic τ t) : ∃ E', Deducible cfg (Lectured as') t E' := by
  obtain ⟨mine, hm, hp⟩ := hs
  have hd := deducible_about (lectured_topic hf ht) h ha
  have e : ∀ l : List Lecture, (toldTerms l).filter mine = ((numberedIn 0 l).filter (fun p => mine p.2.1)).map (·.2.1) := by
    intro l
    unfold toldTerms
    rw [List.filter_map]
    rfl
  rw [e, e] at hp
  have hn : (((numberedIn 0 as').filter (fun p => mine p.2.1)).map (·.1)).Nodup := ((List.filter_sublist.map _).nodup (numberedIn_nodup as' 0))
  obtain ⟨R, h1, h2⟩ := renumbered hn hp.subperm
  obtain ⟨F, k, _⟩ := hd.moved (cfg' := cfg) rfl (told' := Lectured as') h1 (by
    rintro s ⟨⟨p, hp, rfl⟩, hab⟩ _
    have hmem : p.2.1 ∈ toldTerms as := List.mem_map.2 ⟨p, hp, rfl⟩
    obtain ⟨p', q1, q2, q3⟩ := h2 p (List.mem_filter.2 ⟨hp, (hm _ (.inl hmem)).2 hab⟩)
    refine ⟨_, ⟨p', (List.mem_filter.1 q1).1, rfl⟩, rfl, q2, fun x hx => ?_⟩
    have : x = (p'.1 : Int) := by simpa [toldAs, newEternalSentenceByTv] using hx
    exact ⟨p.1, by simp [toldAs, newEternalSentenceByTv], this ▸ q3⟩)
  exact ⟨F, k⟩

theorem SameAbout.symm {α : Type} {topic : String → α} {τ : α} {as as' : List Lecture} (h : SameAbout topic τ as as') :
    SameAbout topic τ as' as := by
  obtain ⟨mine, h1, h2⟩ := h
  exact ⟨mine, fun t ht => h1 t ht.symm, h2.symm⟩

end Nar
