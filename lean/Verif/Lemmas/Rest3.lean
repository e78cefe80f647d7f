import Verif.Lemmas.Rest2
import Verif.Props.Rules
import Verif.Props.Stamp
import Verif.Lemmas.Decl4
/-! # Helper lemmas: what can be deduced is a task when thinking has come to rest -/
namespace Nar
open Term

theorem Rule1.retold {a c : Term} {ta tc : Tv} (h : Rule1 a ta c tc) (ta' : Tv) : ∃ tc', Rule1 a ta' c tc' := by
  cases h with
  | negation => exact ⟨_, .negation _ _⟩
  | decomposeSubj _ _ _ _ _ h => exact ⟨_, .decomposeSubj _ _ _ _ _ h⟩
  | decomposePred _ _ _ _ _ h => exact ⟨_, .decomposePred _ _ _ _ _ h⟩
  | productLeft => exact ⟨_, .productLeft _ _ _ _ _⟩
  | productRight => exact ⟨_, .productRight _ _ _ _⟩
  | imageLeft => exact ⟨_, .imageLeft _ _ _ _⟩
  | imageRight => exact ⟨_, .imageRight _ _ _ _⟩
  | setInt => exact ⟨_, .setInt _ _ _⟩
  | setExt => exact ⟨_, .setExt _ _ _⟩
  | decomposePar _ _ _ _ h => exact ⟨_, .decomposePar _ _ _ _ h⟩

theorem Rule2.retold {a b c : Term} {ta tb tc : Tv} (h : Rule2 a ta b tb c tc) (ta' tb' : Tv) : ∃ tc', Rule2 a ta' b tb' c tc' := by
  cases h with
  | setUnion => exact ⟨_, .setUnion _ _ _ _ _⟩
  | intersection _ _ _ _ _ h => exact ⟨_, .intersection _ _ _ _ _ h⟩
  | comparePred _ _ _ _ _ _ _ h1 h2 h3 => exact ⟨_, .comparePred _ _ _ _ _ _ _ h1 h2 h3⟩
  | compareSubj _ _ _ _ _ _ _ h1 h2 h3 => exact ⟨_, .compareSubj _ _ _ _ _ _ _ h1 h2 h3⟩
  | deduction _ _ _ _ _ _ h1 h2 => exact ⟨_, .deduction _ _ _ _ _ _ h1 h2⟩
  | abduction _ _ _ _ _ h => exact ⟨_, .abduction _ _ _ _ _ h⟩
  | induction _ _ _ _ _ h => exact ⟨_, .induction _ _ _ _ _ h⟩
  | detach _ _ _ _ _ _ h => exact ⟨_, .detach _ _ _ _ _ _ h⟩
  | conjDetach _ _ _ _ _ _ _ _ h1 h2 => exact ⟨_, .conjDetach _ _ _ _ _ _ _ _ h1 h2⟩

/-- a rule applies to a sane statement: the conclusion is drawn, with the same evidence -/
theorem rule1_follows {p : Sentence} {c : Term} (hp : Good p) (hr : ∃ ta tc, Rule1 p.term ta c tc) :
    ∃ x w, FollowsAlone p x w ∧ x.term = c ∧ x.punct = .JUGEMENT ∧ x.stamp = p.stamp := by
  obtain ⟨ta, tc, hr⟩ := hr
  obtain ⟨tv, h1, _⟩ := hp.truth
  obtain ⟨tc', hr'⟩ := hr.retold tv
  obtain ⟨cs, h2, h3⟩ := Props.C54_single_premise_conclusions_exact p tv hp.1 h1 (by
    rintro ⟨arr, rel, e, hl⟩
    have : Shaped (.Prod arr) := hp.2.2 _ (by rw [e]; exact .inside (by simp [parts]) (.refl _))
    simp only [Shaped] at this
    omega)
  obtain ⟨⟨x, w⟩, hx, e1, _⟩ := (h3 c tc').2 hr'
  have hf : FollowsAlone p x w := ⟨cs, h2, hx⟩
  exact ⟨x, w, hf, e1, (good_closed.alone _ _ _ hp hf).1, Props.C10_single_premise_evidence p cs h2 _ hx⟩

/-- a rule applies to two sane statements with different evidence: the conclusion is drawn -/
theorem rule2_follows {p q : Sentence} {c : Term} (hp : Good p) (hq : Good q) (hd : ∀ e ∈ p.stamp.ids, e ∉ q.stamp.ids)
    (hr : (∃ ta tb tc, Rule2 p.term ta q.term tb c tc) ∨ ∃ ta tb tc, Rule2 q.term ta p.term tb c tc) :
    ∃ x w, Follows p q x w ∧ x.term = c ∧ x.punct = .JUGEMENT ∧ x.stamp = Stamp.merge p.stamp q.stamp := by
  obtain ⟨tp, h1, _⟩ := hp.truth
  obtain ⟨tq, h2, _⟩ := hq.truth
  obtain ⟨cs, u, h3, _, h4⟩ := Props.C53_two_premise_conclusions_exact p q tp tq hp.1 hq.1 h1 h2 hd
  have : ∃ tc, Rule2 p.term tp q.term tq c tc ∨ Rule2 q.term tp p.term tq c tc := by
    rcases hr with ⟨ta, tb, tc, hr⟩ | ⟨ta, tb, tc, hr⟩
    · exact (hr.retold tp tq).imp fun _ k => .inl k
    · exact (hr.retold tp tq).imp fun _ k => .inr k
  obtain ⟨tc, hc⟩ := this
  obtain ⟨⟨x, w⟩, hx, e1, _⟩ := (h4 c tc).2 hc
  have hf : Follows p q x w := ⟨cs, u, h3, hx⟩
  exact ⟨x, w, hf, e1, (good_closed.two _ _ _ _ hp hq hf).1, (Props.C10_conclusion_shares_evidence p q cs u h3 _ hx).1⟩

/-- nothing is left to do: both parts of the invariant without the worker -/
theorem Fair.rest {cfg : Cfg} {s : Sys} (hf : Fair cfg s) (hr : AtRest s) :
    (∀ t ∈ s.sh.heap, ∀ c w, FollowsAlone t.sentence c w → Concluded cfg s c) ∧
    ∀ t ∈ s.sh.heap, ∀ u ∈ s.sh.heap, (∃ x, IsSubterm x t.sentence.term ∧ IsSubterm x u.sentence.term) →
      (∀ c w, Follows t.sentence u.sentence c w → Concluded cfg s c) ∨ ∀ c w, Follows u.sentence t.sentence c w → Concluded cfg s c := by
  constructor
  · intro t ht c w h
    obtain ⟨r, hlt, e⟩ := List.getElem_of_mem ht
    have he : s.sh.heap[r]? = some t := by rw [List.getElem?_eq_getElem hlt, e]
    rcases hf.alone r hlt (by rw [hr.1]; simp) with ⟨m, hm, _⟩ | h1
    · rw [hr.2] at hm; cases hm
    · exact h1 t he c w h
  · intro t ht u hu ⟨x, hx1, hx2⟩
    obtain ⟨r, hlt, e⟩ := List.getElem_of_mem ht
    obtain ⟨r', hlt', e'⟩ := List.getElem_of_mem hu
    have he : s.sh.heap[r]? = some t := by rw [List.getElem?_eq_getElem hlt, e]
    have he' : s.sh.heap[r']? = some u := by rw [List.getElem?_eq_getElem hlt', e']
    rcases hf.pairs r r' (by rw [hr.1]; simp) (by rw [hr.1]; simp) ⟨t, u, x, he, he', hx1, hx2⟩ with (⟨m, hm, _⟩ | h1) | ⟨m, hm, _⟩ | h1
    · rw [hr.2] at hm; cases hm
    · exact .inl fun c w h => h1 t u he he' c w h
    · rw [hr.2] at hm; cases hm
    · exact .inr fun c w h => h1 u t he' he c w h

/-- everything which can be deduced is a task, with no more evidence -/
theorem deducible_known {cfg : Cfg} {s : Sys} {told : Sentence → Prop} (hf : Fair cfg s) (hr : AtRest s) (hg : ∀ t ∈ s.sh.heap, Good t.sentence)
    (ht : ∀ x, told x → x.punct = .JUGEMENT → (calcComplexity x.term : Int) ≤ cfg.maxComplexity → HasTask s.sh x)
    {t : Term} {E : List Int} (hd : Deducible cfg told t E) : ∃ k ∈ s.sh.heap, k.sentence.term = t ∧ ∀ e ∈ k.sentence.stamp.ids, e ∈ E := by
  obtain ⟨f1, f2⟩ := hf.rest hr
  induction hd with
  | told x h1 h2 h3 =>
    obtain ⟨k, hk, e1, e2⟩ := ht x h1 h2 h3
    exact ⟨k, hk, e1, by rw [e2]; exact fun _ h => h⟩
  | alone a c E _ hrule hc ih =>
    obtain ⟨k, hk, rfl, hE⟩ := ih
    obtain ⟨x, w, hx, rfl, e2, e3⟩ := rule1_follows (hg k hk) hrule
    obtain ⟨k', hk', e4, e5⟩ := f1 k hk x w hx e2 hc
    exact ⟨k', hk', e4, by rw [e5, e3]; exact hE⟩
  | both a b c E F _ _ hdis hsh hrule hc ih1 ih2 =>
    obtain ⟨k, hk, rfl, hE⟩ := ih1
    obtain ⟨l, hl, rfl, hF⟩ := ih2
    have hm : ∀ p q : Stamp, (∀ e ∈ p.ids, e ∈ E ++ F) → (∀ e ∈ q.ids, e ∈ E ++ F) → ∀ e ∈ (Stamp.merge p q).ids, e ∈ E ++ F :=
      fun p q h1 h2 e he => ((Props.C05_merge_from_parents p q).1 e he).elim (h1 e) (h2 e)
    rcases f2 k hk l hl hsh with h | h
    · obtain ⟨x, w, hx, rfl, e2, e3⟩ := rule2_follows (hg k hk) (hg l hl) (fun e h1 h2 => hdis e (hE e h1) (hF e h2)) (.inl hrule)
      obtain ⟨k', hk', e4, e5⟩ := h x w hx e2 hc
      exact ⟨k', hk', e4, by rw [e5, e3]; exact hm _ _ (fun e h => List.mem_append_left _ (hE e h)) (fun e h => List.mem_append_right _ (hF e h))⟩
    · obtain ⟨x, w, hx, rfl, e2, e3⟩ := rule2_follows (hg l hl) (hg k hk) (fun e h1 h2 => hdis e (hE e h2) (hF e h1)) (.inr hrule)
      obtain ⟨k', hk', e4, e5⟩ := h x w hx e2 hc
      exact ⟨k', hk', e4, by rw [e5, e3]; exact hm _ _ (fun e h => List.mem_append_right _ (hF e h)) (fun e h => List.mem_append_left _ (hE e h))⟩

/-- what was put in is among the tasks -/
theorem input_known {cfg : Cfg} {ops : List SysOp} {s : Sys} (h : runSys cfg ops = .ok s) {x : Sentence} {cc : Bool} {mc : Rat} {now : Int}
    (hm : SysOp.input x cc mc now ∈ ops) (hj : x.punct = .JUGEMENT) (hc : (calcComplexity x.term : Int) ≤ cfg.maxComplexity) :
    HasTask s.sh x := by
  obtain ⟨a, b, rfl⟩ := List.append_of_mem hm
  obtain ⟨s1, _, h2⟩ := moreSys_append (s := { sh := createShared, queue := [], log := [] }) h
  obtain ⟨s2, h3, h4⟩ := foldlM_cons_ok.1 h2
  simp only [SysOp.run] at h3
  obtain ⟨sh, h5, h6⟩ := R.bind_ok.1 h3
  rw [← Except.ok.inj h6] at h4
  obtain ⟨r, _, t, ht, e1, e2⟩ := Props.C20_added_is_worked_on cfg _ _ x cc mc now hj hc h5
  exact HasTask.kept (moreSys_kept h4).heap ⟨t, List.mem_of_getElem? ht, e1, e2⟩

/-- of the configuration only the limit matters -/
theorem Deducible.limit {cfg cfg' : Cfg} {told : Sentence → Prop} {t : Term} {E : List Int} (he : cfg'.maxComplexity = cfg.maxComplexity)
    (h : Deducible cfg told t E) : Deducible cfg' told t E := by
  induction h with
  | told s h1 h2 h3 => exact .told s h1 h2 (by rw [he]; exact h3)
  | alone a c E _ h1 h2 ih => exact .alone a c E ih h1 (by rw [he]; exact h2)
  | both a b c E F _ _ h1 h2 h3 h4 ih1 ih2 => exact .both a b c E F ih1 ih2 h1 h2 h3 (by rw [he]; exact h4)

end Nar
