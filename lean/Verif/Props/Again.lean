import Verif.Lemmas.Again
import Verif.Lemmas.Longago3
import Verif.Props.Course
/-! # Property theorems: what is said again (C125) -/
namespace Nar.Props
open Nar Term

/-- C125: however often things are said, at no time anything is known which does not follow from the statements told by the rules. -/
theorem C125_only_implied (env : Env) (k : Nat) (as : List Lecture) (r : Reasoner) (hf : ∀ a ∈ as, a.Fine) (hi : inputsIn as ≤ 120)
    (h : runNar env (course k as) = .ok r) (cfg : Cfg) (hcfg : cfg.maxComplexity = 64) (t : Term) (ht : IsKnown r t) :
    Implied cfg (· ∈ toldTerms as) t := by
  obtain ⟨ops, g1, g2, _⟩ := course_sim hf h
  obtain ⟨x, hx, rfl⟩ := ht
  obtain ⟨E, hd, _⟩ := C119_only_deducible (r.cfg env) ops r.sys g1 g2.sane _ (by simpa using hi) g2.evidence x hx
  obtain ⟨F, h1, _⟩ := g2.deducible (cfg' := cfg) (by rw [hcfg, g2.complexity]) hd
  refine h1.implied ?_
  rintro s ⟨p, hp, rfl⟩
  exact List.mem_map.2 ⟨p, hp, rfl⟩

/-- C125: whatever follows from the statements by the rules, if each of them may be used again and again, is known in the end if each of them
was told often enough, in whatever order, with whatever truth values, and however much was thought in between. -/
theorem C125_often_enough_partial (cfg : Cfg) (hcfg : cfg.maxComplexity = 64) (told : Term → Prop) (t : Term) (ht : Implied cfg told t) :
    ∃ n, ∀ (env : Env) (k : Nat) (as : List Lecture) (r : Reasoner), (∀ a ∈ as, a.Fine) → cyclesOf as < 111 → inputsIn as ≤ 120 →
      (∀ x, told x → n ≤ (toldTerms as).count x) → runNar env (course k as) = .ok r → Finished r → IsKnown r t := by
  obtain ⟨n, hn⟩ := ht.often
  exact ⟨n, fun env k as r hf hc hi hx h fin => (C119_course_exact env k as r hf hc hi h fin cfg hcfg t).2 (hn as hx)⟩

/-- C125: saying again what was said takes away nothing from what is known in the end, and leads to nothing which does not follow by the rules
from what was said before: `more` are statements which were told already, questions, cycles and rounds of the worker in any arrangement. -/
theorem C125_nothing_lost_partial (env : Env) (k : Nat) (as more : List Lecture) (r r' : Reasoner) (hf : ∀ a ∈ as ++ more, a.Fine)
    (hc : cyclesOf (as ++ more) < 111) (hi : inputsIn (as ++ more) ≤ 120) (hm : ∀ t ∈ toldTerms more, t ∈ toldTerms as)
    (h : runNar env (course k as) = .ok r) (h' : runNar env (course k (as ++ more)) = .ok r') (fin' : Finished r')
    (cfg : Cfg) (hcfg : cfg.maxComplexity = 64) :
    (∀ t, IsKnown r t → IsKnown r' t) ∧ ∀ t, IsKnown r' t → Implied cfg (· ∈ toldTerms as) t := by
  have hf1 : ∀ a ∈ as, a.Fine := fun a ha => hf a (by simp [ha])
  have hi1 : inputsIn as ≤ 120 := by rw [inputsIn_append] at hi; omega
  have happ : toldTerms (as ++ more) = toldTerms as ++ toldTerms more := by
    unfold toldTerms
    rw [numberedIn_append, List.map_append, numberedIn_terms more (0 + inputsIn as) 0]
  constructor
  · rintro t ⟨x, hx, rfl⟩
    obtain ⟨ops, g1, g2, _⟩ := course_sim hf1 h
    obtain ⟨E, hd, _⟩ := C119_only_deducible (r.cfg env) ops r.sys g1 g2.sane _ (by simpa using hi1) g2.evidence x hx
    obtain ⟨F, h1, _⟩ := g2.deducible (cfg' := cfg) (by rw [hcfg, g2.complexity]) hd
    refine (C119_course_exact env k (as ++ more) r' hf hc hi h' fin' cfg hcfg _).2 (deducible_told (as' := as ++ more) ?_ h1)
    rw [happ]
    exact (List.sublist_append_left _ _).subperm
  · intro t ht
    have := C125_only_implied env k (as ++ more) r' hf hi h' cfg hcfg t ht
    refine this.mono fun x hx => ?_
    rw [happ] at hx
    exact (List.mem_append.1 hx).elim id (hm x)

/-! ### hearing something again -/

/-- told that `a` is a `b` and `b` is a `c`, and thinking to the end -/
def heardOnce : List Lecture := [.tell (isA "a" "b", ⟨1, 9/10⟩), .tell (isA "b" "c", ⟨1, 9/10⟩)] ++ rounds 4

/-- told again that `a` is a `b`, and thinking to the end -/
def heardAgain : List Lecture := .tell (isA "a" "b", ⟨1, 9/10⟩) :: rounds 17

theorem heardAgain_fine : ∀ a ∈ heardOnce ++ heardAgain, a.Fine := by
  intro a ha
  simp only [heardOnce, heardAgain, List.mem_append, List.mem_cons, List.not_mem_nil, or_false] at ha
  rcases ha with ((rfl | rfl) | ha) | rfl | ha
  · exact told_fine _ _ _ (by unfold Tv.Sane; decide +kernel) ⟨_, rfl⟩
  · exact told_fine _ _ _ (by unfold Tv.Sane; decide +kernel) ⟨_, rfl⟩
  · exact rounds_fine _ a ha
  · exact told_fine _ _ _ (by unfold Tv.Sane; decide +kernel) ⟨_, rfl⟩
  · exact rounds_fine _ a ha

theorem heardOnce_told : toldTerms heardOnce = [isA "a" "b", isA "b" "c"] := by decide
theorem heardAgain_told : toldTerms heardAgain = [isA "a" "b"] := by decide

/-- is it all over, and is it known that a `c` is a `b` -/
def againView (r : Reasoner) := (courseView r, r.sh.heap.any (fun x => decide (x.sentence.term = isA "c" "b")))

theorem heardOnce_view : (runNar env0 (course 1 heardOnce)).map againView = .ok (((true, [], 0), true, true), false) := by decide +kernel
theorem heardAgain_view : (runNar env0 (course 1 (heardOnce ++ heardAgain))).map againView = .ok (((true, [], 0), true, true), true) := by
  decide +kernel

theorem heard : ∃ r r', runNar env0 (course 1 heardOnce) = .ok r ∧ runNar env0 (course 1 (heardOnce ++ heardAgain)) = .ok r' ∧
    Finished r ∧ Finished r' ∧ ¬ IsKnown r (isA "c" "b") ∧ IsKnown r' (isA "c" "b") := by
  obtain ⟨r, h1, h2⟩ := R.map_ok.1 heardOnce_view
  obtain ⟨r', h1', h2'⟩ := R.map_ok.1 heardAgain_view
  obtain ⟨k1, k2⟩ := Prod.mk.inj h2
  obtain ⟨k1', k2'⟩ := Prod.mk.inj h2'
  exact ⟨r, r', h1, h1', (courseView_finished k1).1, (courseView_finished k1').1, by simpa [IsKnown] using k2, by simpa [IsKnown] using k2'⟩

/-- C125, violation: saying something again does add to what is known.  Told that `a` is a `b` and that `b` is a `c`, the reasoner thinks to the
end.  Told again that `a` is a `b`, which is no news, it comes to hold that a `c` is a `b`: the same statement now serves for two pieces of
evidence. -/
theorem C125_repetition_is_news : ∃ r r', runNar env0 (course 1 heardOnce) = .ok r ∧ runNar env0 (course 1 (heardOnce ++ heardAgain)) = .ok r' ∧
    Finished r ∧ Finished r' ∧ (∀ t ∈ toldTerms heardAgain, t ∈ toldTerms heardOnce) ∧ ¬ IsKnown r (isA "c" "b") ∧
    IsKnown r' (isA "c" "b") := by
  obtain ⟨r, r', h1, h2, h3, h4, h5, h6⟩ := heard
  exact ⟨r, r', h1, h2, h3, h4, by rw [heardAgain_told, heardOnce_told]; simp, h5, h6⟩

/-- that a `c` is a `b` is implied, if `a --> b` may be used twice, but was not deduced when it was told once -/
example : Implied cfg1 (· ∈ toldTerms (heardOnce ++ heardAgain)) (isA "c" "b") ∧
    ¬ ∃ E, Deducible cfg1 (Lectured heardOnce) (isA "c" "b") E := by
  obtain ⟨r, r', h1, h2, h3, h4, h5, h6⟩ := heard
  exact ⟨C125_only_implied env0 1 _ r' heardAgain_fine (by decide) h2 cfg1 rfl _ h6, fun h => h5
    ((C119_course_exact env0 1 heardOnce r (fun a ha => heardAgain_fine a (by simp [ha])) (by decide) (by decide) h1 h3 cfg1 rfl _).2 h)⟩

/-- it is known in the end whenever both statements were told so and so often -/
example : ∃ n, ∀ (env : Env) (k : Nat) (as : List Lecture) (r : Reasoner), (∀ a ∈ as, a.Fine) → cyclesOf as < 111 → inputsIn as ≤ 120 →
    n ≤ (toldTerms as).count (isA "a" "b") → n ≤ (toldTerms as).count (isA "b" "c") →
    runNar env (course k as) = .ok r → Finished r → IsKnown r (isA "c" "b") := by
  obtain ⟨_, r', _, h2, _, _, _, h6⟩ := heard
  obtain ⟨n, hn⟩ := C125_often_enough_partial cfg1 rfl _ _ (C125_only_implied env0 1 _ r' heardAgain_fine (by decide) h2 cfg1 rfl _ h6)
  refine ⟨n, fun env k as r hf hc hi h3 h4 h fin => hn env k as r hf hc hi (fun x hx => ?_) h fin⟩
  rw [show toldTerms (heardOnce ++ heardAgain) = [isA "a" "b", isA "b" "c", isA "a" "b"] by decide] at hx
  simp only [List.mem_cons, List.not_mem_nil, or_false] at hx
  rcases hx with rfl | rfl | rfl <;> assumption

/-- what was known before is still known, and what is known now follows from what was said before -/
example : ∃ r r', runNar env0 (course 1 heardOnce) = .ok r ∧ runNar env0 (course 1 (heardOnce ++ heardAgain)) = .ok r' ∧
    (∀ t, IsKnown r t → IsKnown r' t) ∧ ∀ t, IsKnown r' t → Implied cfg1 (· ∈ toldTerms heardOnce) t := by
  obtain ⟨r, r', h1, h2, _, h4, _⟩ := heard
  exact ⟨r, r', h1, h2, C125_nothing_lost_partial env0 1 heardOnce heardAgain r r' heardAgain_fine (by decide) (by decide)
    (by rw [heardAgain_told, heardOnce_told]; simp) h1 h2 h4 cfg1 rfl⟩

end Nar.Props
