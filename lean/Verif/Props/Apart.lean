import Verif.Lemmas.Apart
import Verif.Props.Course
/-! # Property theorems: unrelated matters (C124) -/
namespace Nar.Props
open Nar Term

/-- C124: unrelated matters do not interfere.  However the names are sorted into topics: if two reasoners are told the same facts and general
rules about one topic, and whatever else about other topics, in any arrangement with questions and cycles, and both think to the end, then
they know the same about the topic. -/
theorem C124_unrelated_matters_partial {α : Type} (topic : String → α) (τ : α) (env env' : Env) (k k' : Nat) (as as' : List Lecture)
    (r r' : Reasoner) (hf : ∀ a ∈ as, a.Fine) (hf' : ∀ a ∈ as', a.Fine) (hc : cyclesOf as < 111) (hc' : cyclesOf as' < 111)
    (hi : inputsIn as ≤ 120) (hi' : inputsIn as' ≤ 120) (ht : ∀ t ∈ toldTerms as, SticksToTopic topic t)
    (ht' : ∀ t ∈ toldTerms as', SticksToTopic topic t) (hsame : SameAbout topic τ as as')
    (h : runNar env (course k as) = .ok r) (h' : runNar env' (course k' as') = .ok r') (fin : Finished r) (fin' : Finished r')
    (t : Term) (ha : About topic τ t) : IsKnown r t ↔ IsKnown r' t := by
  have hcfg : (createNar.cfg env).maxComplexity = 64 := rfl
  rw [C119_course_exact env k as r hf hc hi h fin (createNar.cfg env) hcfg t,
    C119_course_exact env' k' as' r' hf' hc' hi' h' fin' (createNar.cfg env) hcfg t]
  constructor
  · rintro ⟨E, d⟩
    exact deducible_same hf ht hsame d ha
  · rintro ⟨E, d⟩
    exact deducible_same hf' ht' hsame.symm d ha

/-- C124: the same for answers: a question which mentions nothing outside the topic, and is not about a rule, is answered by both or by
neither, whatever is drawn. -/
theorem C124_unrelated_answers_partial {α : Type} (topic : String → α) (τ : α) (env env' : Env) (k k' : Nat) (as as' : List Lecture)
    (r r' : Reasoner) (hf : ∀ a ∈ as, a.Fine) (hf' : ∀ a ∈ as', a.Fine) (hc : cyclesOf as < 111) (hc' : cyclesOf as' < 111)
    (hi : inputsIn as ≤ 120) (hi' : inputsIn as' ≤ 120) (hno : NoQuestions as) (hno' : NoQuestions as')
    (ht : ∀ t ∈ toldTerms as, SticksToTopic topic t) (ht' : ∀ t ∈ toldTerms as', SticksToTopic topic t)
    (hsame : SameAbout topic τ as as') (h : runNar env (course k as) = .ok r) (h' : runNar env' (course k' as') = .ok r')
    (fin : Finished r) (fin' : Finished r') (hm : RoomEverywhere r.sh.mem) (hm' : RoomEverywhere r'.sh.mem)
    (c : Copula) (a b : Term) (hq : ∀ x, Mentions (.Stmt c a b) x → topic x = τ) (hp : Printable (.Stmt c a b))
    (hcq : calcComplexity (.Stmt c a b) ≤ 64) (h1 : c ≠ .PREDIMPL) (h2 : c ≠ .IMPL) (v v' : Rat) :
    ∃ s s', moreNar env r [askFor (.Stmt c a b), .cycle v] = .ok s ∧ moreNar env' r' [askFor (.Stmt c a b), .cycle v'] = .ok s' ∧
      ∀ hd hd', hd < k → hd' < k' →
        ((∃ call ∈ s.answers, call.handler = .global hd) ↔ ∃ call ∈ s'.answers, call.handler = .global hd') := by
  have hcfg : (createNar.cfg env).maxComplexity = 64 := rfl
  obtain ⟨s, k1, k2⟩ := C120_course_answered_iff env k as r hf hc hi hno h fin hm (fun t h => (ht t h).1) c a b hp hcq h1 h2
    (createNar.cfg env) hcfg v
  obtain ⟨s', k1', k2'⟩ := C120_course_answered_iff env' k' as' r' hf' hc' hi' hno' h' fin' hm'
    (fun t h => (ht' t h).1) c a b hp hcq h1 h2 (createNar.cfg env) hcfg v'
  have about : ∀ {as : List Lecture} {t : Term} {E : List Int}, (∀ a ∈ as, a.Fine) → (∀ t ∈ toldTerms as, SticksToTopic topic t) →
      Deducible (createNar.cfg env) (Lectured as) t E → (∃ θ, inst θ (.Stmt c a b) = t) → ShareAPart (.Stmt c a b) t →
      About topic τ t := by
    intro as t E hf ht d hθ hs
    obtain ⟨w, f, _⟩ := deducible_topic (lectured_topic hf ht) d
    obtain ⟨x, x1, x2⟩ := hs
    have hg : Ground t := by
      obtain ⟨θ, rfl⟩ := hθ
      rw [inst] at f ⊢
      exact f.ground h2
    obtain ⟨y, hy⟩ := ground_named (fun s hs => w s (hs.trans x2)) (hg.sub x2)
    exact ⟨y, IsSubterm.trans hy x2, hq y (IsSubterm.trans hy x1)⟩
  refine ⟨s, s', k1, k1', fun hd hd' hhd hhd' => ?_⟩
  rw [k2 hd hhd, k2' hd' hhd']
  constructor
  · rintro ⟨t, E, d, i, j⟩
    obtain ⟨E', d'⟩ := deducible_same hf ht hsame d (about hf ht d i j)
    exact ⟨t, E', d', i, j⟩
  · rintro ⟨t, E, d, i, j⟩
    obtain ⟨E', d'⟩ := deducible_same hf' ht' hsame.symm d (about hf' ht' d i j)
    exact ⟨t, E', d', i, j⟩

/-! ### an unrelated remark -/

/-- a remark about something else -/
def remark : List Lecture := [.tell (isA "x" "y", ⟨1, 9/10⟩)]

/-- if `a` is a `b` then `c` is a `d` -/
def theRule : Term := .Stmt .IMPL (isA "a" "b") (isA "c" "d")

/-- It is told with confidence 1/10 that `a` is a `b`, and the rule; after one round of thinking it is told with confidence 9/10 that `a` is
a `b`. -/
def slowly : List Lecture :=
  [.tell (isA "a" "b", ⟨1, 1/10⟩), .tell (theRule, ⟨1, 9/10⟩)] ++ rounds 1 ++ .tell (isA "a" "b", ⟨1, 9/10⟩) :: rounds 10

/-- there are two matters -/
def matter (x : String) : Bool := x == "x" || x == "y"

theorem mentions_isA {s p x : String} : Mentions (isA s p) x ↔ x = s ∨ x = p := by
  unfold Mentions
  rw [← mem_retSubterms]
  simp [isA, retSubterms, retUniqueSubterms]

theorem mentions_rule {x : String} : Mentions theRule x ↔ x = "a" ∨ x = "b" ∨ x = "c" ∨ x = "d" := by
  have : Mentions theRule x ↔ Mentions (isA "a" "b") x ∨ Mentions (isA "c" "d") x := by
    rw [← occ_name, ← occ_name, ← occ_name]
    exact occ_stmt
  rw [this, mentions_isA, mentions_isA]
  tauto

theorem rule_ground : Ground theRule := ground_stmt.2 ⟨isA_ground _ _, isA_ground _ _⟩

theorem rule_fine : (Lecture.tell (theRule, ⟨1, 9/10⟩)).Fine := by
  refine ⟨⟨_, rfl⟩, fun _ _ => ⟨?_, ?_, by unfold Tv.Sane; decide +kernel⟩, nofun⟩
  · rintro ⟨x, y, e⟩; cases e
  · exact wf_stmt.2 ⟨((told_fine "a" "b" ⟨1, 1/2⟩ (by unfold Tv.Sane; decide +kernel) ⟨_, rfl⟩).2.1 rfl rfl).2.1,
      ((told_fine "c" "d" ⟨1, 1/2⟩ (by unfold Tv.Sane; decide +kernel) ⟨_, rfl⟩).2.1 rfl rfl).2.1⟩

theorem slowly_fine : ∀ a ∈ slowly, a.Fine := by
  intro a ha
  simp only [slowly, List.mem_append, List.mem_cons, List.not_mem_nil, or_false] at ha
  rcases ha with ((rfl | rfl) | ha) | rfl | ha
  · exact told_fine _ _ _ (by unfold Tv.Sane; decide +kernel) ⟨_, rfl⟩
  · exact rule_fine
  · exact rounds_fine _ a ha
  · exact told_fine _ _ _ (by unfold Tv.Sane; decide +kernel) ⟨_, rfl⟩
  · exact rounds_fine _ a ha

theorem remark_fine : ∀ a ∈ remark ++ slowly, a.Fine := by
  intro a ha
  rcases List.mem_append.1 ha with ha | ha
  · rw [List.mem_singleton.1 ha]
    exact told_fine _ _ _ (by unfold Tv.Sane; decide +kernel) ⟨_, rfl⟩
  · exact slowly_fine a ha

theorem slowly_silent : NoQuestions slowly := by
  intro a ha q
  simp only [slowly, List.mem_append, List.mem_cons, List.not_mem_nil, or_false] at ha
  rcases ha with ((rfl | rfl) | ha) | rfl | ha
  · exact nofun
  · exact nofun
  · exact rounds_silent _ a ha q
  · exact nofun
  · exact rounds_silent _ a ha q

theorem remark_silent : NoQuestions (remark ++ slowly) := by
  intro a ha q
  rcases List.mem_append.1 ha with ha | ha
  · rw [List.mem_singleton.1 ha]; exact nofun
  · exact slowly_silent a ha q

theorem slowly_told : toldTerms slowly = [isA "a" "b", theRule, isA "a" "b"] := by decide
theorem remark_told : toldTerms (remark ++ slowly) = [isA "x" "y", isA "a" "b", theRule, isA "a" "b"] := by decide

theorem isA_sticks (s p : String) (h : matter s = matter p) : SticksToTopic matter (isA s p) := by
  refine ⟨.inl (isA_ground _ _), fun x y hx hy => ?_⟩
  rcases mentions_isA.1 hx with rfl | rfl <;> rcases mentions_isA.1 hy with rfl | rfl <;> simp [h]

theorem rule_sticks : SticksToTopic matter theRule := by
  have : ∀ x, Mentions theRule x → matter x = false := by
    intro x hx
    rcases mentions_rule.1 hx with rfl | rfl | rfl | rfl <;> decide
  exact ⟨.inl rule_ground, fun x y hx hy => (this x hx).trans (this y hy).symm⟩

theorem remark_sticks : ∀ t ∈ toldTerms (remark ++ slowly), SticksToTopic matter t := by
  intro t ht
  rw [remark_told] at ht
  simp only [List.mem_cons, List.not_mem_nil, or_false] at ht
  rcases ht with rfl | rfl | rfl | rfl
  · exact isA_sticks _ _ (by decide)
  · exact isA_sticks _ _ (by decide)
  · exact rule_sticks
  · exact isA_sticks _ _ (by decide)

theorem slowly_sticks : ∀ t ∈ toldTerms slowly, SticksToTopic matter t := fun t ht => remark_sticks t (by
  rw [slowly_told] at ht
  rw [remark_told]
  exact List.mem_cons_of_mem _ ht)

theorem isA_about (s p : String) (τ : Bool) : About matter τ (isA s p) ↔ matter s = τ ∨ matter p = τ := by
  constructor
  · rintro ⟨x, hx, rfl⟩
    rcases mentions_isA.1 hx with rfl | rfl <;> simp
  · rintro (h | h)
    · exact ⟨s, mentions_isA.2 (.inl rfl), h⟩
    · exact ⟨p, mentions_isA.2 (.inr rfl), h⟩

/-- about `a`, `b`, `c` and `d` the same is told -/
theorem remark_same : SameAbout matter false (remark ++ slowly) slowly := by
  refine ⟨fun t => !decide (t = isA "x" "y"), fun t ht => ?_, ?_⟩
  · rw [remark_told, slowly_told] at ht
    have : t = isA "x" "y" ∨ t = isA "a" "b" ∨ t = theRule := by
      simp only [List.mem_cons, List.not_mem_nil, or_false] at ht
      tauto
    rcases this with rfl | rfl | rfl
    · rw [isA_about]; decide
    · rw [isA_about]; decide
    · exact ⟨fun _ => ⟨"a", mentions_rule.2 (.inl rfl), by decide⟩, fun _ => by decide⟩
  · rw [remark_told, slowly_told]
    decide

/-- after the course, the question whether `c` is a `d` -/
def cdExam (as : List Lecture) := (runNar env0 (course 1 as)).bind (fun r => (moreNar env0 r [askFor (isA "c" "d"), .cycle 0]).map (fun s =>
  (courseView r, s.answers.map (fun call => truthOf call.answer), r.sh.heap.any (fun x => decide (x.sentence.term = isA "c" "d")))))

theorem slowly_exam : cdExam slowly = .ok (((true, [], 0), true, true), [some ⟨1, 9/100⟩], true) := by decide +kernel
theorem remark_exam : cdExam (remark ++ slowly) = .ok (((true, [], 0), true, true), [some ⟨1, 81/100⟩], true) := by decide +kernel

theorem cdExam_ok {as : List Lecture} {l : List (Option Tv)} (h : cdExam as = .ok (((true, [], 0), true, true), l, true)) :
    ∃ r s, runNar env0 (course 1 as) = .ok r ∧ moreNar env0 r [askFor (isA "c" "d"), .cycle 0] = .ok s ∧ Finished r ∧
      RoomEverywhere r.sh.mem ∧ s.answers.map (fun call => truthOf call.answer) = l ∧ IsKnown r (isA "c" "d") := by
  obtain ⟨r, h1, h2⟩ := R.bind_ok.1 h
  obtain ⟨s, h3, h4⟩ := R.map_ok.1 h2
  obtain ⟨k1, h4⟩ := Prod.mk.inj h4
  obtain ⟨k2, k3⟩ := Prod.mk.inj h4
  obtain ⟨f1, f2⟩ := courseView_finished k1
  exact ⟨r, s, h1, h3, f1, f2, k2, by simpa [IsKnown] using k3⟩

/-- C124, violation: how much is believed of a matter does depend on what is said about others.  A remark about something else which comes
first takes the place of a thought, and in the end, when nothing is left to think about, `c` is a `d` with confidence 81/100; without the
remark, with the same draws, it is for ever a `d` with confidence 9/100. -/
theorem C124_remark_changes_belief : ∃ r r' s s', runNar env0 (course 1 slowly) = .ok r ∧ runNar env0 (course 1 (remark ++ slowly)) = .ok r' ∧
    Finished r ∧ Finished r' ∧ (∀ t ∈ toldTerms (remark ++ slowly), SticksToTopic matter t) ∧ SameAbout matter false (remark ++ slowly) slowly ∧
    moreNar env0 r [askFor (isA "c" "d"), .cycle 0] = .ok s ∧ moreNar env0 r' [askFor (isA "c" "d"), .cycle 0] = .ok s' ∧
    (∃ call, s.answers = [call] ∧ HasTruth call.answer ⟨1, 9/100⟩) ∧ ∃ call, s'.answers = [call] ∧ HasTruth call.answer ⟨1, 81/100⟩ := by
  obtain ⟨r, s, h1, h2, h3, _, h4, _⟩ := cdExam_ok slowly_exam
  obtain ⟨r', s', h1', h2', h3', _, h4', _⟩ := cdExam_ok remark_exam
  refine ⟨r, r', s, s', h1, h1', h3, h3', remark_sticks, remark_same, h2, h2', ?_, ?_⟩
  · obtain ⟨call, hc, h⟩ := List.map_eq_singleton_iff.1 h4
    exact ⟨call, hc, truthOf_iff.1 h⟩
  · obtain ⟨call, hc, h⟩ := List.map_eq_singleton_iff.1 h4'
    exact ⟨call, hc, truthOf_iff.1 h⟩

/-- but the same is known about `a`, `b`, `c` and `d`, and the same questions about them are answered -/
example : ∃ r r', runNar env0 (course 1 (remark ++ slowly)) = .ok r ∧ runNar env0 (course 1 slowly) = .ok r' ∧
    (∀ t, About matter false t → (IsKnown r t ↔ IsKnown r' t)) ∧ IsKnown r (isA "c" "d") ∧ ∀ v v', ∃ s s',
      moreNar env0 r [askFor (isA "d" "a"), .cycle v] = .ok s ∧ moreNar env0 r' [askFor (isA "d" "a"), .cycle v'] = .ok s' ∧
        ((∃ call ∈ s.answers, call.handler = .global 0) ↔ ∃ call ∈ s'.answers, call.handler = .global 0) := by
  obtain ⟨r', s', h1', h2', h3', h4', _⟩ := cdExam_ok slowly_exam
  obtain ⟨r, s, h1, h2, h3, h4, _, h5⟩ := cdExam_ok remark_exam
  refine ⟨r, r', h1, h1', C124_unrelated_matters_partial matter false env0 env0 1 1 (remark ++ slowly) slowly r r' remark_fine slowly_fine
    (by decide) (by decide) (by decide) (by decide) remark_sticks slowly_sticks remark_same h1 h1' h3 h3', h5, fun v v' => ?_⟩
  obtain ⟨s, s', k1, k2, k3⟩ := C124_unrelated_answers_partial matter false env0 env0 1 1 (remark ++ slowly) slowly r r' remark_fine slowly_fine
    (by decide) (by decide) (by decide) (by decide) remark_silent slowly_silent remark_sticks slowly_sticks remark_same h1 h1' h3 h3' h4 h4'
    .INH (.Name "d") (.Name "a") (fun x hx => by rcases mentions_isA.1 hx with rfl | rfl <;> decide) ⟨_, rfl⟩ (by decide) (by decide)
    (by decide) v v'
  exact ⟨s, s', k1, k2, k3 0 0 (by decide) (by decide)⟩

end Nar.Props
