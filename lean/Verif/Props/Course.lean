import Verif.Lemmas.Course2
import Verif.Props.Best
import Verif.Props.Lasting
/-! # Property theorems: telling, asking and thinking in any arrangement (C119, C120, C121) -/
namespace Nar.Props
open Nar Term

/-- C119 for the reasoner as a whole: statements are told, questions are asked, and cycles and rounds of the worker are done in any
arrangement.  When nothing is left to think about the statements known are exactly those which can be deduced from the ones told. -/
theorem C119_course_exact (env : Env) (k : Nat) (as : List Lecture) (r : Reasoner) (hf : ∀ a ∈ as, a.Fine) (hc : cyclesOf as < 111)
    (hi : inputsIn as ≤ 120) (h : runNar env (course k as) = .ok r) (fin : Finished r) (cfg : Cfg) (hcfg : cfg.maxComplexity = 64) (t : Term) :
    IsKnown r t ↔ ∃ E, Deducible cfg (Lectured as) t E := by
  obtain ⟨ops, g1, g2, _⟩ := course_sim hf h
  have hm : cfg.maxComplexity = (r.cfg env).maxComplexity := by rw [hcfg, g2.complexity]
  rw [show IsKnown r t ↔ _ from C119_known_iff_deducible (r.cfg env) ops r.sys g1 g2.sane g2.flush (by rw [g2.cycles]; exact hc) fin.room fin.rest
    _ (by simpa using hi) g2.evidence t]
  constructor
  · rintro ⟨E, hd⟩
    obtain ⟨F, h1, _⟩ := g2.deducible hm hd
    exact ⟨F, h1⟩
  · rintro ⟨E, hd⟩
    obtain ⟨F, h1, _⟩ := g2.deduced hm hd
    exact ⟨F, h1⟩

/-- C120 for the reasoner as a whole: whatever a handler is told in a course about a question which is not about time can be deduced from the
statements told, with no more evidence than is given for it. -/
theorem C120_course_answers (env : Env) (k : Nat) (as : List Lecture) (r : Reasoner) (hf : ∀ a ∈ as, a.Fine) (hi : inputsIn as ≤ 120)
    (h : runNar env (course k as) = .ok r) (call : AnswerCall) (hcall : call ∈ r.answers) (hnt : ¬ IsTemporal call.question) (cfg : Cfg) :
    Warranted cfg (Lectured as) call.answer := by
  obtain ⟨ops, g1, g2, _⟩ := course_sim hf h
  obtain ⟨n, E, h1, h2⟩ := C120_answers_deducible (r.cfg env) ops r.sys g1 g2.sane _ (by simpa using hi) g2.evidence call hcall hnt
  obtain ⟨F, h3, h4⟩ := h1.moved (R := Eq) (cfg := { r.cfg env with maxComplexity := n }) (cfg' := { cfg with maxComplexity := n }) rfl (told' := Lectured as)
    (fun e f x h1 h2 => h1.trans h2.symm) (fun s h1 h2 => ⟨s, g2.told s h1 h2, h2, rfl, fun x hx => ⟨x, hx, rfl⟩⟩)
  exact ⟨n, F, h3, fun e he => by obtain ⟨x, hx, rfl⟩ := h4 e he; exact h2 _ hx⟩

/-- C120 for the reasoner as a whole: after a course without questions, in which facts and general rules were told, a question which is not
about a rule is answered by the next cycle exactly if some instance of it which has a part in common with it can be deduced. -/
theorem C120_course_answered_iff (env : Env) (k : Nat) (as : List Lecture) (r : Reasoner) (hf : ∀ a ∈ as, a.Fine) (hc : cyclesOf as < 111)
    (hi : inputsIn as ≤ 120) (hno : NoQuestions as) (h : runNar env (course k as) = .ok r) (fin : Finished r) (hm : RoomEverywhere r.sh.mem)
    (hfacts : ∀ t ∈ toldTerms as, FactOrRule t) (c : Copula) (a b : Term) (hp : Printable (.Stmt c a b))
    (hcq : calcComplexity (.Stmt c a b) ≤ 64) (h1 : c ≠ .PREDIMPL) (h2 : c ≠ .IMPL) (cfg : Cfg) (hcfg : cfg.maxComplexity = 64) (v : Rat) :
    ∃ r', moreNar env r [askFor (.Stmt c a b), .cycle v] = .ok r' ∧ ∀ hd, hd < k →
      ((∃ call ∈ r'.answers, call.handler = .global hd) ↔
        ∃ t E, Deducible cfg (Lectured as) t E ∧ (∃ θ, inst θ (.Stmt c a b) = t) ∧ ShareAPart (.Stmt c a b) t) := by
  obtain ⟨q, hq⟩ : ∃ q, q = Term.Stmt c a b := ⟨_, rfl⟩
  have hnt : ¬ IsTemporal q := by rw [hq]; rintro ⟨x, y, e⟩; cases e; exact h1 rfl
  have hknown := C119_course_exact env k as r hf hc hi h fin cfg hcfg
  obtain ⟨ops, g1, g2, _, hsafe, halive⟩ := course_sim hf h
  have hrec : Recalls r.sh := g2.recalls g1
  obtain ⟨hq0, ha0⟩ : r.sh.questionTasks = [] ∧ r.answers = [] := g2.silent g1 hno
  have hground := grounded_run (by simpa using hi) g1 g2.sane g2.evidence
  have hk : r.nGlobal = k := g2.handlers
  rw [← hq] at hp hcq ⊢
  obtain ⟨r1, k1⟩ := NarOp.run_total hsafe halive (op := askFor q) ⟨hp, (by intro h; cases h), (by intro h; cases h)⟩
  obtain ⟨e1, e2, e3, e4, t0, e5, e6, e7, e8⟩ := asked h hcq k1
  rw [hq0, List.nil_append] at e5
  have hr1 : runNar env (course k (as ++ [.ask q])) = .ok r1 := by
    rw [show course k (as ++ [.ask q]) = course k as ++ [askFor q] by simp [course, Lecture.op]]
    exact moreNar_append.2 ⟨r, h, foldlM_cons_ok.2 ⟨r1, k1, rfl⟩⟩
  obtain ⟨_, _, _, _, s1, s2⟩ := course_sim (as := as ++ [.ask q]) (by
    intro x hx
    rcases List.mem_append.1 hx with hx | hx
    · exact hf x hx
    · rw [List.mem_singleton.1 hx]; exact hp) hr1
  obtain ⟨r2, k2⟩ := cycle_total s1 (.inl s2) v
  have hlook : r1.look.mem = r.sh.mem := by rw [← e1]; unfold Reasoner.look; split <;> rfl
  refine ⟨r2, foldlM_cons_ok.2 ⟨r1, k1, foldlM_cons_ok.2 ⟨r2, k2, rfl⟩⟩, fun hd hhd => ⟨?_, ?_⟩⟩
  · rintro ⟨call, hcall, _⟩
    obtain ⟨_, calls, c2, _, hcase⟩ := cycle_asks k2
    rw [e2, ha0, List.nil_append] at c2
    rw [c2] at hcall
    rcases hcase with ⟨h0, _⟩ | ⟨j, q0, q', cands, d1, d2, d3, d4, d5⟩
    · rw [h0] at e5; cases e5
    have hq0t : q0 = t0 := by
      rw [e5] at d2
      have := List.mem_of_getElem? d2
      simpa using this
    subst hq0t
    obtain ⟨_, _, _, _, _, _, as, _, hsub, w3, _, _, w6⟩ := qaTryAll_spec d4
    obtain ⟨j1, j2⟩ := w6 call hcall
    rcases (d3 _).1 (hsub.subset j2) with ⟨hq', _⟩ | ⟨_, x, hx, hb⟩
    · rw [e6] at hq'; exact absurd hq' hnt
    rw [hlook] at hb
    rw [e6] at hx
    obtain ⟨b1, b2⟩ := hground.all.2.under hb
    obtain ⟨σ, hσ⟩ := Option.isSome_iff_exists.1 ((w3 _ j2).1).2
    rw [e6] at hσ
    obtain ⟨E, d1, d2⟩ := b1.deduced
    obtain ⟨F, f1, _⟩ := g2.deducible (by rw [hcfg, g2.complexity]) d1
    exact ⟨_, F, f1, ⟨_, (unifySubst_eq_inst σ _).symm.trans (C02_match_sound _ _ σ hσ)⟩, ⟨x, hx, b2⟩⟩
  · rintro ⟨t, E, hd1, hi1, ⟨x, hx1, hx2⟩⟩
    have hg : Ground t := by
      have := deducible_facts (lectured_facts hfacts) hd1
      obtain ⟨θ, rfl⟩ := hi1
      rw [hq, inst] at this ⊢
      exact this.ground h2
    obtain ⟨y, hy, rfl⟩ := (hknown t).2 ⟨E, hd1⟩
    obtain ⟨bf, b1, b2, b3⟩ := hrec.found hm hy hx2
    obtain ⟨e, he1, he2⟩ := good_expects b3
    have hcand : Candidate r1.look t0.sentence.term bf := .inr ⟨by rw [e6]; exact hnt, x, by rw [e6]; exact hx1, by rw [hlook]; exact b1⟩
    have hcan : CanAnswer t0 bf := ⟨b3.1, by rw [e6, b2]; exact (C03_match_iff_instance q _ hg).2 hi1⟩
    obtain ⟨_, _, _, _, w4⟩ := C104_only_question env r1 r2 v t0 k2 e5 _ hcand hcan _ he1
    obtain ⟨call, j1, j2, _⟩ := w4 (by rw [e7]; exact he2) hd (by rw [e3, hk]; exact hhd)
    exact ⟨call, List.mem_of_mem_drop j1, j2⟩

/-- Who was told at least as much knows at least as much: if each statement of one course was also told in another one, at least as often,
in whatever order, with whatever truth values and questions, and whatever was thought about when, then when both have thought to the end
the second knows everything which the first knows. -/
theorem C121_more_told_more_known (env env' : Env) (k k' : Nat) (as as' : List Lecture) (r r' : Reasoner) (hf : ∀ a ∈ as, a.Fine)
    (hf' : ∀ a ∈ as', a.Fine) (hc : cyclesOf as < 111) (hc' : cyclesOf as' < 111) (hi : inputsIn as ≤ 120) (hi' : inputsIn as' ≤ 120)
    (h : runNar env (course k as) = .ok r) (h' : runNar env' (course k' as') = .ok r') (fin : Finished r) (fin' : Finished r')
    (hsame : (toldTerms as).Subperm (toldTerms as')) (t : Term) (ht : IsKnown r t) : IsKnown r' t := by
  have hcfg : (createNar.cfg env).maxComplexity = 64 := rfl
  obtain ⟨E, hd⟩ := (C119_course_exact env k as r hf hc hi h fin (createNar.cfg env) hcfg t).1 ht
  exact (C119_course_exact env' k' as' r' hf' hc' hi' h' fin' (createNar.cfg env) hcfg t).2 (deducible_told hsame hd)

/-- What is known in the end depends neither on the order of the statements nor on when they are thought about nor on chance: two courses in
which the same statements are told, in whatever order, lead to the same knowledge. -/
theorem C121_same_knowledge_in_the_end (env env' : Env) (k k' : Nat) (as as' : List Lecture) (r r' : Reasoner) (hf : ∀ a ∈ as, a.Fine)
    (hf' : ∀ a ∈ as', a.Fine) (hc : cyclesOf as < 111) (hc' : cyclesOf as' < 111) (hi : inputsIn as ≤ 120) (hi' : inputsIn as' ≤ 120)
    (h : runNar env (course k as) = .ok r) (h' : runNar env' (course k' as') = .ok r') (fin : Finished r) (fin' : Finished r')
    (hsame : (toldTerms as).Perm (toldTerms as')) (t : Term) : IsKnown r t ↔ IsKnown r' t :=
  ⟨C121_more_told_more_known env env' k k' as as' r r' hf hf' hc hc' hi hi' h h' fin fin' hsame.subperm t,
   C121_more_told_more_known env' env k' k as' as r' r hf' hf hc' hc hi' hi h' h fin' fin hsame.symm.subperm t⟩

/-- The same for answers: after two such courses without questions, in which facts and general rules were told, a question which is not about
a rule is answered in both cases or in neither, whatever is drawn. -/
theorem C121_same_answers_in_the_end (env env' : Env) (k k' : Nat) (as as' : List Lecture) (r r' : Reasoner) (hf : ∀ a ∈ as, a.Fine)
    (hf' : ∀ a ∈ as', a.Fine) (hc : cyclesOf as < 111) (hc' : cyclesOf as' < 111) (hi : inputsIn as ≤ 120) (hi' : inputsIn as' ≤ 120)
    (hno : NoQuestions as) (hno' : NoQuestions as') (h : runNar env (course k as) = .ok r) (h' : runNar env' (course k' as') = .ok r')
    (fin : Finished r) (fin' : Finished r') (hm : RoomEverywhere r.sh.mem) (hm' : RoomEverywhere r'.sh.mem)
    (hsame : (toldTerms as).Perm (toldTerms as')) (hfacts : ∀ t ∈ toldTerms as, FactOrRule t) (c : Copula) (a b : Term)
    (hp : Printable (.Stmt c a b)) (hcq : calcComplexity (.Stmt c a b) ≤ 64) (h1 : c ≠ .PREDIMPL) (h2 : c ≠ .IMPL) (v v' : Rat) :
    ∃ s s', moreNar env r [askFor (.Stmt c a b), .cycle v] = .ok s ∧ moreNar env' r' [askFor (.Stmt c a b), .cycle v'] = .ok s' ∧
      ∀ hd hd', hd < k → hd' < k' →
        ((∃ call ∈ s.answers, call.handler = .global hd) ↔ ∃ call ∈ s'.answers, call.handler = .global hd') := by
  have hcfg : (createNar.cfg env).maxComplexity = 64 := rfl
  obtain ⟨s, k1, k2⟩ := C120_course_answered_iff env k as r hf hc hi hno h fin hm hfacts c a b hp hcq h1 h2 (createNar.cfg env) hcfg v
  obtain ⟨s', k1', k2'⟩ := C120_course_answered_iff env' k' as' r' hf' hc' hi' hno' h' fin' hm'
    (fun t ht => hfacts t (hsame.symm.subset ht)) c a b hp hcq h1 h2 (createNar.cfg env) hcfg v'
  refine ⟨s, s', k1, k1', fun hd hd' hhd hhd' => ?_⟩
  rw [k2 hd hhd, k2' hd' hhd']
  constructor
  · rintro ⟨t, E, d, i⟩
    obtain ⟨E', d'⟩ := deducible_told hsame.subperm d
    exact ⟨t, E', d', i⟩
  · rintro ⟨t, E, d, i⟩
    obtain ⟨E', d'⟩ := deducible_told hsame.symm.subperm d
    exact ⟨t, E', d', i⟩

/-! ### two courses -/

/-- cycles, each followed by a round of the worker -/
def rounds (n : Nat) : List Lecture := (List.replicate n [Lecture.cycle 0, .work]).flatten

/-- It is first told with confidence 1/10 that `a` is a `b`, and that `b` is a `c`.  After some thinking it is told with confidence 9/10
that `a` is a `b`. -/
def vagueFirst : List Lecture :=
  [.tell (isA "a" "b", ⟨1, 1/10⟩), .tell (isA "b" "c", ⟨1, 9/10⟩)] ++ rounds 3 ++ .tell (isA "a" "b", ⟨1, 9/10⟩) :: rounds 26

/-- the same the other way round -/
def vagueLast : List Lecture :=
  [.tell (isA "a" "b", ⟨1, 9/10⟩), .tell (isA "b" "c", ⟨1, 9/10⟩)] ++ rounds 3 ++ .tell (isA "a" "b", ⟨1, 1/10⟩) :: rounds 26

/-- what the examples look at -/
def courseView (r : Reasoner) := ((roomy r, r.sh.judgementTasks, r.queue.length), r.sh.judgementTasksByTerm.all (fun p => decide (p.2.length ≤ 51)),
  decide (r.sh.heap.length ≤ 300))

theorem courseView_finished {r : Reasoner} (h : courseView r = ((true, [], 0), true, true)) : Finished r ∧ RoomEverywhere r.sh.mem := by
  simp only [courseView, Prod.mk.injEq, decide_eq_true_eq] at h
  obtain ⟨⟨h5, h1, h2⟩, h3, h4⟩ := h
  exact ⟨⟨⟨h1, List.length_eq_zero_iff.1 h2⟩, room_of_lengths h3 h4⟩, roomy_iff.1 h5⟩

theorem rounds_fine (n : Nat) : ∀ a ∈ rounds n, a.Fine := by
  intro a ha
  obtain ⟨l, hl, ha⟩ := List.mem_flatten.1 ha
  rw [(List.mem_replicate.1 hl).2] at ha
  simp only [List.mem_cons, List.not_mem_nil, or_false] at ha
  rcases ha with rfl | rfl <;> exact trivial

theorem told_fine (s p : String) (tv : Tv) (h : Tv.Sane tv) (hp : Printable (isA s p)) : (Lecture.tell (isA s p, tv)).Fine :=
  isA_safe env0 s p tv h hp

theorem vagueFirst_fine : ∀ a ∈ vagueFirst, a.Fine := by
  intro a ha
  simp only [vagueFirst, List.mem_append, List.mem_cons, List.not_mem_nil, or_false] at ha
  rcases ha with ((rfl | rfl) | ha) | rfl | ha
  · exact told_fine _ _ _ (by unfold Tv.Sane; decide +kernel) ⟨_, rfl⟩
  · exact told_fine _ _ _ (by unfold Tv.Sane; decide +kernel) ⟨_, rfl⟩
  · exact rounds_fine _ a ha
  · exact told_fine _ _ _ (by unfold Tv.Sane; decide +kernel) ⟨_, rfl⟩
  · exact rounds_fine _ a ha

theorem vagueLast_fine : ∀ a ∈ vagueLast, a.Fine := by
  intro a ha
  simp only [vagueLast, List.mem_append, List.mem_cons, List.not_mem_nil, or_false] at ha
  rcases ha with ((rfl | rfl) | ha) | rfl | ha
  · exact told_fine _ _ _ (by unfold Tv.Sane; decide +kernel) ⟨_, rfl⟩
  · exact told_fine _ _ _ (by unfold Tv.Sane; decide +kernel) ⟨_, rfl⟩
  · exact rounds_fine _ a ha
  · exact told_fine _ _ _ (by unfold Tv.Sane; decide +kernel) ⟨_, rfl⟩
  · exact rounds_fine _ a ha

theorem vagueFirst_told : toldTerms vagueFirst = [isA "a" "b", isA "b" "c", isA "a" "b"] := by decide
theorem vagueLast_told : toldTerms vagueLast = [isA "a" "b", isA "b" "c", isA "a" "b"] := by decide

theorem vague_facts : ∀ t ∈ [isA "a" "b", isA "b" "c", isA "a" "b"], FactOrRule t := by
  intro t ht
  simp only [List.mem_cons, List.not_mem_nil, or_false] at ht
  rcases ht with rfl | rfl | rfl <;> exact .inl (isA_ground _ _)

theorem rounds_silent (n : Nat) : NoQuestions (rounds n) := by
  intro a ha q
  obtain ⟨l, hl, ha⟩ := List.mem_flatten.1 ha
  rw [(List.mem_replicate.1 hl).2] at ha
  simp only [List.mem_cons, List.not_mem_nil, or_false] at ha
  rcases ha with rfl | rfl <;> exact nofun

theorem vagueFirst_silent : NoQuestions vagueFirst := by
  intro a ha q
  simp only [vagueFirst, List.mem_append, List.mem_cons, List.not_mem_nil, or_false] at ha
  rcases ha with ((rfl | rfl) | ha) | rfl | ha
  · exact nofun
  · exact nofun
  · exact rounds_silent _ a ha q
  · exact nofun
  · exact rounds_silent _ a ha q

theorem vagueLast_silent : NoQuestions vagueLast := by
  intro a ha q
  simp only [vagueLast, List.mem_append, List.mem_cons, List.not_mem_nil, or_false] at ha
  rcases ha with ((rfl | rfl) | ha) | rfl | ha
  · exact nofun
  · exact nofun
  · exact rounds_silent _ a ha q
  · exact nofun
  · exact rounds_silent _ a ha q

/-- the course, and then the question whether `a` is a `c` -/
def vagueExam (as : List Lecture) : R (((Bool × List Nat × Nat) × Bool × Bool) × List (Option Tv) × Bool × Bool) :=
  (runNar env0 (course 1 as)).bind (fun r => (moreNar env0 r [askFor (isA "a" "c"), .cycle 0]).map (fun s =>
    (courseView r, s.answers.map (fun call => truthOf call.answer), r.sh.heap.any (fun x => decide (x.sentence.term = isA "a" "c")),
      r.sh.heap.any (fun x => decide (x.sentence.term = isA "c" "a")))))

theorem vagueFirst_exam : vagueExam vagueFirst = .ok (((true, [], 0), true, true), [some ⟨1, 9/100⟩], true, false) := by
  decide +kernel
theorem vagueLast_exam : vagueExam vagueLast = .ok (((true, [], 0), true, true), [some ⟨1, 81/100⟩], true, false) := by
  decide +kernel

theorem vagueExam_ok {as : List Lecture} {l : List (Option Tv)} {x y : Bool} (h : vagueExam as = .ok (((true, [], 0), true, true), l, x, y)) :
    ∃ r s, runNar env0 (course 1 as) = .ok r ∧ moreNar env0 r [askFor (isA "a" "c"), .cycle 0] = .ok s ∧ Finished r ∧
      RoomEverywhere r.sh.mem ∧ s.answers.map (fun call => truthOf call.answer) = l ∧ (x = true ↔ IsKnown r (isA "a" "c")) ∧
      (y = true ↔ IsKnown r (isA "c" "a")) := by
  obtain ⟨r, h1, h⟩ := R.bind_ok.1 h
  obtain ⟨s, h2, h⟩ := R.map_ok.1 h
  obtain ⟨h3, h⟩ := Prod.mk.inj h
  obtain ⟨h4, h⟩ := Prod.mk.inj h
  obtain ⟨h5, h6⟩ := Prod.mk.inj h
  obtain ⟨k1, k2⟩ := courseView_finished h3
  refine ⟨r, s, h1, h2, k1, k2, h4, ?_, ?_⟩
  · rw [← h5]; simp [IsKnown]
  · rw [← h6]; simp [IsKnown]

/-- What is believed in the end does depend on the order: told first that `a` is a `b` with confidence 1/10, and with confidence 9/10 only
after the conclusion was drawn, the reasoner answers that `a` is a `c` with confidence 9/100, for all time, as nothing is left to think
about.  Told the same statements the other way round it answers with confidence 81/100. -/
theorem C121_truth_depends_on_order : ∃ r r' s s', runNar env0 (course 1 vagueFirst) = .ok r ∧ runNar env0 (course 1 vagueLast) = .ok r' ∧
    Finished r ∧ Finished r' ∧ ((numberedIn 0 vagueFirst).map (·.2)).Perm ((numberedIn 0 vagueLast).map (·.2)) ∧
    moreNar env0 r [askFor (isA "a" "c"), .cycle 0] = .ok s ∧ moreNar env0 r' [askFor (isA "a" "c"), .cycle 0] = .ok s' ∧
    (∃ call, s.answers = [call] ∧ HasTruth call.answer ⟨1, 9/100⟩) ∧ ∃ call, s'.answers = [call] ∧ HasTruth call.answer ⟨1, 81/100⟩ := by
  obtain ⟨r, s, h1, h2, h3, _, h4, _⟩ := vagueExam_ok vagueFirst_exam
  obtain ⟨r', s', h1', h2', h3', _, h4', _⟩ := vagueExam_ok vagueLast_exam
  refine ⟨r, r', s, s', h1, h1', h3, h3', by decide +kernel, h2, h2', ?_, ?_⟩
  · obtain ⟨call, hc, h⟩ := List.map_eq_singleton_iff.1 h4
    exact ⟨call, hc, truthOf_iff.1 h⟩
  · obtain ⟨call, hc, h⟩ := List.map_eq_singleton_iff.1 h4'
    exact ⟨call, hc, truthOf_iff.1 h⟩

/-- exactly the deducible statements are known after the first course; among them is `a --> c`, and `c --> a` cannot be deduced -/
example : ∃ r, runNar env0 (course 1 vagueFirst) = .ok r ∧ (∀ t, IsKnown r t ↔ ∃ E, Deducible cfg1 (Lectured vagueFirst) t E) ∧
    IsKnown r (isA "a" "c") ∧ ¬ ∃ E, Deducible cfg1 (Lectured vagueFirst) (isA "c" "a") E := by
  obtain ⟨r, s, h1, h2, h3, h4, _, h5, h6⟩ := vagueExam_ok vagueFirst_exam
  have key := C119_course_exact env0 1 vagueFirst r vagueFirst_fine (by decide) (by decide) h1 h3 cfg1 rfl
  exact ⟨r, h1, key, h5.1 rfl, fun h => by cases h6.2 ((key _).2 h)⟩

/-- a course with a question -/
def questionFirst : List Lecture :=
  [.ask (.Stmt .INH (.QVar "x") (.Name "c")), .tell (isA "a" "b", ⟨1, 9/10⟩), .cycle 0, .tell (isA "b" "c", ⟨1, 9/10⟩)] ++ rounds 5

/-- its answers are warranted -/
example : ∃ r, runNar env0 (course 1 questionFirst) = .ok r ∧ r.answers ≠ [] ∧
    ∀ call ∈ r.answers, Warranted cfg1 (Lectured questionFirst) call.answer := by
  have h : (runNar env0 (course 1 questionFirst)).map (fun r => (decide (r.answers.length = 0),
      r.answers.all (fun call => decide (call.question = .Stmt .INH (.QVar "x") (.Name "c"))))) = .ok (false, true) := by decide +kernel
  obtain ⟨r, hr, h⟩ := R.map_ok.1 h
  simp only [Prod.mk.injEq, decide_eq_false_iff_not, List.all_eq_true, decide_eq_true_eq] at h
  obtain ⟨k1, k2⟩ := h
  refine ⟨r, hr, fun e => k1 (by rw [e]; rfl), fun call hc => C120_course_answers env0 1 questionFirst r ?_ (by decide) hr call hc ?_ cfg1⟩
  · intro a ha
    simp only [questionFirst, List.mem_append, List.mem_cons, List.not_mem_nil, or_false] at ha
    rcases ha with (rfl | rfl | rfl | rfl) | ha
    · exact ⟨_, rfl⟩
    · exact told_fine _ _ _ (by unfold Tv.Sane; decide +kernel) ⟨_, rfl⟩
    · trivial
    · exact told_fine _ _ _ (by unfold Tv.Sane; decide +kernel) ⟨_, rfl⟩
    · exact rounds_fine _ a ha
  · rw [k2 call hc]; rintro ⟨x, y, e⟩; cases e

/-- the question is answered in the end, however it is drawn -/
example (v : Rat) : ∃ r r', runNar env0 (course 1 vagueFirst) = .ok r ∧ moreNar env0 r [askFor (isA "a" "c"), .cycle v] = .ok r' ∧
    r'.answers ≠ [] := by
  obtain ⟨r, s, h1, h2, h3, h4, _, h5, h6⟩ := vagueExam_ok vagueFirst_exam
  obtain ⟨E, hE⟩ := (C119_course_exact env0 1 vagueFirst r vagueFirst_fine (by decide) (by decide) h1 h3 cfg1 rfl _).1 (h5.1 rfl)
  obtain ⟨r', k1, k2⟩ := C120_course_answered_iff env0 1 vagueFirst r vagueFirst_fine (by decide) (by decide) vagueFirst_silent h1 h3 h4
    (by rw [vagueFirst_told]; exact vague_facts) .INH (.Name "a") (.Name "c") ⟨_, rfl⟩ (by decide) (by decide) (by decide) cfg1 rfl v
  obtain ⟨call, hc, _⟩ := (k2 0 (by decide)).2 ⟨_, E, hE, ⟨fun t => t, rfl⟩, ⟨_, .refl _, .refl _⟩⟩
  exact ⟨r, r', h1, k1, List.ne_nil_of_mem hc⟩

/-- the two courses lead to the same knowledge, and to answers to the same questions -/
example : ∃ r r', runNar env0 (course 1 vagueFirst) = .ok r ∧ runNar env0 (course 1 vagueLast) = .ok r' ∧
    (∀ t, IsKnown r t ↔ IsKnown r' t) ∧ IsKnown r (isA "a" "c") ∧ ∀ v v', ∃ s s',
      moreNar env0 r [askFor (isA "c" "b"), .cycle v] = .ok s ∧ moreNar env0 r' [askFor (isA "c" "b"), .cycle v'] = .ok s' ∧
        ((∃ call ∈ s.answers, call.handler = .global 0) ↔ ∃ call ∈ s'.answers, call.handler = .global 0) := by
  obtain ⟨r, s, h1, h2, h3, h4, _, h5, h6⟩ := vagueExam_ok vagueFirst_exam
  obtain ⟨r', s', h1', h2', h3', h4', _⟩ := vagueExam_ok vagueLast_exam
  have hsame : (toldTerms vagueFirst).Perm (toldTerms vagueLast) := by rw [vagueFirst_told, vagueLast_told]
  refine ⟨r, r', h1, h1', C121_same_knowledge_in_the_end env0 env0 1 1 vagueFirst vagueLast r r' vagueFirst_fine vagueLast_fine (by decide) (by decide)
    (by decide) (by decide) h1 h1' h3 h3' hsame, h5.1 rfl, fun v v' => ?_⟩
  obtain ⟨s, s', k1, k2, k3⟩ := C121_same_answers_in_the_end env0 env0 1 1 vagueFirst vagueLast r r' vagueFirst_fine vagueLast_fine (by decide)
    (by decide) (by decide) (by decide) vagueFirst_silent vagueLast_silent h1 h1' h3 h3' h4 h4' hsame
    (by rw [vagueFirst_told]; exact vague_facts) .INH (.Name "c") (.Name "b") ⟨_, rfl⟩ (by decide) (by decide) (by decide) v v'
  exact ⟨s, s', k1, k2, k3 0 0 (by decide) (by decide)⟩

/-- two of the three statements in another order -/
def lessTold : List Lecture := [.tell (isA "b" "c", ⟨1, 1/2⟩), .cycle (1/2), .tell (isA "a" "b", ⟨0, 1/2⟩)] ++ rounds 6

/-- everything known after it is known after the first course -/
example : ∃ r r', runNar env0 (course 2 lessTold) = .ok r ∧ runNar env0 (course 1 vagueFirst) = .ok r' ∧
    (∀ t, IsKnown r t → IsKnown r' t) ∧ ∃ t, IsKnown r t ∧ t ∉ toldTerms lessTold := by
  have h : (runNar env0 (course 2 lessTold)).map (fun r => (courseView r, r.sh.heap.any (fun x => decide (x.sentence.term = isA "a" "c")))) =
    .ok (((true, [], 0), true, true), true) := by decide +kernel
  obtain ⟨r, hr, h⟩ := R.map_ok.1 h
  obtain ⟨k1, k2⟩ := Prod.mk.inj h
  obtain ⟨r', _, h1', _, h3', _⟩ := vagueExam_ok vagueFirst_exam
  have hf : ∀ a ∈ lessTold, a.Fine := by
    intro a ha
    simp only [lessTold, List.mem_append, List.mem_cons, List.not_mem_nil, or_false] at ha
    rcases ha with (rfl | rfl | rfl) | ha
    · exact told_fine _ _ _ (by unfold Tv.Sane; decide +kernel) ⟨_, rfl⟩
    · trivial
    · exact told_fine _ _ _ (by unfold Tv.Sane; decide +kernel) ⟨_, rfl⟩
    · exact rounds_fine _ a ha
  refine ⟨r, r', hr, h1', C121_more_told_more_known env0 env0 2 1 lessTold vagueFirst r r' hf vagueFirst_fine (by decide) (by decide) (by decide)
    (by decide) hr h1' (courseView_finished k1).1 h3' ?_, isA "a" "c", by simpa [IsKnown] using k2, by decide⟩
  rw [vagueFirst_told, show toldTerms lessTold = [isA "b" "c", isA "a" "b"] by decide]
  exact ⟨[isA "a" "b", isA "b" "c"], .swap _ _ _, by decide⟩

end Nar.Props
