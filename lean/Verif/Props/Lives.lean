import Verif.Lemmas.Lives2
import Verif.Props.Course
import Verif.Props.Chance
/-! # Property theorems: thinking and acting at the same time (C127) -/
namespace Nar.Props
open Nar Term

/-- C127: statements are told or typed, questions are asked, cycles and rounds of the worker are done, and all the while things happen, goals
are set, rules for acting are told, operators are registered and steps are taken, in any arrangement; no operator reports relations.  When
nothing is left to think about the statements known are exactly those which can be deduced from the ones told. -/
theorem C127_known_iff_deducible (env : Env) (k : Nat) (ops : List NarOp) (as : List Lecture) (r : Reasoner) (hl : Lives env ops as)
    (hf : ∀ a ∈ as, a.Fine) (hc : cyclesOf as < 111) (hi : inputsIn as ≤ 120) (h : runNar env (.handlers k :: ops) = .ok r)
    (hn : NoReports r.proc.ops) (fin : Finished r) (cfg : Cfg) (hcfg : cfg.maxComplexity = 64) (t : Term) :
    IsKnown r t ↔ ∃ E, Deducible cfg (Lectured as) t E := by
  obtain ⟨⟨sys, told, nums, next, g1, g2, _⟩, _⟩ := hl.lived hf h hn
  rw [show IsKnown r t ↔ _ from C119_known_iff_deducible (r.cfg env) sys r.sys g1 g2.sane g2.flush (by rw [g2.cycles]; exact hc) fin.room fin.rest
    _ (by rw [List.length_map, g2.count]; exact hi) g2.evidence t]
  exact g2.deducible g2.complexity hcfg

/-- C127: at every moment, however long the life was and however crowded the memory is, whatever is known can be deduced from the statements
told: acting adds no knowledge. -/
theorem C127_only_deducible (env : Env) (k : Nat) (ops : List NarOp) (as : List Lecture) (r : Reasoner) (hl : Lives env ops as)
    (hf : ∀ a ∈ as, a.Fine) (hi : inputsIn as ≤ 120) (h : runNar env (.handlers k :: ops) = .ok r) (hn : NoReports r.proc.ops)
    (cfg : Cfg) (hcfg : cfg.maxComplexity = 64) (t : Term) (ht : IsKnown r t) : ∃ E, Deducible cfg (Lectured as) t E := by
  obtain ⟨⟨sys, told, nums, next, g1, g2, _⟩, _⟩ := hl.lived hf h hn
  obtain ⟨x, hx, rfl⟩ := ht
  obtain ⟨E, h1, _⟩ := C119_only_deducible (r.cfg env) sys r.sys g1 g2.sane _ (by rw [List.length_map, g2.count]; exact hi) g2.evidence x hx
  exact (g2.deducible g2.complexity hcfg).1 ⟨E, h1⟩

/-- C127: what is known in the end does not depend on what was done: of two lives in which the same statements were told, in whatever order
and with whatever truth values, with any acting in between, when both have thought to the end each knows what the other knows. -/
theorem C127_knowledge_not_by_deeds (env env' : Env) (k k' : Nat) (ops ops' : List NarOp) (as as' : List Lecture) (r r' : Reasoner)
    (hl : Lives env ops as) (hl' : Lives env' ops' as') (hf : ∀ a ∈ as, a.Fine) (hf' : ∀ a ∈ as', a.Fine) (hc : cyclesOf as < 111)
    (hc' : cyclesOf as' < 111) (hi : inputsIn as ≤ 120) (hi' : inputsIn as' ≤ 120) (h : runNar env (.handlers k :: ops) = .ok r)
    (h' : runNar env' (.handlers k' :: ops') = .ok r') (hn : NoReports r.proc.ops) (hn' : NoReports r'.proc.ops) (fin : Finished r)
    (fin' : Finished r') (hsame : (toldTerms as).Perm (toldTerms as')) (t : Term) : IsKnown r t ↔ IsKnown r' t := by
  have hcfg : (createNar.cfg env).maxComplexity = 64 := rfl
  rw [C127_known_iff_deducible env k ops as r hl hf hc hi h hn fin _ hcfg t,
    C127_known_iff_deducible env' k' ops' as' r' hl' hf' hc' hi' h' hn' fin' _ hcfg t]
  exact ⟨fun ⟨_, hd⟩ => deducible_told hsame.subperm hd, fun ⟨_, hd⟩ => deducible_told hsame.symm.subperm hd⟩

/-- C127: whatever a handler is told about a question which is not about time can be deduced from the statements told, however much is
done meanwhile; what happens and what is wanted is no ground for an answer. -/
theorem C127_answers_deducible (env : Env) (k : Nat) (ops : List NarOp) (as : List Lecture) (r : Reasoner) (hl : Lives env ops as)
    (hf : ∀ a ∈ as, a.Fine) (hi : inputsIn as ≤ 120) (h : runNar env (.handlers k :: ops) = .ok r) (hn : NoReports r.proc.ops)
    (call : AnswerCall) (hcall : call ∈ r.answers) (hnt : ¬ IsTemporal call.question) (cfg : Cfg) :
    ∃ n E, Deducible { cfg with maxComplexity := n } (Lectured as) call.answer.term E := by
  obtain ⟨⟨sys, told, nums, next, g1, g2, _⟩, _⟩ := hl.lived hf h hn
  obtain ⟨n, E, h1, _⟩ := C120_answers_deducible (r.cfg env) sys r.sys g1 g2.sane _ (by rw [List.length_map, g2.count]; exact hi) g2.evidence call
    hcall hnt
  obtain ⟨F, hF⟩ := (g2.deducible (cfg := { r.cfg env with maxComplexity := n }) (cfg' := { cfg with maxComplexity := n }) rfl rfl).1 ⟨E, h1⟩
  exact ⟨n, F, hF⟩

/-- C127: after a life without questions, in which facts and general rules were told and whatever was done, a question which is neither about
a rule nor about time is answered by the next cycle exactly if some instance of it which has a part in common with it can be deduced. -/
theorem C127_answered_iff (env : Env) (k : Nat) (ops : List NarOp) (as : List Lecture) (r : Reasoner) (hl : Lives env ops as)
    (hf : ∀ a ∈ as, a.Fine) (hc : cyclesOf as < 111) (hi : inputsIn as ≤ 120) (hno : NoQuestions as)
    (h : runNar env (.handlers k :: ops) = .ok r) (hn : NoReports r.proc.ops) (fin : Finished r) (hm : RoomEverywhere r.sh.mem)
    (hfacts : ∀ t ∈ toldTerms as, FactOrRule t) (c : Copula) (a b : Term) (hp : Printable (.Stmt c a b))
    (hcq : calcComplexity (.Stmt c a b) ≤ 64) (h1 : c ≠ .PREDIMPL) (h2 : c ≠ .IMPL) (cfg : Cfg) (hcfg : cfg.maxComplexity = 64) (v : Rat) :
    ∃ r', moreNar env r [askFor (.Stmt c a b), .cycle v] = .ok r' ∧ ∀ hd, hd < k →
      ((∃ call ∈ r'.answers, call.handler = .global hd) ↔
        ∃ t E, Deducible cfg (Lectured as) t E ∧ (∃ θ, inst θ (.Stmt c a b) = t) ∧ ShareAPart (.Stmt c a b) t) := by
  obtain ⟨q, hq⟩ : ∃ q, q = Term.Stmt c a b := ⟨_, rfl⟩
  have hnt : ¬ IsTemporal q := by rw [hq]; rintro ⟨x, y, e⟩; cases e; exact h1 rfl
  have hknown := C127_known_iff_deducible env k ops as r hl hf hc hi h hn fin cfg hcfg
  obtain ⟨⟨sys, told, nums, next, g1, g2, _, hk⟩, hsafe, halive⟩ := hl.lived hf h hn
  have hrec : Recalls r.sh := g2.recalls g1
  obtain ⟨hq0, ha0⟩ : r.sh.questionTasks = [] ∧ r.answers = [] := g2.silent g1 hno
  have hground := grounded_run (by rw [List.length_map, g2.count]; exact hi) g1 g2.sane g2.evidence
  rw [← hq] at hp hcq ⊢
  obtain ⟨r1, k1⟩ := NarOp.run_total hsafe halive (op := askFor q) ⟨hp, (by intro h; cases h), (by intro h; cases h)⟩
  obtain ⟨e1, e2, e3, e4, t0, e5, e6, e7, e8⟩ := Nar.asked h hcq k1
  rw [hq0, List.nil_append] at e5
  have hr1 : runNar env (.handlers k :: (ops ++ [askFor q])) = .ok r1 := by
    rw [← List.cons_append]
    exact moreNar_append.2 ⟨r, h, foldlM_cons_ok.2 ⟨r1, k1, rfl⟩⟩
  obtain ⟨_, s1, s2⟩ := (hl.append (.learn (.ask q) .nil)).lived (k := k) (by
    intro x hx
    rcases List.mem_append.1 hx with hx | hx
    · exact hf x hx
    · rw [List.mem_singleton.1 hx]; exact hp) hr1 (by rw [(inputT2_frame k1).2.2.1]; exact hn)
  obtain ⟨r2, k2⟩ := cycle_total s1 (.inl s2) v
  have hlook : r1.look.mem = r.sh.mem := by rw [← e1]; unfold Reasoner.look; split <;> rfl
  refine ⟨r2, foldlM_cons_ok.2 ⟨r1, k1, foldlM_cons_ok.2 ⟨r2, k2, rfl⟩⟩, fun hd hhd => ⟨?_, ?_⟩⟩
  · rintro ⟨call, hcall, _⟩
    obtain ⟨_, calls, c2, _, hcase⟩ := cycle_asks k2
    rw [e2, ha0, List.nil_append] at c2
    rw [c2] at hcall
    rcases hcase with ⟨h0, _⟩ | ⟨j, q0, q', cands, d1, d2, d3, d4, d5⟩
    · rw [h0] at e5; cases e5
    have hq0t : q0 = t0 := by
      rw [e5] at d2
      have := List.mem_of_getElem? d2
      simpa using this
    subst hq0t
    obtain ⟨_, _, _, _, _, _, _, _, hsub, w3, _, _, w6⟩ := qaTryAll_spec d4
    obtain ⟨j1, j2⟩ := w6 call hcall
    rcases (d3 _).1 (hsub.subset j2) with ⟨hq', _⟩ | ⟨_, x, hx, hb⟩
    · rw [e6] at hq'; exact absurd hq' hnt
    rw [hlook] at hb
    rw [e6] at hx
    obtain ⟨b1, b2⟩ := hground.all.2.under hb
    obtain ⟨σ, hσ⟩ := Option.isSome_iff_exists.1 ((w3 _ j2).1).2
    rw [e6] at hσ
    obtain ⟨E, d1, d2⟩ := b1.deduced
    obtain ⟨F, f1⟩ := (g2.deducible g2.complexity hcfg).1 ⟨E, d1⟩
    exact ⟨_, F, f1, ⟨_, (unifySubst_eq_inst σ _).symm.trans (C02_match_sound _ _ σ hσ)⟩, ⟨x, hx, b2⟩⟩
  · rintro ⟨t, E, hd1, hi1, ⟨x, hx1, hx2⟩⟩
    have hg : Ground t := by
      have := deducible_facts (lectured_facts hfacts) hd1
      obtain ⟨θ, rfl⟩ := hi1
      rw [hq, inst] at this ⊢
      exact this.ground h2
    obtain ⟨y, hy, rfl⟩ := (hknown t).2 ⟨E, hd1⟩
    obtain ⟨bf, b1, b2, b3⟩ := hrec.found hm hy hx2
    obtain ⟨e, he1, he2⟩ := good_expects b3
    have hcand : Candidate r1.look t0.sentence.term bf := .inr ⟨by rw [e6]; exact hnt, x, by rw [e6]; exact hx1, by rw [hlook]; exact b1⟩
    have hcan : CanAnswer t0 bf := ⟨b3.1, by rw [e6, b2]; exact (C03_match_iff_instance q _ hg).2 hi1⟩
    obtain ⟨_, _, _, _, w4⟩ := C104_only_question env r1 r2 v t0 k2 e5 _ hcand hcan _ he1
    obtain ⟨call, j1, j2, _⟩ := w4 (by rw [e7]; exact he2) hd (by rw [e3, hk]; exact hhd)
    exact ⟨call, List.mem_of_mem_drop j1, j2⟩

/-! ### a busy life and a quiet one -/

/-- after `c`, the operator `^l` leads to `d` -/
def ruleCLD : Term :=
  .Stmt .PREDIMPL (.Seq [.Name "c", .Stmt .INH (.SetExt [.Prod [.SetExt [.Name "SELF"]]]) (.Name "^l")]) (.Name "d")

/-- An operator is registered, and babbled; things happen; a rule for acting is told, a goal is set and pursued.  Meanwhile it is typed that
`a` is a `b` and `b` is a `c`, a question is typed, and it is thought about. -/
def busyLife : List NarOp :=
  [ln "!por NOP ^l", ln "<a --> b>.", ln "c. :|:", stepBabble, .tell ruleCLD .JUGEMENT ⟨1, 9/10⟩ false [], ln "<b --> c>.", ln "d! :|:",
   ln "c. :|:", stepIdle [[]]] ++ ((rounds 3).map Lecture.op ++ ([.procWork [], ln "a. :|:", stepIdle [], ln "<?x --> c>? :|:"] ++
   (rounds 8).map Lecture.op))

/-- what is learned in it -/
def busyLessons : List Lecture :=
  [.tell (isA "a" "b", ⟨1, 9/10⟩), .tell (isA "b" "c", ⟨1, 9/10⟩)] ++ (rounds 3 ++ ([.ask (.Stmt .INH (.QVar "x") (.Name "c"))] ++ rounds 8))

/-- the statements are told, and thought about -/
def quietLessons : List Lecture := [.tell (isA "b" "c", ⟨1, 9/10⟩), .tell (isA "a" "b", ⟨1, 9/10⟩)] ++ rounds 10

theorem event_acts (s : String) (t : Term) (punct : Punct) (hp : punct ≠ .QUESTION) (h : dispatch (trimNewline s.toList) = .ok .narsese)
    (h2 : parseNarsese env0.pf (trimNewline s.toList) = .ok (some (t, ⟨1, 9/10⟩, punct, true))) : Acts env0 (ln s) :=
  .inl ⟨h, t, _, punct, true, h2, by simpa [ForActing] using hp⟩

theorem step_acts (d : LineDraws) : Acts env0 (.line "!sp".toList d) := .inr (.inr (.inr ⟨.step, by simp, by decide +kernel⟩))

theorem busy_lives : Lives env0 busyLife busyLessons := by
  refine Lives.append (a := [ln "!por NOP ^l", ln "<a --> b>.", ln "c. :|:", stepBabble, .tell ruleCLD .JUGEMENT ⟨1, 9/10⟩ false [],
    ln "<b --> c>.", ln "d! :|:", ln "c. :|:", stepIdle [[]]]) ?_ (Lives.append (Lives.course _ _) (Lives.append
      (a := [.procWork [], ln "a. :|:", stepIdle [], ln "<?x --> c>? :|:"]) ?_ (Lives.course _ _)))
  · refine .act (.inr (.inr (.inl ⟨"NOP ^l".toList, by decide +kernel⟩))) ?_
    refine .statement _ ⟨by decide +kernel, by decide +kernel⟩ ?_
    refine .act (event_acts _ (.Name "c") .JUGEMENT (by decide) (by decide +kernel) (by decide +kernel)) ?_
    refine .act (step_acts _) ?_
    refine .act (show ForActing ruleCLD .JUGEMENT false from .inl (by decide)) ?_
    refine .statement _ ⟨by decide +kernel, by decide +kernel⟩ ?_
    refine .act (event_acts _ (.Name "d") .GOAL (by decide) (by decide +kernel) (by decide +kernel)) ?_
    refine .act (event_acts _ (.Name "c") .JUGEMENT (by decide) (by decide +kernel) (by decide +kernel)) ?_
    exact .act (step_acts _) .nil
  · refine .act trivial ?_
    refine .act (event_acts _ (.Name "a") .JUGEMENT (by decide) (by decide +kernel) (by decide +kernel)) ?_
    refine .act (step_acts _) ?_
    exact .question (tv := ⟨1, 9/10⟩) _ ⟨by decide +kernel, by decide +kernel⟩ .nil

theorem busyLessons_fine : ∀ a ∈ busyLessons, a.Fine := by
  intro a ha
  simp only [busyLessons, List.mem_append, List.mem_cons, List.not_mem_nil, or_false] at ha
  rcases ha with (rfl | rfl) | ha | rfl | ha
  · exact told_fine _ _ _ (by unfold Tv.Sane; decide +kernel) ⟨_, rfl⟩
  · exact told_fine _ _ _ (by unfold Tv.Sane; decide +kernel) ⟨_, rfl⟩
  · exact rounds_fine _ a ha
  · exact ⟨_, rfl⟩
  · exact rounds_fine _ a ha

theorem quietLessons_fine : ∀ a ∈ quietLessons, a.Fine := by
  intro a ha
  simp only [quietLessons, List.mem_append, List.mem_cons, List.not_mem_nil, or_false] at ha
  rcases ha with (rfl | rfl) | ha
  · exact told_fine _ _ _ (by unfold Tv.Sane; decide +kernel) ⟨_, rfl⟩
  · exact told_fine _ _ _ (by unfold Tv.Sane; decide +kernel) ⟨_, rfl⟩
  · exact rounds_fine _ a ha

/-- what the examples look at: also which operators there are, how many answers were given, what happened, and whether `a --> c` is known -/
def lifeView (r : Reasoner) : ((Bool × List Nat × Nat) × Bool × Bool) × (List (String × Bool) × Nat × Nat × Int) × Bool :=
  (courseView r, (r.proc.ops.map (fun o => (o.name, o.babbleable)), r.answers.length, r.proc.trace.length, r.proc.t),
  r.sh.heap.any (fun x => decide (x.sentence.term = isA "a" "c")))

set_option synthInstance.maxSize 2000 in
theorem busy_view : (runNar env0 (.handlers 1 :: busyLife)).map lifeView = .ok (((true, [], 0), true, true), ([("^l", true)], 1, 5, 3), true) := by
  decide +kernel

set_option synthInstance.maxSize 2000 in
theorem quiet_view : (runNar env0 (course 1 quietLessons)).map lifeView = .ok (((true, [], 0), true, true), ([], 0, 0, 0), true) := by
  decide +kernel

theorem noReports_of_names {ops : List Op} (h : ∀ p ∈ ops.map (fun o => (o.name, o.babbleable)), p.2 = true ∨ p.1 ≠ "^nlpRel0") : NoReports ops :=
  fun o ho => h (o.name, o.babbleable) (List.mem_map.2 ⟨o, ho, rfl⟩)

/-- In the busy life five things happened, among them the operator twice, and an answer was given.  In the end exactly the statements are
known which can be deduced, just as in the quiet life; the answer can be deduced. -/
example : ∃ r r', runNar env0 (.handlers 1 :: busyLife) = .ok r ∧ runNar env0 (course 1 quietLessons) = .ok r' ∧ r.proc.trace.length = 5 ∧
    (∀ t, IsKnown r t ↔ ∃ E, Deducible cfg1 (Lectured busyLessons) t E) ∧ (∀ t, IsKnown r t ↔ IsKnown r' t) ∧ IsKnown r (isA "a" "c") ∧
    r.answers ≠ [] ∧ ∀ call ∈ r.answers, ¬ IsTemporal call.question →
      ∃ n E, Deducible { cfg1 with maxComplexity := n } (Lectured busyLessons) call.answer.term E := by
  obtain ⟨r, hr, h⟩ := R.map_ok.1 busy_view
  obtain ⟨r', hr', h'⟩ := R.map_ok.1 quiet_view
  obtain ⟨v1, v⟩ := Prod.mk.inj h
  obtain ⟨v2, v3⟩ := Prod.mk.inj v
  simp only [Prod.mk.injEq] at v2
  obtain ⟨v4, v5, v6, _⟩ := v2
  obtain ⟨w1, w⟩ := Prod.mk.inj h'
  obtain ⟨w2, w3⟩ := Prod.mk.inj w
  obtain ⟨w4, _⟩ := Prod.mk.inj w2
  have hn : NoReports r.proc.ops := noReports_of_names (by rw [v4]; decide)
  have hn' : NoReports r'.proc.ops := noReports_of_names (by rw [w4]; decide)
  refine ⟨r, r', hr, hr', v6, C127_known_iff_deducible env0 1 busyLife busyLessons r busy_lives busyLessons_fine (by decide) (by decide) hr hn
    (courseView_finished v1).1 cfg1 rfl, C127_knowledge_not_by_deeds env0 env0 1 1 busyLife (quietLessons.map Lecture.op) busyLessons quietLessons r r'
    busy_lives (Lives.course _ _) busyLessons_fine quietLessons_fine (by decide) (by decide) (by decide) (by decide) hr hr' hn hn'
    (courseView_finished v1).1 (courseView_finished w1).1 (by decide), ?_, (fun e => by rw [e] at v5; cases v5), fun call hc hnt =>
    C127_answers_deducible env0 1 busyLife busyLessons r busy_lives busyLessons_fine (by decide) hr hn call hc hnt cfg1⟩
  simpa [IsKnown] using v3

/-- A life in which an operator is babbled between the statements, and no question is asked: the question whether `a` is a `c` is answered
in the end, however it is drawn. -/
def babblingLife : List NarOp :=
  [ln "!por NOP ^l", ln "<a --> b>.", stepBabble, ln "<b --> c>."] ++ (rounds 10).map Lecture.op

/-- what is learned in it -/
def babblingLessons : List Lecture := [.tell (isA "a" "b", ⟨1, 9/10⟩), .tell (isA "b" "c", ⟨1, 9/10⟩)] ++ rounds 10

theorem babbling_lives_long (n : Nat) : Lives env0 ([ln "!por NOP ^l", ln "<a --> b>.", stepBabble, ln "<b --> c>."] ++ (rounds n).map Lecture.op)
    ([.tell (isA "a" "b", ⟨1, 9/10⟩), .tell (isA "b" "c", ⟨1, 9/10⟩)] ++ rounds n) := by
  refine Lives.append (a := [ln "!por NOP ^l", ln "<a --> b>.", stepBabble, ln "<b --> c>."]) ?_ (Lives.course _ _)
  refine .act (.inr (.inr (.inl ⟨"NOP ^l".toList, by decide +kernel⟩))) ?_
  refine .statement _ ⟨by decide +kernel, by decide +kernel⟩ ?_
  refine .act (step_acts _) ?_
  exact .statement _ ⟨by decide +kernel, by decide +kernel⟩ .nil

theorem babbling_lives : Lives env0 babblingLife babblingLessons := babbling_lives_long 10

theorem babblingLessons_fine : ∀ a ∈ babblingLessons, a.Fine := by
  intro a ha
  simp only [babblingLessons, List.mem_append, List.mem_cons, List.not_mem_nil, or_false] at ha
  rcases ha with (rfl | rfl) | ha
  · exact told_fine _ _ _ (by unfold Tv.Sane; decide +kernel) ⟨_, rfl⟩
  · exact told_fine _ _ _ (by unfold Tv.Sane; decide +kernel) ⟨_, rfl⟩
  · exact rounds_fine _ a ha

theorem babblingLessons_silent : NoQuestions babblingLessons := by
  intro a ha q
  simp only [babblingLessons, List.mem_append, List.mem_cons, List.not_mem_nil, or_false] at ha
  rcases ha with (rfl | rfl) | ha
  · exact nofun
  · exact nofun
  · exact rounds_silent _ a ha q

set_option synthInstance.maxSize 2000 in
theorem babbling_view : (runNar env0 (.handlers 1 :: babblingLife)).map lifeView = .ok (((true, [], 0), true, true), ([("^l", true)], 0, 1, 1), true) := by
  decide +kernel

theorem inputsIn_rounds (n : Nat) : inputsIn (rounds n) = 0 := by
  induction n with
  | zero => rfl
  | succ n ih =>
    rw [show rounds (n + 1) = [.cycle 0, .work] ++ rounds n from by simp [rounds, List.replicate_succ], inputsIn_append, ih]; rfl

/-- However long it is thought, nothing is known in this life which cannot be deduced from the two statements; after ten cycles `a --> c` is. -/
example : (∀ n r, runNar env0 (.handlers 1 :: ([ln "!por NOP ^l", ln "<a --> b>.", stepBabble, ln "<b --> c>."] ++ (rounds n).map Lecture.op)) = .ok r →
      NoReports r.proc.ops → ∀ t, IsKnown r t → ∃ E, Deducible cfg1 (Lectured ([.tell (isA "a" "b", ⟨1, 9/10⟩), .tell (isA "b" "c", ⟨1, 9/10⟩)] ++ rounds n)) t E) ∧
    ∃ r, runNar env0 (.handlers 1 :: babblingLife) = .ok r ∧ NoReports r.proc.ops ∧ IsKnown r (isA "a" "c") := by
  refine ⟨fun n r h hn t ht => C127_only_deducible env0 1 _ _ r (babbling_lives_long n) ?_ ?_ h hn cfg1 rfl t ht, ?_⟩
  · intro a ha
    simp only [List.mem_append, List.mem_cons, List.not_mem_nil, or_false] at ha
    rcases ha with (rfl | rfl) | ha
    · exact told_fine _ _ _ (by unfold Tv.Sane; decide +kernel) ⟨_, rfl⟩
    · exact told_fine _ _ _ (by unfold Tv.Sane; decide +kernel) ⟨_, rfl⟩
    · exact rounds_fine _ a ha
  · show inputsIn (_ :: _ :: rounds n) ≤ 120
    have := inputsIn_rounds n
    simp [inputsIn] at this ⊢
    omega
  · obtain ⟨r, hr, h⟩ := R.map_ok.1 babbling_view
    obtain ⟨_, w⟩ := Prod.mk.inj h
    obtain ⟨v2, v3⟩ := Prod.mk.inj w
    simp only [Prod.mk.injEq] at v2
    exact ⟨r, hr, noReports_of_names (by rw [v2.1]; decide), by simpa [IsKnown] using v3⟩

example (v : Rat) : ∃ r r', runNar env0 (.handlers 1 :: babblingLife) = .ok r ∧ moreNar env0 r [askFor (isA "a" "c"), .cycle v] = .ok r' ∧
    r.answers = [] ∧ r'.answers ≠ [] := by
  obtain ⟨r, hr, h⟩ := R.map_ok.1 babbling_view
  obtain ⟨v1, w⟩ := Prod.mk.inj h
  obtain ⟨v2, v3⟩ := Prod.mk.inj w
  simp only [Prod.mk.injEq] at v2
  obtain ⟨v4, v5, _⟩ := v2
  have hn : NoReports r.proc.ops := noReports_of_names (by rw [v4]; decide)
  obtain ⟨f1, f2⟩ := courseView_finished v1
  have hfacts : ∀ t ∈ toldTerms babblingLessons, FactOrRule t := by
    rw [show toldTerms babblingLessons = [isA "a" "b", isA "b" "c"] from by decide]
    intro t ht
    simp only [List.mem_cons, List.not_mem_nil, or_false] at ht
    rcases ht with rfl | rfl <;> exact .inl (isA_ground _ _)
  obtain ⟨E, hE⟩ := (C127_known_iff_deducible env0 1 babblingLife babblingLessons r babbling_lives babblingLessons_fine (by decide) (by decide) hr hn f1
    cfg1 rfl (isA "a" "c")).1 (by simpa [IsKnown] using v3)
  obtain ⟨r', k1, k2⟩ := C127_answered_iff env0 1 babblingLife babblingLessons r babbling_lives babblingLessons_fine (by decide) (by decide)
    babblingLessons_silent hr hn f1 f2 hfacts .INH (.Name "a") (.Name "c") ⟨_, rfl⟩ (by decide) (by decide) (by decide) cfg1 rfl v
  obtain ⟨call, hc, _⟩ := (k2 0 (by decide)).2 ⟨_, E, hE, ⟨fun t => t, rfl⟩, ⟨_, .refl _, .refl _⟩⟩
  exact ⟨r, r', hr, k1, List.length_eq_zero_iff.1 v5, List.ne_nil_of_mem hc⟩

end Nar.Props
