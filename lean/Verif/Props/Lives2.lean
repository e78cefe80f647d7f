import Verif.Props.Apart
import Verif.Props.Again
import Verif.Props.Lives
import Verif.Props.Typed
/-! # Property theorems: unrelated matters (C124), what is said again (C125) and what is typed (C127), while things are done -/
namespace Nar.Props
open Nar Term

/-- C124: unrelated matters do not interfere while things are done either: in two lives in which the same facts and general rules about a
topic are told, and whatever else about other topics, with any acting in between, the same is known about the topic in the end. -/
theorem C124_lives_matters_partial {α : Type} (topic : String → α) (τ : α) (env env' : Env) (k k' : Nat) (ops ops' : List NarOp)
    (as as' : List Lecture) (r r' : Reasoner) (hl : Lives env ops as) (hl' : Lives env' ops' as') (hf : ∀ a ∈ as, a.Fine)
    (hf' : ∀ a ∈ as', a.Fine) (hc : cyclesOf as < 111) (hc' : cyclesOf as' < 111) (hi : inputsIn as ≤ 120) (hi' : inputsIn as' ≤ 120)
    (ht : ∀ t ∈ toldTerms as, SticksToTopic topic t) (ht' : ∀ t ∈ toldTerms as', SticksToTopic topic t) (hsame : SameAbout topic τ as as')
    (h : runNar env (.handlers k :: ops) = .ok r) (h' : runNar env' (.handlers k' :: ops') = .ok r') (hn : NoReports r.proc.ops)
    (hn' : NoReports r'.proc.ops) (fin : Finished r) (fin' : Finished r') (t : Term) (ha : About topic τ t) :
    IsKnown r t ↔ IsKnown r' t := by
  have hcfg : (createNar.cfg env).maxComplexity = 64 := rfl
  rw [C127_known_iff_deducible env k ops as r hl hf hc hi h hn fin _ hcfg t,
    C127_known_iff_deducible env' k' ops' as' r' hl' hf' hc' hi' h' hn' fin' _ hcfg t]
  exact ⟨fun ⟨_, d⟩ => deducible_same hf ht hsame d ha, fun ⟨_, d⟩ => deducible_same hf' ht' hsame.symm d ha⟩

/-- C124: and a question which mentions nothing outside the topic, and is not about a rule, is answered in both lives or in neither. -/
theorem C124_lives_answers_partial {α : Type} (topic : String → α) (τ : α) (env env' : Env) (k k' : Nat) (ops ops' : List NarOp)
    (as as' : List Lecture) (r r' : Reasoner) (hl : Lives env ops as) (hl' : Lives env' ops' as') (hf : ∀ a ∈ as, a.Fine)
    (hf' : ∀ a ∈ as', a.Fine) (hc : cyclesOf as < 111) (hc' : cyclesOf as' < 111) (hi : inputsIn as ≤ 120) (hi' : inputsIn as' ≤ 120)
    (hno : NoQuestions as) (hno' : NoQuestions as')
    (ht : ∀ t ∈ toldTerms as, SticksToTopic topic t) (ht' : ∀ t ∈ toldTerms as', SticksToTopic topic t) (hsame : SameAbout topic τ as as')
    (h : runNar env (.handlers k :: ops) = .ok r) (h' : runNar env' (.handlers k' :: ops') = .ok r') (hn : NoReports r.proc.ops)
    (hn' : NoReports r'.proc.ops) (fin : Finished r) (fin' : Finished r') (hm : RoomEverywhere r.sh.mem) (hm' : RoomEverywhere r'.sh.mem)
    (c : Copula) (a b : Term) (hq : ∀ x, Mentions (.Stmt c a b) x → topic x = τ) (hp : Printable (.Stmt c a b))
    (hcq : calcComplexity (.Stmt c a b) ≤ 64) (h1 : c ≠ .PREDIMPL) (h2 : c ≠ .IMPL) (v v' : Rat) :
    ∃ s s', moreNar env r [askFor (.Stmt c a b), .cycle v] = .ok s ∧ moreNar env' r' [askFor (.Stmt c a b), .cycle v'] = .ok s' ∧
      ∀ hd hd', hd < k → hd' < k' →
        ((∃ call ∈ s.answers, call.handler = .global hd) ↔ ∃ call ∈ s'.answers, call.handler = .global hd') := by
  have hcfg : (createNar.cfg env).maxComplexity = 64 := rfl
  obtain ⟨s, k1, k2⟩ := C127_answered_iff env k ops as r hl hf hc hi hno h hn fin hm (fun t h => (ht t h).1) c a b hp hcq h1 h2
    (createNar.cfg env) hcfg v
  obtain ⟨s', k1', k2'⟩ := C127_answered_iff env' k' ops' as' r' hl' hf' hc' hi' hno' h' hn' fin' hm' (fun t h => (ht' t h).1) c a b hp hcq
    h1 h2 (createNar.cfg env) hcfg v'
  have about : ∀ {as : List Lecture} {t : Term} {E : List Int}, (∀ a ∈ as, a.Fine) → (∀ t ∈ toldTerms as, SticksToTopic topic t) →
      Deducible (createNar.cfg env) (Lectured as) t E → (∃ θ, inst θ (.Stmt c a b) = t) → ShareAPart (.Stmt c a b) t →
      About topic τ t := by
    intro as t E hf ht d hθ hs
    obtain ⟨w, f, _⟩ := deducible_topic (lectured_topic hf ht) d
    obtain ⟨x, x1, x2⟩ := hs
    have hg : Ground t := by
      obtain ⟨θ, rfl⟩ := hθ
      rw [inst] at f ⊢
      exact f.ground h2
    obtain ⟨y, hy⟩ := ground_named (fun s hs => w s (hs.trans x2)) (hg.sub x2)
    exact ⟨y, IsSubterm.trans hy x2, hq y (IsSubterm.trans hy x1)⟩
  refine ⟨s, s', k1, k1', fun hd hd' hhd hhd' => ?_⟩
  rw [k2 hd hhd, k2' hd' hhd']
  constructor
  · rintro ⟨t, E, d, i, j⟩
    obtain ⟨E', d'⟩ := deducible_same hf ht hsame d (about hf ht d i j)
    exact ⟨t, E', d', i, j⟩
  · rintro ⟨t, E, d, i, j⟩
    obtain ⟨E', d'⟩ := deducible_same hf' ht' hsame.symm d (about hf' ht' d i j)
    exact ⟨t, E', d', i, j⟩

/-- C125: whatever is done, and however often things are said, at no time anything is known which does not follow from the statements told
by the rules. -/
theorem C125_lives_only_implied (env : Env) (k : Nat) (ops : List NarOp) (as : List Lecture) (r : Reasoner) (hl : Lives env ops as)
    (hf : ∀ a ∈ as, a.Fine) (hi : inputsIn as ≤ 120) (h : runNar env (.handlers k :: ops) = .ok r) (hn : NoReports r.proc.ops)
    (cfg : Cfg) (hcfg : cfg.maxComplexity = 64) (t : Term) (ht : IsKnown r t) : Implied cfg (· ∈ toldTerms as) t := by
  obtain ⟨E, hd⟩ := C127_only_deducible env k ops as r hl hf hi h hn cfg hcfg t ht
  refine hd.implied ?_
  rintro s ⟨p, hp, rfl⟩
  exact List.mem_map.2 ⟨p, hp, rfl⟩

/-- C125: saying again what was said takes away nothing from what is known in the end, whatever is done meanwhile. -/
theorem C125_lives_nothing_lost_partial (env : Env) (k : Nat) (ops ops' : List NarOp) (as more : List Lecture) (r r' : Reasoner)
    (hl : Lives env ops as) (hl' : Lives env ops' more) (hf : ∀ a ∈ as ++ more, a.Fine)
    (hc : cyclesOf (as ++ more) < 111) (hi : inputsIn (as ++ more) ≤ 120) (hm : ∀ t ∈ toldTerms more, t ∈ toldTerms as)
    (h : runNar env (.handlers k :: ops) = .ok r) (h' : moreNar env r ops' = .ok r') (hn : NoReports r'.proc.ops) (fin' : Finished r')
    (cfg : Cfg) (hcfg : cfg.maxComplexity = 64) :
    (∀ t, IsKnown r t → IsKnown r' t) ∧ ∀ t, IsKnown r' t → Implied cfg (· ∈ toldTerms as) t := by
  have hf1 : ∀ a ∈ as, a.Fine := fun a ha => hf a (by simp [ha])
  have hi1 : inputsIn as ≤ 120 := by rw [inputsIn_append] at hi; omega
  have hall : runNar env (.handlers k :: (ops ++ ops')) = .ok r' := moreNar_append.2 ⟨r, h, h'⟩
  have hlall := hl.append hl'
  constructor
  · intro t ht
    obtain ⟨E, hd⟩ := C127_only_deducible env k ops as r hl hf1 hi1 h (hn.before h') cfg hcfg t ht
    refine (C127_known_iff_deducible env k (ops ++ ops') (as ++ more) r' hlall hf hc hi hall hn fin' cfg hcfg t).2 (deducible_told ?_ hd)
    rw [toldTerms_append]
    exact (List.sublist_append_left _ _).subperm
  · intro t ht
    refine (C125_lives_only_implied env k (ops ++ ops') (as ++ more) r' hlall hf hi hall hn cfg hcfg t ht).mono fun x hx => ?_
    rw [toldTerms_append] at hx
    exact (List.mem_append.1 hx).elim id (hm x)

/-- C127 for what is typed, with commands for cycles and texts among the lines: when nothing is left to think about the statements known are
exactly those which can be deduced, and whatever a handler is told can be deduced at any time. -/
theorem C127_typed_life (env : Env) (k : Nat) (ops : List NarOp) (as : List Lecture) (r : Reasoner) (hl : TypedLife env ops as)
    (hf : ∀ a ∈ as, a.Fine) (hi : inputsIn as ≤ 120) (h : runNar env (.handlers k :: ops) = .ok r) (hn : NoReports r.proc.ops) (cfg : Cfg)
    (hcfg : cfg.maxComplexity = 64) :
    (cyclesOf as < 111 → Finished r → ∀ t, IsKnown r t ↔ ∃ E, Deducible cfg (Lectured as) t E) ∧
    (∀ t, IsKnown r t → ∃ E, Deducible cfg (Lectured as) t E) ∧
    ∀ call ∈ r.answers, ¬ IsTemporal call.question → ∃ n E, Deducible { cfg with maxComplexity := n } (Lectured as) call.answer.term E := by
  obtain ⟨css, h1, h2⟩ := hl
  have h' : runNar env (.handlers k :: css.flatten) = .ok r := by
    rw [← h]
    unfold runNar
    rw [moreNar_cons, moreNar_cons]
    congr 1
    funext x
    exact (asCalls_run h1 x).symm
  exact ⟨fun hc fin t => C127_known_iff_deducible env k _ as r h2 hf hc hi h' hn fin cfg hcfg t,
    fun t ht => C127_only_deducible env k _ as r h2 hf hi h' hn cfg hcfg t ht,
    fun call hcall hnt => C127_answers_deducible env k _ as r h2 hf hi h' hn call hcall hnt cfg⟩

/-- In a session operators are registered and babbled, and something happens, while two statements are typed and cycles are commanded. -/
def busySession : List NarOp :=
  [ln "// a lesson\n", ln "!por NOP ^l\n", ln "<a --> b>.\n", stepBabble, ln "<b --> c>.\n", ln "c. :|:\n", ln "!s12\n", ln "!dt\n", .declWork]

theorem lives_workRounds (n : Nat) : Lives env0 (cycleCalls (fun _ => (0, 1)) n) (workRounds n) := by
  have e : cycleCalls (fun _ => (0, 1)) n = (workRounds n).map Lecture.op := by
    unfold cycleCalls workRounds
    induction n with
    | zero => rfl
    | succ n ih =>
      rw [List.range_succ, List.flatMap_append, ih, List.replicate_succ', List.flatten_append, List.map_append]
      rfl
  rw [e]
  exact Lives.course _ _

theorem busySession_typed : TypedLife env0 busySession sessionCourse := by
  refine ⟨[[], [ln "!por NOP ^l\n"], [.tell (isA "a" "b") .JUGEMENT ⟨1, 9/10⟩ false []], [stepBabble],
    [.tell (isA "b" "c") .JUGEMENT ⟨1, 9/10⟩ false []], [ln "c. :|:\n"], cycleCalls (fun _ => (0, 1)) 12, [ln "!dt\n"], [.declWork]], ?_, ?_⟩
  · refine .cons (.line (.nothing (c := .comment) (by decide) (.inl rfl))) (.cons (.same _) (.cons (.line (.sentence (by decide)
      (.sentence (by decide +kernel)))) (.cons (.same _) (.cons (.line (.sentence (by decide) (.sentence (by decide +kernel)))) (.cons (.same _)
      (.cons (.line ?_) (.cons (.same _) (.cons (.same _) .nil))))))))
    exact StandsFor.cycles (l := "!s12\n".toList) (d := draws [] [5]) (arg := "12".toList) (n := 12) (by decide) (by decide)
  · show Lives env0 ([ln "!por NOP ^l\n", .tell (isA "a" "b") .JUGEMENT ⟨1, 9/10⟩ false [], stepBabble,
      .tell (isA "b" "c") .JUGEMENT ⟨1, 9/10⟩ false [], ln "c. :|:\n"] ++ (cycleCalls (fun _ => (0, 1)) 12 ++ [ln "!dt\n", .declWork])) sessionCourse
    unfold sessionCourse
    rw [List.append_assoc]
    refine Lives.append ?_ (Lives.append (lives_workRounds 12) ?_)
    · refine .act (.inr (.inr (.inl ⟨"NOP ^l".toList, by decide +kernel⟩))) ?_
      refine .learn (.tell (isA "a" "b", ⟨1, 9/10⟩)) ?_
      refine .act (step_acts _) ?_
      refine .learn (.tell (isA "b" "c", ⟨1, 9/10⟩)) ?_
      exact .act (event_acts _ (.Name "c") .JUGEMENT (by decide) (by decide +kernel) (by decide +kernel)) .nil
    · refine .act (.inr (.inr (.inr ⟨.debugTasks, by simp, by decide +kernel⟩))) ?_
      exact .learn .work .nil

set_option synthInstance.maxSize 2000 in
theorem busySession_view : (runNar env0 (.handlers 1 :: busySession)).map lifeView =
    .ok (((true, [], 0), true, true), ([("^l", true)], 0, 2, 1), true) := by
  decide +kernel

/-- after the session exactly what can be deduced from the two statements is known, among it `a --> c` -/
example : ∃ r, runNar env0 (.handlers 1 :: busySession) = .ok r ∧ (∀ t, IsKnown r t ↔ ∃ E, Deducible cfg1 (Lectured sessionCourse) t E) ∧
    IsKnown r (isA "a" "c") := by
  obtain ⟨r, hr, h⟩ := R.map_ok.1 busySession_view
  obtain ⟨v1, w⟩ := Prod.mk.inj h
  obtain ⟨v2, v3⟩ := Prod.mk.inj w
  obtain ⟨v4, _⟩ := Prod.mk.inj v2
  have hn : NoReports r.proc.ops := noReports_of_names (by rw [v4]; decide)
  exact ⟨r, hr, (C127_typed_life env0 1 busySession sessionCourse r busySession_typed session_fine (by decide) hr hn cfg1 rfl).1 (by decide)
    (courseView_finished v1).1, by simpa [IsKnown] using v3⟩

/-! ### a remark and a repetition in a life -/

/-- a remark about something else, and between the statements an operator is babbled and something happens -/
def remarkLife : List NarOp :=
  [ln "<x --> y>.", ln "!por NOP ^l", ln "<a --> b>.", stepBabble, ln "<b --> c>.", ln "c. :|:"] ++ (rounds 12).map Lecture.op

/-- what is learned in it -/
def remarkLessons : List Lecture :=
  [.tell (isA "x" "y", ⟨1, 9/10⟩), .tell (isA "a" "b", ⟨1, 9/10⟩), .tell (isA "b" "c", ⟨1, 9/10⟩)] ++ rounds 12

theorem remark_lives : Lives env0 remarkLife remarkLessons := by
  refine Lives.append (a := [ln "<x --> y>.", ln "!por NOP ^l", ln "<a --> b>.", stepBabble, ln "<b --> c>.", ln "c. :|:"]) ?_ (Lives.course _ _)
  refine .statement _ ⟨by decide +kernel, by decide +kernel⟩ ?_
  refine .act (.inr (.inr (.inl ⟨"NOP ^l".toList, by decide +kernel⟩))) ?_
  refine .statement _ ⟨by decide +kernel, by decide +kernel⟩ ?_
  refine .act (step_acts _) ?_
  refine .statement _ ⟨by decide +kernel, by decide +kernel⟩ ?_
  exact .act (event_acts _ (.Name "c") .JUGEMENT (by decide) (by decide +kernel) (by decide +kernel)) .nil

theorem remarkLessons_fine : ∀ a ∈ remarkLessons, a.Fine := by
  intro a ha
  simp only [remarkLessons, List.mem_append, List.mem_cons, List.not_mem_nil, or_false] at ha
  rcases ha with (rfl | rfl | rfl) | ha
  iterate 3 exact told_fine _ _ _ (by unfold Tv.Sane; decide +kernel) ⟨_, rfl⟩
  exact rounds_fine _ a ha

theorem remarkLessons_silent : NoQuestions remarkLessons := by
  intro a ha q
  simp only [remarkLessons, List.mem_append, List.mem_cons, List.not_mem_nil, or_false] at ha
  rcases ha with (rfl | rfl | rfl) | ha
  iterate 3 exact nofun
  exact rounds_silent _ a ha q

theorem quietLessons_silent : NoQuestions quietLessons := by
  intro a ha q
  simp only [quietLessons, List.mem_append, List.mem_cons, List.not_mem_nil, or_false] at ha
  rcases ha with (rfl | rfl) | ha
  iterate 2 exact nofun
  exact rounds_silent _ a ha q

theorem remarkLessons_told : toldTerms remarkLessons = [isA "x" "y", isA "a" "b", isA "b" "c"] := by decide
theorem quietLessons_told : toldTerms quietLessons = [isA "b" "c", isA "a" "b"] := by decide

set_option synthInstance.maxSize 2000 in
theorem remark_view : (runNar env0 (.handlers 1 :: remarkLife)).map lifeView = .ok (((true, [], 0), true, true), ([("^l", true)], 0, 2, 1), true) := by
  decide +kernel

/-- Neither the remark nor what was done changes what is known about `a`, `b` and `c`: it is what is known after the quiet course, among it
`a --> c`.  Whether `a` is a `c` is answered after both. -/
example (v v' : Rat) : ∃ r r' s s', runNar env0 (.handlers 1 :: remarkLife) = .ok r ∧ runNar env0 (course 1 quietLessons) = .ok r' ∧
    (∀ t, About matter false t → (IsKnown r t ↔ IsKnown r' t)) ∧ IsKnown r (isA "a" "c") ∧
    moreNar env0 r [askFor (isA "a" "c"), .cycle v] = .ok s ∧ moreNar env0 r' [askFor (isA "a" "c"), .cycle v'] = .ok s' ∧
    ((∃ call ∈ s.answers, call.handler = .global 0) ↔ ∃ call ∈ s'.answers, call.handler = .global 0) := by
  obtain ⟨r, hr, h⟩ := R.map_ok.1 remark_view
  obtain ⟨r', hr', h'⟩ := R.map_ok.1 quiet_view
  obtain ⟨v1, w⟩ := Prod.mk.inj h
  obtain ⟨v2, v3⟩ := Prod.mk.inj w
  obtain ⟨v4, _⟩ := Prod.mk.inj v2
  obtain ⟨w1, w⟩ := Prod.mk.inj h'
  obtain ⟨w2, w3⟩ := Prod.mk.inj w
  obtain ⟨w4, _⟩ := Prod.mk.inj w2
  have hn : NoReports r.proc.ops := noReports_of_names (by rw [v4]; decide)
  have hn' : NoReports r'.proc.ops := noReports_of_names (by rw [w4]; decide)
  obtain ⟨f1, f2⟩ := courseView_finished v1
  obtain ⟨g1, g2⟩ := courseView_finished w1
  have ht : ∀ t ∈ toldTerms remarkLessons, SticksToTopic matter t := by
    rw [remarkLessons_told]
    intro t ht
    simp only [List.mem_cons, List.not_mem_nil, or_false] at ht
    rcases ht with rfl | rfl | rfl <;> exact isA_sticks _ _ (by decide)
  have ht' : ∀ t ∈ toldTerms quietLessons, SticksToTopic matter t := by
    rw [quietLessons_told]
    intro t ht
    simp only [List.mem_cons, List.not_mem_nil, or_false] at ht
    rcases ht with rfl | rfl <;> exact isA_sticks _ _ (by decide)
  have hsame : SameAbout matter false remarkLessons quietLessons := by
    refine ⟨fun t => !decide (t = isA "x" "y"), fun t ht => ?_, ?_⟩
    · rw [remarkLessons_told, quietLessons_told] at ht
      have : t = isA "x" "y" ∨ t = isA "a" "b" ∨ t = isA "b" "c" := by
        simp only [List.mem_cons, List.not_mem_nil, or_false] at ht
        tauto
      rcases this with rfl | rfl | rfl <;> rw [isA_about] <;> decide
    · rw [remarkLessons_told, quietLessons_told]
      decide
  obtain ⟨s, s', k1, k2, k3⟩ := C124_lives_answers_partial matter false env0 env0 1 1 remarkLife (quietLessons.map Lecture.op) remarkLessons
    quietLessons r r' remark_lives (Lives.course _ _) remarkLessons_fine quietLessons_fine (by decide) (by decide) (by decide) (by decide)
    remarkLessons_silent quietLessons_silent ht ht' hsame hr hr' hn hn' f1 g1 f2 g2 .INH (.Name "a") (.Name "c")
    (fun x hx => by rcases mentions_isA.1 hx with rfl | rfl <;> decide) ⟨_, rfl⟩ (by decide) (by decide) (by decide) v v'
  exact ⟨r, r', s, s', hr, hr', C124_lives_matters_partial matter false env0 env0 1 1 remarkLife (quietLessons.map Lecture.op) remarkLessons
    quietLessons r r' remark_lives (Lives.course _ _) remarkLessons_fine quietLessons_fine (by decide) (by decide) (by decide) (by decide)
    ht ht' hsame hr hr' hn hn' f1 g1, (by simpa [IsKnown] using v3), k1, k2, k3 0 0 (by decide) (by decide)⟩

/-- It is typed again that `a` is a `b`, the operator is babbled again, and it is thought to the end. -/
def againLife : List NarOp := [ln "<a --> b>.", stepBabble] ++ (rounds 17).map Lecture.op

/-- what is learned in it -/
def againLessons : List Lecture := [.tell (isA "a" "b", ⟨1, 9/10⟩)] ++ rounds 17

theorem again_lives : Lives env0 againLife againLessons := by
  refine Lives.append (a := [ln "<a --> b>.", stepBabble]) ?_ (Lives.course _ _)
  exact .statement _ ⟨by decide +kernel, by decide +kernel⟩ (.act (step_acts _) .nil)

set_option synthInstance.maxSize 2000 in
theorem again_view : (runNar env0 (.handlers 1 :: (babblingLife ++ againLife))).map lifeView =
    .ok (((true, [], 0), true, true), ([("^l", true)], 0, 2, 2), true) := by
  decide +kernel

/-- After the babbling life it is typed again that `a` is a `b`: what was known stays known, and all follows from what was said. -/
example : ∃ r r', runNar env0 (.handlers 1 :: babblingLife) = .ok r ∧ moreNar env0 r againLife = .ok r' ∧ (∀ t, IsKnown r t → IsKnown r' t) ∧
    IsKnown r' (isA "a" "c") ∧ ∀ t, IsKnown r' t → Implied cfg1 (· ∈ toldTerms babblingLessons) t := by
  obtain ⟨r', hr', h⟩ := R.map_ok.1 again_view
  obtain ⟨v1, w⟩ := Prod.mk.inj h
  obtain ⟨v2, v3⟩ := Prod.mk.inj w
  obtain ⟨v4, _⟩ := Prod.mk.inj v2
  have hn : NoReports r'.proc.ops := noReports_of_names (by rw [v4]; decide)
  obtain ⟨r, k1, k2⟩ := moreNar_append.1 (show moreNar env0 createNar ((.handlers 1 :: babblingLife) ++ againLife) = .ok r' from hr')
  have hf : ∀ a ∈ babblingLessons ++ againLessons, a.Fine := by
    intro a ha
    rcases List.mem_append.1 ha with ha | ha
    · exact babblingLessons_fine a ha
    · simp only [againLessons, List.mem_append, List.mem_cons, List.not_mem_nil, or_false] at ha
      rcases ha with rfl | ha
      · exact told_fine _ _ _ (by unfold Tv.Sane; decide +kernel) ⟨_, rfl⟩
      · exact rounds_fine _ a ha
  obtain ⟨g1, g2⟩ := C125_lives_nothing_lost_partial env0 1 babblingLife againLife babblingLessons againLessons r r' babbling_lives again_lives hf
    (by decide) (by decide) (by rw [show toldTerms againLessons = [isA "a" "b"] by decide, show toldTerms babblingLessons = [isA "a" "b", isA "b" "c"] by decide]; simp)
    k1 k2 hn (courseView_finished v1).1 cfg1 rfl
  exact ⟨r, r', k1, k2, g1, by simpa [IsKnown] using v3, g2⟩

end Nar.Props
