import Verif.Lemmas.Typed
import Verif.Props.Course
import Verif.Props.Typing
/-! # Property theorems: typed courses (C113, C119, C120, C121) -/
namespace Nar.Props
open Nar Term

/-- C113: a session of typed lines which stand for a course does what the course does. -/
theorem C113_typed_course (env : Env) (k : Nat) (ops : List NarOp) (as : List Lecture) (ht : TypedCourse env ops as)
    (hf : ∀ a ∈ as, a.Fine) : runNar env (.handlers k :: ops) = runNar env (course k as) := ht.course hf k

/-- C119 for what is typed: the lines tell statements, ask questions and command cycles, in any arrangement.  When nothing is left to
think about the statements known are exactly those which can be deduced from the ones typed. -/
theorem C119_typed_exact (env : Env) (k : Nat) (ops : List NarOp) (as : List Lecture) (r : Reasoner) (ht : TypedCourse env ops as)
    (hf : ∀ a ∈ as, a.Fine) (hc : cyclesOf as < 111) (hi : inputsIn as ≤ 120) (h : runNar env (.handlers k :: ops) = .ok r)
    (fin : Finished r) (cfg : Cfg) (hcfg : cfg.maxComplexity = 64) (t : Term) :
    IsKnown r t ↔ ∃ E, Deducible cfg (Lectured as) t E :=
  C119_course_exact env k as r hf hc hi ((ht.course hf k).symm.trans h) fin cfg hcfg t

/-- C120 for what is typed: whatever a handler is told in a session of lines about a question which is not about time can be deduced from
the statements typed, with no more evidence than is given for it. -/
theorem C120_typed_answers (env : Env) (k : Nat) (ops : List NarOp) (as : List Lecture) (r : Reasoner) (ht : TypedCourse env ops as)
    (hf : ∀ a ∈ as, a.Fine) (hi : inputsIn as ≤ 120) (h : runNar env (.handlers k :: ops) = .ok r) (call : AnswerCall)
    (hcall : call ∈ r.answers) (hnt : ¬ IsTemporal call.question) (cfg : Cfg) : Warranted cfg (Lectured as) call.answer :=
  C120_course_answers env k as r hf hi ((ht.course hf k).symm.trans h) call hcall hnt cfg

/-- C120 for what is typed: facts and general rules are typed and cycles are commanded until nothing is left to think about; then a question
which is not about a rule is typed, and one more cycle is commanded.  The question is answered exactly if some instance of it which has a
part in common with it can be deduced. -/
theorem C120_typed_answered_iff (env : Env) (k : Nat) (ops : List NarOp) (as : List Lecture) (r : Reasoner) (ht : TypedCourse env ops as)
    (hf : ∀ a ∈ as, a.Fine) (hc : cyclesOf as < 111) (hi : inputsIn as ≤ 120) (hno : NoQuestions as)
    (h : runNar env (.handlers k :: ops) = .ok r) (fin : Finished r) (hm : RoomEverywhere r.sh.mem)
    (hfacts : ∀ t ∈ toldTerms as, FactOrRule t) (c : Copula) (a b : Term) (hp : Printable (.Stmt c a b))
    (hcq : calcComplexity (.Stmt c a b) ≤ 64) (h1 : c ≠ .PREDIMPL) (h2 : c ≠ .IMPL) (cfg : Cfg) (hcfg : cfg.maxComplexity = 64) (v : Rat)
    (n : Nat)
    (last : List NarOp) (hl : TypedCourse env last (.ask (.Stmt c a b) :: (List.replicate n .work ++ [.cycle v]))) :
    ∃ r', moreNar env r last = .ok r' ∧ ∀ hd, hd < k →
      ((∃ call ∈ r'.answers, call.handler = .global hd) ↔
        ∃ t E, Deducible cfg (Lectured as) t E ∧ (∃ θ, inst θ (.Stmt c a b) = t) ∧ ShareAPart (.Stmt c a b) t) := by
  obtain ⟨r', k1, k2⟩ := C120_course_answered_iff env k as r hf hc hi hno ((ht.course hf k).symm.trans h) fin hm hfacts c a b hp hcq h1 h2
    cfg hcfg v
  refine ⟨r', ?_, k2⟩
  rw [hl.run (fun x hx => ?_) r, List.map_cons, List.map_append, List.map_replicate]
  · exact ask_idle fin.1.2 n k1
  · simp only [List.mem_cons, List.mem_append, List.mem_replicate, List.not_mem_nil, or_false] at hx
    rcases hx with rfl | ⟨_, rfl⟩ | rfl
    · exact hp
    · trivial
    · trivial

/-- C121 for what is typed: two sessions in which the same statements are typed, in whatever order and layout, and with cycles commanded
wherever, lead to the same knowledge when nothing is left to think about. -/
theorem C121_typed_same_knowledge (env env' : Env) (k k' : Nat) (ops ops' : List NarOp) (as as' : List Lecture) (r r' : Reasoner)
    (ht : TypedCourse env ops as) (ht' : TypedCourse env' ops' as') (hf : ∀ a ∈ as, a.Fine) (hf' : ∀ a ∈ as', a.Fine)
    (hc : cyclesOf as < 111) (hc' : cyclesOf as' < 111) (hi : inputsIn as ≤ 120) (hi' : inputsIn as' ≤ 120)
    (h : runNar env (.handlers k :: ops) = .ok r) (h' : runNar env' (.handlers k' :: ops') = .ok r') (fin : Finished r) (fin' : Finished r')
    (hsame : (toldTerms as).Perm (toldTerms as')) (t : Term) : IsKnown r t ↔ IsKnown r' t :=
  C121_same_knowledge_in_the_end env env' k k' as as' r r' hf hf' hc hc' hi hi' ((ht.course hf k).symm.trans h)
    ((ht'.course hf' k').symm.trans h') fin fin' hsame t

/-! ### a session -/

/-- what is typed; the worker has a turn before each cycle -/
def session : List NarOp :=
  [.line "// a lesson\n".toList (draws [] []), .line "<a --> b>.\n".toList (draws [] []), .line "<b --> c>.\n".toList (draws [] []),
    .line "!s12\n".toList (draws [] []), .declWork]

/-- the exam -/
def sessionExam : List NarOp := [.line "<?x --> c>? :|:\n".toList (draws [] []), .line "!s1\n".toList (draws [] [])]

/-- so many rounds, the worker first -/
def workRounds (n : Nat) : List Lecture := (List.replicate n [Lecture.work, .cycle 0]).flatten

/-- what the session stands for -/
def sessionCourse : List Lecture :=
  [.tell (isA "a" "b", ⟨1, 9/10⟩), .tell (isA "b" "c", ⟨1, 9/10⟩)] ++ workRounds 12 ++ [.work]

theorem workRounds_is (n : Nat) : List.Forall₂ IsLecture (List.replicate n [NarOp.declWork, .cycle 0]).flatten (workRounds n) := by
  unfold workRounds
  induction n with
  | zero => exact .nil
  | succ n ih =>
    rw [List.replicate_succ, List.flatten_cons, List.replicate_succ, List.flatten_cons]
    exact .cons .work (.cons (.cycle 0) ih)

theorem session_typed : TypedCourse env0 session sessionCourse := by
  refine ⟨[[], [.tell (isA "a" "b") .JUGEMENT ⟨1, 9/10⟩ false []], [.tell (isA "b" "c") .JUGEMENT ⟨1, 9/10⟩ false []],
    cycleCalls (fun _ => (0, 1)) 12, [.declWork]], ?_, ?_⟩
  · refine .cons (.line (.nothing (c := .comment) (by decide) (.inl rfl))) (.cons (.line (.sentence (by decide) (.sentence (by decide +kernel))))
      (.cons (.line (.sentence (by decide) (.sentence (by decide +kernel)))) (.cons (.line ?_) (.cons (.same _) .nil))))
    exact StandsFor.cycles (d := draws [] []) (arg := "12".toList) (n := 12) (by decide) (by decide)
  · exact .cons (.told _ _ _) (.cons (.told _ _ _) (List.rel_append (workRounds_is 12) (.cons .work .nil)))

theorem sessionExam_typed : TypedCourse env0 sessionExam (.ask (.Stmt .INH (.QVar "x") (.Name "c")) :: (List.replicate 1 .work ++ [.cycle 0])) := by
  refine ⟨[[.tell (.Stmt .INH (.QVar "x") (.Name "c")) .QUESTION ⟨1, 9/10⟩ true []], cycleCalls (fun _ => (0, 1)) 1], ?_, ?_⟩
  · refine .cons (.line (.sentence (by decide) (.sentence (by decide +kernel)))) (.cons (.line ?_) .nil)
    exact StandsFor.cycles (d := draws [] []) (arg := "1".toList) (n := 1) (by decide) (by decide)
  · exact .cons (.asked _ _ _) (.cons .work (.cons (.cycle 0) .nil))

theorem workRounds_what {n : Nat} {a : Lecture} (h : a ∈ workRounds n) : a = .work ∨ a = .cycle 0 := by
  obtain ⟨l, hl, ha⟩ := List.mem_flatten.1 h
  rw [(List.mem_replicate.1 hl).2] at ha
  simpa using ha

theorem session_fine : ∀ a ∈ sessionCourse, a.Fine := by
  intro a ha
  simp only [sessionCourse, List.mem_append, List.mem_cons, List.not_mem_nil, or_false] at ha
  rcases ha with ((rfl | rfl) | ha) | rfl
  · exact told_fine _ _ _ (by unfold Tv.Sane; decide +kernel) ⟨_, rfl⟩
  · exact told_fine _ _ _ (by unfold Tv.Sane; decide +kernel) ⟨_, rfl⟩
  · rcases workRounds_what ha with rfl | rfl <;> trivial
  · trivial

theorem session_silent : NoQuestions sessionCourse := by
  intro a ha q
  simp only [sessionCourse, List.mem_append, List.mem_cons, List.not_mem_nil, or_false] at ha
  rcases ha with ((rfl | rfl) | ha) | rfl
  · exact nofun
  · exact nofun
  · rcases workRounds_what ha with rfl | rfl <;> exact nofun
  · exact nofun

theorem session_told : toldTerms sessionCourse = [isA "a" "b", isA "b" "c"] := by decide

theorem session_view : (runNar env0 (.handlers 1 :: session)).map (fun r => (courseView r,
    r.sh.heap.any (fun x => decide (x.sentence.term = isA "a" "c")), r.sh.heap.any (fun x => decide (x.sentence.term = isA "c" "a")))) =
    .ok (((true, [], 0), true, true), true, false) := by decide +kernel

theorem session_ends : ∃ r, runNar env0 (.handlers 1 :: session) = .ok r ∧ Finished r ∧ RoomEverywhere r.sh.mem ∧ IsKnown r (isA "a" "c") ∧
    ¬ IsKnown r (isA "c" "a") := by
  obtain ⟨r, hr, h⟩ := R.map_ok.1 session_view
  obtain ⟨k1, h⟩ := Prod.mk.inj h
  obtain ⟨k2, k3⟩ := Prod.mk.inj h
  obtain ⟨f1, f2⟩ := courseView_finished k1
  exact ⟨r, hr, f1, f2, by simpa [IsKnown] using k2, by simpa [IsKnown] using k3⟩

/-- the session is the course -/
example : runNar env0 (.handlers 1 :: session) = runNar env0 (course 1 sessionCourse) :=
  C113_typed_course env0 1 session sessionCourse session_typed session_fine

/-- exactly what can be deduced is known in the end: that `a` is a `c`, but not that `c` is an `a` -/
example : ∃ r, runNar env0 (.handlers 1 :: session) = .ok r ∧ (∀ t, IsKnown r t ↔ ∃ E, Deducible cfg1 (Lectured sessionCourse) t E) ∧
    (∃ E, Deducible cfg1 (Lectured sessionCourse) (isA "a" "c") E) ∧ ¬ ∃ E, Deducible cfg1 (Lectured sessionCourse) (isA "c" "a") E := by
  obtain ⟨r, h1, h2, h3, h4, h5⟩ := session_ends
  have key := C119_typed_exact env0 1 session sessionCourse r session_typed session_fine (by decide) (by decide) h1 h2 cfg1 rfl
  exact ⟨r, h1, key, (key _).1 h4, fun h => h5 ((key _).2 h)⟩

/-- the question which is typed at the end is answered -/
example : ∃ r r', runNar env0 (.handlers 1 :: session) = .ok r ∧ moreNar env0 r sessionExam = .ok r' ∧
    ∃ call ∈ r'.answers, call.handler = .global 0 := by
  obtain ⟨r, h1, h2, h3, h4, h5⟩ := session_ends
  obtain ⟨E, hE⟩ := (C119_typed_exact env0 1 session sessionCourse r session_typed session_fine (by decide) (by decide) h1 h2 cfg1 rfl _).1 h4
  obtain ⟨r', k1, k2⟩ := C120_typed_answered_iff env0 1 session sessionCourse r session_typed session_fine (by decide) (by decide) session_silent
    h1 h2 h3 (by
      rw [session_told]
      intro t ht
      simp only [List.mem_cons, List.not_mem_nil, or_false] at ht
      rcases ht with rfl | rfl <;> exact .inl (isA_ground _ _))
    .INH (.QVar "x") (.Name "c") ⟨_, rfl⟩ (by decide) (by decide) (by decide) cfg1 rfl 0 1 sessionExam sessionExam_typed
  refine ⟨r, r', h1, k1, (k2 0 (by decide)).2 ⟨isA "a" "c", E, hE, ⟨fun _ => .Name "a", rfl⟩, .Name "c", ?_, ?_⟩⟩
  · exact .inside (by simp [parts]) (.refl _)
  · exact .inside (by simp [parts, isA]) (.refl _)

/-- a session with the question first: its answers are warranted -/
example : ∃ r, runNar env0 (.handlers 1 :: (sessionExam ++ session)) = .ok r ∧ r.answers ≠ [] ∧
    ∀ call ∈ r.answers, Warranted cfg1 (Lectured ((.ask (.Stmt .INH (.QVar "x") (.Name "c")) :: (List.replicate 1 .work ++ [.cycle 0])) ++
      sessionCourse)) call.answer := by
  have h : (runNar env0 (.handlers 1 :: (sessionExam ++ session))).map (fun r => (decide (r.answers.length = 0),
      r.answers.all (fun call => decide (call.question = .Stmt .INH (.QVar "x") (.Name "c"))))) = .ok (false, true) := by decide +kernel
  obtain ⟨r, hr, h⟩ := R.map_ok.1 h
  simp only [Prod.mk.injEq, decide_eq_false_iff_not, List.all_eq_true, decide_eq_true_eq] at h
  obtain ⟨k1, k2⟩ := h
  have key := fun call hc hnt => C120_typed_answers env0 1 (sessionExam ++ session)
    ((.ask (.Stmt .INH (.QVar "x") (.Name "c")) :: (List.replicate 1 .work ++ [.cycle 0])) ++ sessionCourse) r
    (sessionExam_typed.append session_typed) (by
      intro a ha
      rcases List.mem_append.1 ha with ha | ha
      · simp only [List.mem_cons, List.mem_append, List.mem_replicate, List.not_mem_nil, or_false] at ha
        rcases ha with rfl | ⟨_, rfl⟩ | rfl
        · exact ⟨_, rfl⟩
        · trivial
        · trivial
      · exact session_fine a ha) (by decide) hr call hc hnt cfg1
  refine ⟨r, hr, fun e => k1 (by rw [e]; rfl), fun call hc => key call hc ?_⟩
  rw [k2 call hc]; rintro ⟨x, y, e⟩; cases e

/-- typed in the other order, with a cycle in between: the same is known in the end -/
example : ∃ r r', runNar env0 (.handlers 1 :: session) = .ok r ∧ runNar env0 (course 2 lessTold) = .ok r' ∧ ∀ t, IsKnown r t ↔ IsKnown r' t := by
  obtain ⟨r, h1, h2, _⟩ := session_ends
  have h : (runNar env0 (course 2 lessTold)).map courseView = .ok ((true, [], 0), true, true) := by decide +kernel
  obtain ⟨r', hr, h⟩ := R.map_ok.1 h
  have hf : ∀ a ∈ lessTold, a.Fine := by
    intro a ha
    simp only [lessTold, List.mem_append, List.mem_cons, List.not_mem_nil, or_false] at ha
    rcases ha with (rfl | rfl | rfl) | ha
    · exact told_fine _ _ _ (by unfold Tv.Sane; decide +kernel) ⟨_, rfl⟩
    · trivial
    · exact told_fine _ _ _ (by unfold Tv.Sane; decide +kernel) ⟨_, rfl⟩
    · exact rounds_fine _ a ha
  have ht : TypedCourse env0 (lessTold.map Lecture.op) lessTold := .calls _
  exact ⟨r, r', h1, hr, C121_typed_same_knowledge env0 env0 1 2 session (lessTold.map Lecture.op) sessionCourse lessTold r r' session_typed ht
    session_fine hf (by decide) (by decide) (by decide) (by decide) h1 hr h2 (courseView_finished h).1 (by
      rw [session_told, show toldTerms lessTold = [isA "b" "c", isA "a" "b"] by decide]
      exact .swap _ _ _)⟩

end Nar.Props
