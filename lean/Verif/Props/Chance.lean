import Verif.Props.Nar
import Verif.Spec.Chance
import Verif.Lemmas.Chance2
/-! # C99: what is believed is not a matter of chance -/
namespace Nar.Props
open Nar Term

/-! ## concrete histories used in the examples -/

/-- statements, cycles and work, while two things happen, something is wanted and a step is taken -/
def meanwhile (e g : String) (step : NarOp) (v : Rat) : List NarOp :=
  [.handlers 1, ln "!por NOP ^l", ln "<a --> b>.", ln e, step, ln "<b --> c>.", ln g, step, .cycle v, .declWork, .procWork [],
   ln "<a --> c>? :|:", ln "!s2", .declWork, .declWork, .cycle v]

/-- two statements, a question, a cycle -/
def asked (q : String) : List NarOp := [.handlers 1, ln "<a --> b>.", ln "<c --> d>.", ln q, .cycle 0]

/-- two statements, both asked about, and a cycle with the draw `v` -/
def askedBoth (v : Rat) : List NarOp :=
  [.handlers 1, ln "<a --> b>.", ln "<c --> d>.", ln "<a --> b>? :|:", ln "<c --> d>? :|:", .cycle v]

/-- the rule that after `a`, reporting that `x` is in the relation `r` to `y` leads to `b` -/
def reportRule : Term := .Stmt .PREDIMPL (.Seq [.Name "a", .Stmt .INH (.SetExt [.Prod [.SetExt [.Name "SELF"],
  .Stmt .INH (.Prod [.Name "x", .Name "y"]) (.Name "r")]]) (.Name "^nlpRel0")]) (.Name "b")

/-- with this rule and the goal `b`, an event, and a step -/
def reporting (e : String) : List NarOp :=
  [ln "!por nlpRel0", .tell reportRule .JUGEMENT ⟨1, 9/10⟩ false [], ln "b! :|:", ln e, stepIdle []]

/-! ## the property -/

/-- C99: of two histories in which the same is told and asked, and the workers work equally often, with any differences in
the random draws, in what is perceived, wanted and known about acting, in the handlers and in the verbosity, the reasoner knows
the same: the same tasks with the same credit, the same memory, the same questions, the same work waiting.  No operator may
report relations. -/
theorem C99_knowledge_not_by_chance (env : Env) (ops ops' : List NarOp) (r r' : Reasoner)
    (h : List.Forall₂ (SameThoughts env) ops ops') (hr : runNar env ops = .ok r) (hr' : runNar env ops' = .ok r')
    (hn : NoReports r.proc.ops) :
    SameKnowledge r.sh r'.sh ∧ r.queue = r'.queue ∧ r.workerAlive = r'.workerAlive ∧ r.currentTime = r'.currentTime := by
  have := Twin.more h ⟨rfl, rfl, rfl, rfl, rfl, rfl, rfl, rfl⟩ hr hr' hn
  exact ⟨sameKnowledge_iff.2 this.sh, this.queue, this.alive, this.time⟩

/-- C99: in particular the same sentences hold. -/
theorem C99_same_holds (env : Env) (ops ops' : List NarOp) (r r' : Reasoner)
    (h : List.Forall₂ (SameThoughts env) ops ops') (hr : runNar env ops = .ok r) (hr' : runNar env ops' = .ok r')
    (hn : NoReports r.proc.ops) (s : Sentence) : Holds r s ↔ Holds r' s := by
  obtain ⟨hk, _⟩ := C99_knowledge_not_by_chance env ops ops' r r' h hr hr' hn
  unfold Holds
  rw [hk.heap, hk.mem]

/-- two histories which differ in the events, the goals, the operator executed and the draws -/
theorem meanwhile_same : List.Forall₂ (SameThoughts env0) (meanwhile "a. :|:" "b! :|:" stepBabble 0)
    (meanwhile "z. :|:" "<{x} --> y>. :|:" (stepIdle [[]]) 1) := by
  have ev : ∀ l : List Char, (∃ t tv punct, dispatch (trimNewline l) = .ok .narsese ∧
      parseNarsese env0.pf (trimNewline l) = .ok (some (t, tv, punct, true)) ∧ punct ≠ .QUESTION) → LineForActing env0 l := by
    rintro l ⟨t, tv, punct, h1, h2, h3⟩
    exact ⟨h1, t, tv, punct, true, h2, by simpa [ForActing] using h3⟩
  have e1 : LineForActing env0 "a. :|:".toList := ev _ ⟨.Name "a", ⟨1, 9/10⟩, .JUGEMENT, by decide +kernel, by decide +kernel, by decide⟩
  have e2 : LineForActing env0 "z. :|:".toList := ev _ ⟨.Name "z", ⟨1, 9/10⟩, .JUGEMENT, by decide +kernel, by decide +kernel, by decide⟩
  have g1 : LineForActing env0 "b! :|:".toList := ev _ ⟨.Name "b", ⟨1, 9/10⟩, .GOAL, by decide +kernel, by decide +kernel, by decide⟩
  have g2 : LineForActing env0 "<{x} --> y>. :|:".toList :=
    ev _ ⟨.Stmt .INH (.SetExt [.Name "x"]) (.Name "y"), ⟨1, 9/10⟩, .JUGEMENT, by decide +kernel, by decide +kernel, by decide⟩
  have same : ∀ s : String, SameThoughts env0 (ln s) (ln s) := fun s => .line _ rfl (fun _ => rfl)
  have step : SameThoughts env0 stepBabble (stepIdle [[]]) := .line _ rfl (fun _ => rfl)
  exact .cons (.handlers _ _) (.cons (same _) (.cons (same _) (.cons (.acting _ _ e1 e2) (.cons step (.cons (same _)
    (.cons (.acting _ _ g1 g2) (.cons step (.cons (.cycle _ _) (.cons .declWork (.cons (.procWork _ _) (.cons (same _)
    (.cons (same _) (.cons .declWork (.cons .declWork (.cons (.cycle _ _) .nil)))))))))))))))

set_option maxRecDepth 100000 in
/-- both histories succeed, without reporting operators; one executed an operator, the other did not -/
theorem meanwhile_ok : (runNar env0 (meanwhile "a. :|:" "b! :|:" stepBabble 0)).map (fun r =>
      (r.sh.heap.length, r.sh.mem.length, r.proc.trace.length, r.proc.ops)) = .ok (4, 6, 3, [⟨"^l", true, 3⟩]) ∧
    (runNar env0 (meanwhile "z. :|:" "<{x} --> y>. :|:" (stepIdle [[]]) 1)).map (fun r =>
      (r.sh.heap.length, r.sh.mem.length, r.proc.trace.length, r.proc.ops)) = .ok (4, 6, 2, [⟨"^l", true, 3⟩]) := by
  constructor <;> decide +kernel

example : ∃ r r', runNar env0 (meanwhile "a. :|:" "b! :|:" stepBabble 0) = .ok r ∧
    runNar env0 (meanwhile "z. :|:" "<{x} --> y>. :|:" (stepIdle [[]]) 1) = .ok r' ∧ SameKnowledge r.sh r'.sh ∧
    (∀ s, Holds r s ↔ Holds r' s) ∧ r.proc.trace.length ≠ r'.proc.trace.length := by
  obtain ⟨r, hr, h1⟩ := R.map_ok.1 meanwhile_ok.1
  obtain ⟨r', hr', h2⟩ := R.map_ok.1 meanwhile_ok.2
  have hn : NoReports r.proc.ops := by
    have : r.proc.ops = [⟨"^l", true, 3⟩] := congrArg (fun x => x.2.2.2) h1
    rw [this]
    intro op hop
    rw [List.mem_singleton.1 hop]
    exact .inl rfl
  have t1 : r.proc.trace.length = 3 := congrArg (fun x => x.2.2.1) h1
  have t2 : r'.proc.trace.length = 2 := congrArg (fun x => x.2.2.1) h2
  exact ⟨r, r', hr, hr', (C99_knowledge_not_by_chance _ _ _ _ _ meanwhile_same hr hr' hn).1,
    C99_same_holds _ _ _ _ _ meanwhile_same hr hr' hn, by omega⟩

/-! ## what does depend on chance, on asking and on acting -/

/-- C99, the limit: which question is answered in a cycle, and so when an answer is given, is a matter of chance. -/
theorem C99_answers_by_chance : ∃ r r', runNar env0 (askedBoth 0) = .ok r ∧ runNar env0 (askedBoth 1) = .ok r' ∧
    List.Forall₂ (SameThoughts env0) (askedBoth 0) (askedBoth 1) ∧
    r.answers.map (·.question) = [.Stmt .INH (.Name "a") (.Name "b")] ∧
    r'.answers.map (·.question) = [.Stmt .INH (.Name "c") (.Name "d")] := by
  have h1 : (runNar env0 (askedBoth 0)).map (fun r => r.answers.map (·.question)) = .ok [.Stmt .INH (.Name "a") (.Name "b")] := by
    decide +kernel
  have h2 : (runNar env0 (askedBoth 1)).map (fun r => r.answers.map (·.question)) = .ok [.Stmt .INH (.Name "c") (.Name "d")] := by
    decide +kernel
  obtain ⟨r, hr, h1⟩ := R.map_ok.1 h1
  obtain ⟨r', hr', h2⟩ := R.map_ok.1 h2
  have same : ∀ s : String, SameThoughts env0 (ln s) (ln s) := fun s => .line _ rfl (fun _ => rfl)
  exact ⟨r, r', hr, hr', .cons (.handlers _ _) (.cons (same _) (.cons (same _) (.cons (same _) (.cons (same _)
    (.cons (.cycle _ _) .nil))))), h1, h2⟩

/-- C99, the limit: what is asked decides what is thought about next. -/
theorem C99_asking_guides_thoughts : ∃ r r', runNar env0 (asked "<a --> b>? :|:") = .ok r ∧
    runNar env0 (asked "<c --> d>? :|:") = .ok r' ∧ r.queue.map (·.primary) = [0] ∧ r'.queue.map (·.primary) = [1] := by
  have h1 : (runNar env0 (asked "<a --> b>? :|:")).map (fun r => r.queue.map (·.primary)) = .ok [0] := by decide +kernel
  have h2 : (runNar env0 (asked "<c --> d>? :|:")).map (fun r => r.queue.map (·.primary)) = .ok [1] := by decide +kernel
  obtain ⟨r, hr, h1⟩ := R.map_ok.1 h1
  obtain ⟨r', hr', h2⟩ := R.map_ok.1 h2
  exact ⟨r, r', hr, hr', h1, h2⟩

/-- C99, the limit: with an operator which reports relations, what is perceived and wanted decides what is believed. -/
theorem C99_reports_are_believed : ∃ r r', runNar env0 (reporting "a. :|:") = .ok r ∧ runNar env0 (reporting "c. :|:") = .ok r' ∧
    (∃ s, s.term = .Stmt .INH (.Prod [.Name "x", .Name "y"]) (.Name "r") ∧ Holds r s) ∧ ∀ s, ¬ Holds r' s := by
  have h1 : (runNar env0 (reporting "a. :|:")).map (fun r => (r.sh.heap.map (·.sentence.term)).head?) =
      .ok (some (.Stmt .INH (.Prod [.Name "x", .Name "y"]) (.Name "r"))) := by decide +kernel
  have h2 : (runNar env0 (reporting "c. :|:")).map (fun r => (r.sh.heap.length, r.sh.mem.length)) = .ok (0, 0) := by decide +kernel
  obtain ⟨r, hr, h1⟩ := R.map_ok.1 h1
  obtain ⟨r', hr', h2⟩ := R.map_ok.1 h2
  refine ⟨r, r', hr, hr', ?_, ?_⟩
  · cases hh : r.sh.heap with
    | nil => rw [hh] at h1; cases h1
    | cons t ts =>
      rw [hh] at h1
      exact ⟨t.sentence, Option.some.inj h1, .inl ⟨t, by rw [hh]; exact List.mem_cons_self, rfl⟩⟩
  · intro s hs
    have e1 : r'.sh.heap = [] := List.length_eq_zero_iff.1 (congrArg Prod.fst h2)
    have e2 : r'.sh.mem = [] := List.length_eq_zero_iff.1 (congrArg Prod.snd h2)
    rcases hs with ⟨t, ht, _⟩ | ⟨t, ht⟩
    · rw [e1] at ht; cases ht
    · obtain ⟨c, hc, _⟩ := ht
      rw [e2] at hc
      cases hc

end Nar.Props
