import Verif.Lemmas.Everyday1
import Verif.Props.Decl
/-! # C100: everyday use never crashes the reasoner

Everyday use: statements, questions, goals and events, typed or told through the programming interface; steps and cycles; natural
language; listings; operators registered with `!por NOP`; and the rounds of both workers, all in any order.  What is excluded: temporal
rules told by the user, events which ascribe a property to an operator or to a part of an operator call, axioms, and text on which the
parser crashes.  The draws for names of variables must not be 15 out of 16.
-/
namespace Nar.Props
open Nar Nar.Term

/-- C100: whatever is done in everyday use, and in whatever order the workers take their turns, nothing crashes, and both workers
stay alive. -/
theorem C100_never_crashes_partial (env : Env) (names : List String) (ops : List NarOp) (h : ∀ op ∈ ops, Everyday env (nops names) op) :
    ∃ r, runNar env ops = .ok r ∧ r.workerAlive = true ∧ r.proc.workerAlive = true := by
  have hn : NopOps (nops names) := by
    intro op hop
    obtain ⟨n, _, rfl⟩ := List.mem_map.1 hop
    exact ⟨rfl, by show (1 : Int) ≤ 3; decide⟩
  obtain ⟨r, h1, h2, h3⟩ := everyday_history hn ops h
  exact ⟨r, h1, h2, h3.safe.alive⟩

/-- two statements; the rule `(a, ^l) =/> b` is learned and used for the goal `b`; a question is asked; everything is listed -/
def everydaySession : List NarOp :=
  [.handlers 1, ln "!por NOP ^l", ln "<a --> b>.", ln "<b --> c>.", stepIdle [], stepIdle [], ln "a. :|:", stepBabble, ln "b. :|:",
   stepIdle [[]], .procWork [], .procWork [], ln "!pse", ln "c. :|:", ln "b! :|:", ln "a. :|:", stepIdle [], ln "!s2", .declWork,
   .declWork, ln "<a --> c>? :|:", ln "!s2", ln "!dt", .tell (.Name "x") .GOAL ⟨1, 1⟩ true [], .verbosity 2, .cycle (1/2)]

theorem plain_name' {ops : List Op} (n : String) : PlainEvent ops (.Name n) := ⟨⟨_, rfl⟩, fun _ _ h => by cases h⟩

theorem everydaySession_everyday : ∀ op ∈ everydaySession, Everyday env0 (nops ["^l"]) op := by
  have text : ∀ (s : String) x, dispatch s.toList = .ok .narsese → trimNewline s.toList = s.toList → parseNarsese env0.pf s.toList = .ok x →
      (∀ term tv punct isEvent, x = some (term, tv, punct, isEvent) → EverydaySentence (nops ["^l"]) term punct tv isEvent) →
      Everyday env0 (nops ["^l"]) (ln s) := by
    intro s x h1 h2 h3 h4
    show EverydayLine _ _ _ _
    rw [h2]
    exact ⟨.narsese, h1, ⟨x, h3⟩, fun term tv punct e h => h4 term tv punct e (by rw [h3] at h; cases h; rfl)⟩
  have event : ∀ (s n : String), dispatch s.toList = .ok .narsese → trimNewline s.toList = s.toList →
      parseNarsese env0.pf s.toList = .ok (some (.Name n, ⟨1, 9/10⟩, .JUGEMENT, true)) → Everyday env0 (nops ["^l"]) (ln s) := by
    intro s n h1 h2 h3
    refine text s _ h1 h2 h3 ?_
    rintro term tv punct e h
    cases h
    intro _
    simp only [if_true]
    exact plain_name' n
  have stmt : ∀ (s a b : String), dispatch s.toList = .ok .narsese → trimNewline s.toList = s.toList →
      parseNarsese env0.pf s.toList = .ok (some (.Stmt .INH (.Name a) (.Name b), ⟨1, 9/10⟩, .JUGEMENT, false)) →
      Everyday env0 (nops ["^l"]) (ln s) := by
    intro s a b h1 h2 h3
    refine text s _ h1 h2 h3 ?_
    rintro term tv punct e h
    cases h
    intro _
    simp only [Bool.false_eq_true, if_false]
    exact ⟨(by rintro ⟨a, b, h⟩; cases h), (by decide +kernel)⟩
  have other : ∀ (s : String) t tv p ev, dispatch s.toList = .ok .narsese → trimNewline s.toList = s.toList →
      parseNarsese env0.pf s.toList = .ok (some (t, tv, p, ev)) → p ≠ .JUGEMENT → Everyday env0 (nops ["^l"]) (ln s) := by
    intro s t tv p ev h1 h2 h3 hp
    refine text s _ h1 h2 h3 ?_
    rintro term tv punct e h
    cases h
    exact fun h => absurd h hp
  have step : ∀ b dec, (∀ rng ∈ b, NameDraws rng) → Everyday env0 (nops ["^l"]) (.line "!sp".toList (draws b dec)) := by
    intro b dec hb
    exact ⟨.step, by decide +kernel, (fun i => by simp [draws]), hb, (fun x hx => by cases hx)⟩
  intro op hop
  simp only [everydaySession, List.mem_cons, List.not_mem_nil, or_false] at hop
  rcases hop with rfl | rfl | rfl | rfl | rfl | rfl | rfl | rfl | rfl | rfl | rfl | rfl | rfl | rfl | rfl | rfl | rfl | rfl | rfl | rfl |
    rfl | rfl | rfl | rfl | rfl | rfl
  · trivial
  · refine ⟨.register "NOP ^l".toList, by decide +kernel, ?_⟩
    intro op h
    have : registeredOp (splitWhitespace "NOP ^l".toList []) = some ⟨"^l", true, 3⟩ := by decide +kernel
    rw [this] at h
    cases h
    simp [nops]
  · exact stmt _ "a" "b" (by decide +kernel) (by decide +kernel) (by decide +kernel)
  · exact stmt _ "b" "c" (by decide +kernel) (by decide +kernel) (by decide +kernel)
  · exact step _ _ (fun _ h => by cases h)
  · exact step _ _ (fun _ h => by cases h)
  · exact event _ "a" (by decide +kernel) (by decide +kernel) (by decide +kernel)
  · exact step _ _ (fun _ h => by cases h)
  · exact event _ "b" (by decide +kernel) (by decide +kernel) (by decide +kernel)
  · exact step _ _ (fun rng h => by rw [List.mem_singleton.1 h]; exact fun d hd => by cases hd)
  · exact fun d hd => by cases hd
  · exact fun d hd => by cases hd
  · exact ⟨.showEvidence, by decide +kernel, trivial⟩
  · exact event _ "c" (by decide +kernel) (by decide +kernel) (by decide +kernel)
  · exact other _ (.Name "b") ⟨1, 9/10⟩ .GOAL true (by decide +kernel) (by decide +kernel) (by decide +kernel) (by decide)
  · exact event _ "a" (by decide +kernel) (by decide +kernel) (by decide +kernel)
  · exact step _ _ (fun _ h => by cases h)
  · exact ⟨.cycles ['2'], by decide +kernel, .inr ⟨2, by decide +kernel⟩⟩
  · trivial
  · trivial
  · exact other _ (.Stmt .INH (.Name "a") (.Name "c")) ⟨1, 9/10⟩ .QUESTION true (by decide +kernel) (by decide +kernel)
      (by decide +kernel) (by decide)
  · exact ⟨.cycles ['2'], by decide +kernel, .inr ⟨2, by decide +kernel⟩⟩
  · exact ⟨.debugTasks, by decide +kernel, trivial⟩
  · exact ⟨⟨_, rfl⟩, (fun h => by cases h), (fun h => by cases h)⟩
  · trivial
  · trivial

example : ∃ r, runNar env0 everydaySession = .ok r ∧ r.workerAlive = true ∧ r.proc.workerAlive = true :=
  C100_never_crashes_partial env0 ["^l"] _ everydaySession_everyday

/-- much happens in it: tasks are derived, a rule is learned, the operator is executed for the goal, the question is answered -/
example : (runNar env0 everydaySession).map (fun r => (r.sh.heap.length, r.answers.length, r.proc.mem.heap.length,
    r.proc.trace.map (·.name) == [.Name "a", opL, .Name "b", .Name "c", .Name "a", opL])) = .ok (4, 1, 4, true) := by decide +kernel

/-! ## the restrictions are needed -/

/-- C100, violated for a wrong number: a reasoning command with something which is no number crashes. -/
theorem C100_no_number_crashes : runNar env0 [ln "!sx"] = .error .parse :=
  error_of_map (f := fun _ => ()) (by decide +kernel)

/-- C100, violated for temporal rules: typing one whose condition is no sequence crashes. -/
theorem C100_typed_rule_crashes : runNar env0 [ln "<a =/> b>."] = .error .explicit :=
  error_of_map (f := fun _ => ()) (by decide +kernel)

/-- A thing is on, `^l` is executed, the thing is off; the storage worker draws `k` for the names of variables; then one more step. -/
def namesDrawn (k : Nat) : List NarOp :=
  [ln "!por NOP ^l", stepIdle [], stepIdle [], ln "<x --> [on]>. :|:", stepBabble, ln "<x --> [off]>. :|:", stepIdle [], .procWork [k],
   .procWork [k], ln "!sp"]

/-- C100, violated by chance: one of the sixteen draws for a name of a variable ends the storage worker, and the next step crashes. -/
theorem C100_draw_crashes : runNar env0 (namesDrawn 15) = .error .unwrapNone :=
  error_of_map (f := fun _ => ()) (by decide +kernel)

example : ((runNar env0 (namesDrawn 14)).map fun r => r.proc.workerAlive) = .ok true := by decide +kernel

/-- C100, violated for axioms: typing the same statement twice with confidence 1 gives a truth value which is not a number (an error
in this model; the program goes on until the next statement about the same thing crashes it, C123_certainty_crashes). -/
theorem C100_axiom_gives_no_number : ∃ env op, op = ln "<a --> b>. {1.0 1.0}" ∧ runNar env [op, op] = .error .nan :=
  ⟨⟨fun _ => some 1, fun _ => [], fun _ => 1, fun _ => 1⟩, _, rfl, error_of_map (f := fun _ => ()) (by decide +kernel)⟩

/-- C100, violated for any text which the parser cannot handle: the line crashes the reasoner in every state. -/
theorem C100_unreadable_crashes (env : Env) (r : Reasoner) (l : List Char) (d : LineDraws) (e : Err)
    (hc : dispatch (trimNewline l) = .ok .narsese) (hp : parseNarsese env.pf (trimNewline l) = .error e) :
    (NarOp.line l d).run env r = .error e := by
  simp only [NarOp.run]
  rw [input_of_dispatch hc]
  unfold runCommand inputN
  simp only [hp, bind, Except.bind, Except.map]

example : ∃ e, parseNarsese env0.pf "<a --> b>. {x 0.9}".toList = .error e := by
  refine ⟨.parse, ?_⟩
  decide +kernel

end Nar.Props
