import Verif.Props.Nar
import Verif.Spec.Deeds
import Verif.Lemmas.Deeds
/-! # C115: what is done does not depend on what is believed -/
namespace Nar.Props
open Nar Term

/-! ## concrete histories used in the examples -/

/-- a step with a goal inference -/
def stepPlan : NarOp := .line "!sp".toList { draws [] [5] with infs := [(0, 0, [])] }

/-- the rule that after `a` the operator `^r` leads to `b` -/
def tellR (a b : String) : NarOp :=
  .tell (.Stmt .PREDIMPL (.Seq [.Name a, encodeOp [.SetExt [.Name "SELF"]] "^r"]) (.Name b)) .JUGEMENT ⟨1, 9/10⟩ false []

/-- It is learned that after `a` the operator `^l` leads to `b`.  Then `more` happens.  Then `b` is wanted, and it is told how `a`
is reached from `y` over `z`, and `y` is seen. -/
def planning (more : List NarOp) : List NarOp :=
  [ln "!por NOP ^l", ln "!por NOP ^r", stepIdle [], stepIdle [], stepIdle [], stepIdle [], ln "a. :|:", stepBabble,
   ln "b. :|:", stepIdle [[]], .procWork [], .procWork [], ln "c. :|:"] ++ more ++
  [ln "!peb 0", ln "b! :|:", tellR "z" "a", tellR "y" "z", stepPlan, ln "y. :|:", stepPlan]

/-- three statements -/
def threeStatements : List NarOp := [ln "<x --> y>.", ln "<y --> z>.", ln "<y --> z>."]

/-- questions and thinking instead -/
def thinkingInstead : List NarOp :=
  [.handlers 1, ln "<b --> ?q>? :|:", ln "!s2", .tell (.Name "a") .JUGEMENT ⟨0, 1/2⟩ false [], .declWork, .link, ln "<b --> ?q>? :|:", .cycle 1, ln "!dmd"]

/-! ## the property -/

/-- C115, partial: of two histories with the same events, goals, rules about what follows what, operators, steps, rounds of the
procedural worker, and draws for these, in which the same number of statements and questions is put in at the same places, but
any, and in which there is any thinking in between, the procedural reasoner is in the same state: it knows the same rules, wants
and expects the same, and remembers the same events and the same executed operators.  Missing: when the number of statements
differs this fails, see `C115_statement_stops_deed`. -/
theorem C115_deeds_not_by_beliefs_partial (env : Env) (ops ops' : List NarOp) (r r' : Reasoner) (h : SameDeeds env ops ops')
    (hr : runNar env ops = .ok r) (hr' : runNar env ops' = .ok r') : r.proc = r'.proc :=
  (h.more (.refl createNar) hr hr').proc

/-- C115, partial: so in the next step the same is done, or nothing in both. -/
theorem C115_same_deed_partial (env : Env) (ops ops' : List NarOp) (r r' : Reasoner) (h : SameDeeds env ops ops')
    (hr : runNar env ops = .ok r) (hr' : runNar env ops' = .ok r') (call : Call) (rng : List Nat)
    (infs : List (Rat × Rat × List Nat)) :
    (narStep1 call env.goalDecay r.proc rng infs).map (·.2) = (narStep1 call env.goalDecay r'.proc rng infs).map (·.2) := by
  rw [C115_deeds_not_by_beliefs_partial env ops ops' r r' h hr hr']

theorem SameDeeds.rfl (env : Env) (ops : List NarOp) : SameDeeds env ops ops := by
  induction ops with
  | nil => exact .nil
  | cons op ops ih => exact .same op ih

theorem SameDeeds.before {env : Env} {ops ops' : List NarOp} (l : List NarOp) (h : SameDeeds env ops ops') :
    SameDeeds env (l ++ ops) (l ++ ops') := by
  induction l with
  | nil => exact h
  | cons op l ih => exact .same op ih

/-- three statements against two questions, a statement which is no inheritance, and thinking -/
theorem planning_same : SameDeeds env0 (planning threeStatements) (planning thinkingInstead) := by
  unfold planning
  rw [List.append_assoc, List.append_assoc]
  refine SameDeeds.before _ ?_
  have s1 : TellsBelief env0 (ln "<x --> y>.") := ⟨by decide +kernel, .Stmt .INH (.Name "x") (.Name "y"), ⟨1, 9/10⟩, .JUGEMENT,
    false, by decide +kernel, by simp [ForThinking, isTemporalQuestion]⟩
  have s2 : TellsBelief env0 (ln "<y --> z>.") := ⟨by decide +kernel, .Stmt .INH (.Name "y") (.Name "z"), ⟨1, 9/10⟩, .JUGEMENT,
    false, by decide +kernel, by simp [ForThinking, isTemporalQuestion]⟩
  have q1 : TellsBelief env0 (ln "<b --> ?q>? :|:") := ⟨by decide +kernel, .Stmt .INH (.Name "b") (.QVar "q"), ⟨1, 9/10⟩,
    .QUESTION, true, by decide +kernel, by simp [ForThinking]⟩
  have q2 : TellsBelief env0 (.tell (.Name "a") .JUGEMENT ⟨0, 1/2⟩ false []) := by simp [TellsBelief, ForThinking, isTemporalQuestion]
  have t1 : OnlyThinks env0 (ln "!s2") := .inl ⟨['2'], by decide +kernel⟩
  have t2 : OnlyThinks env0 (ln "!dmd") := .inr (.inr ⟨.debugMemory, by decide, by decide +kernel⟩)
  exact .right trivial (.instead s1 q1 (.right t1 (.instead s2 q2 (.right trivial (.right trivial (.instead s2 q1
    (.right trivial (.right t2 (SameDeeds.rfl _ _)))))))))

/-- what was perceived or done -/
def happened (r : Reasoner) : List Term := r.proc.trace.map (·.name)

set_option maxRecDepth 100000 in
/-- both histories succeed, and what is believed differs -/
theorem planning_ok : (runNar env0 (planning threeStatements)).map (fun r => (r.sh.mem.length, r.sh.questionTasks.length, happened r)) =
      .ok (5, 0, [.Name "a", encodeOp [.SetExt [.Name "SELF"]] "^l", .Name "b", .Name "c", .Name "y",
        encodeOp [.SetExt [.Name "SELF"]] "^r"]) ∧
    (runNar env0 (planning thinkingInstead)).map (fun r => (r.sh.mem.length, r.sh.questionTasks.length, happened r)) =
      .ok (1, 2, [.Name "a", encodeOp [.SetExt [.Name "SELF"]] "^l", .Name "b", .Name "c", .Name "y",
        encodeOp [.SetExt [.Name "SELF"]] "^r"]) := by
  constructor <;> decide +kernel

example : ∃ r r', runNar env0 (planning threeStatements) = .ok r ∧ runNar env0 (planning thinkingInstead) = .ok r' ∧
    r.sh.mem.length ≠ r'.sh.mem.length ∧ r.proc = r'.proc := by
  obtain ⟨r, hr, h1⟩ := R.map_ok.1 planning_ok.1
  obtain ⟨r', hr', h2⟩ := R.map_ok.1 planning_ok.2
  have m1 : r.sh.mem.length = 5 := congrArg (fun x => x.1) h1
  have m2 : r'.sh.mem.length = 1 := congrArg (fun x => x.1) h2
  exact ⟨r, r', hr, hr', by omega, C115_deeds_not_by_beliefs_partial _ _ _ _ _ planning_same hr hr'⟩

/-! ## the violation -/

/-- C115, violated: told an additional statement which has nothing to do with anything else, the reasoner does not do what it does
without it.  Its number makes the goal put in next seem to rest on the same evidence as a rule learned before. -/
theorem C115_statement_stops_deed : ∃ r r', runNar env0 (planning []) = .ok r ∧ runNar env0 (planning [ln "<u --> v>."]) = .ok r' ∧
    encodeOp [.SetExt [.Name "SELF"]] "^r" ∈ happened r ∧ encodeOp [.SetExt [.Name "SELF"]] "^r" ∉ happened r' := by
  have h1 : (runNar env0 (planning [])).map happened = .ok [.Name "a", encodeOp [.SetExt [.Name "SELF"]] "^l", .Name "b",
      .Name "c", .Name "y", encodeOp [.SetExt [.Name "SELF"]] "^r"] := by decide +kernel
  have h2 : (runNar env0 (planning [ln "<u --> v>."])).map happened = .ok [.Name "a", encodeOp [.SetExt [.Name "SELF"]] "^l",
      .Name "b", .Name "c", .Name "y"] := by decide +kernel
  obtain ⟨r, hr, h1⟩ := R.map_ok.1 h1
  obtain ⟨r', hr', h2⟩ := R.map_ok.1 h2
  refine ⟨r, r', hr, hr', ?_, ?_⟩
  · rw [h1]; decide
  · rw [h2]; decide

end Nar.Props
