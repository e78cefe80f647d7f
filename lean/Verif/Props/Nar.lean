import Verif.Lemmas.Nar2
import Verif.Lemmas.OpLib
import Verif.Props.Proc
import Verif.Props.Parser
import Verif.Props.Task2
import Verif.Props.Term
/-! # Properties of the reasoner as a whole and of its line interface -/
namespace Nar.Props
open Nar Term

/-! ## concrete environment and histories used in the examples -/

/-- no readable numbers, no decay -/
def env0 : Env := ⟨fun _ => none, fun _ => [], fun _ => 1, fun _ => 1⟩

/-- draws: rounds of the storage worker within a step, draw of the decision -/
def draws (between : List (List Nat)) (dec : List Nat) : LineDraws :=
  ⟨[], fun _ => ⟨1, [0], 0, 0⟩, between, dec, [], fun _ => (0, 1), []⟩

/-- a line -/
def ln (s : String) : NarOp := .line s.toList (draws [] [5])

/-- a step which executes the operator by babbling -/
def stepBabble : NarOp := .line "!sp".toList (draws [] [0])

/-- a step which executes nothing -/
def stepIdle (between : List (List Nat)) : NarOp := .line "!sp".toList (draws between [5])

/-- a, then the operator, then b; the rule `(a, ^l) =/> b` is learned; then the goal b is given -/
def learnThenGoal : List NarOp :=
  [ln "!por NOP ^l", stepIdle [], stepIdle [], ln "a. :|:", stepBabble, ln "b. :|:", stepIdle [[]], .procWork [], .procWork [],
   ln "c. :|:", ln "b! :|:"]

/-- two statements, a reasoning cycle, a round of the worker -/
def syllogism : List NarOp :=
  [.handlers 1, ln "<a --> b>.", ln "<b --> c>.", ln "!s2", .declWork, .declWork, ln "<a --> c>? :|:", ln "!s2"]

/-! ## C39 -/

/-- C39: in every history, every sentence which the declarative reasoner holds rests on at least one and at most 120
observations, counts none of them twice, and all of them were handed out before. -/
theorem C39_well_stamped (env : Env) (ops : List NarOp) (r : Reasoner) (h : runNar env ops = .ok r) (s : Sentence)
    (hs : Holds r s) : WellStamped r s := (runNar_stamps h).holds hs

/-- C39: the same for every answer given to a question, unless rules are made available and the question is about a
temporal rule. -/
theorem C39_answers_well_stamped (env : Env) (ops : List NarOp) (r : Reasoner) (h : runNar env ops = .ok r)
    (c : AnswerCall) (hc : c ∈ r.answers) (hn : NarOp.link ∉ ops ∨ ¬ IsTemporal c.question) : WellStamped r c.answer := by
  rcases (runNar_stamps h).answers c hc with h1 | ⟨h1, h2, _⟩
  · exact h1
  · rcases hn with hn | hn
    · exact absurd ((runNar_linked h).1 h1) hn
    · exact absurd h2 hn

/-- C39: whatever is told next shares no evidence with anything which the declarative reasoner holds or has answered
(unless it answered with a rule), and uses up exactly one identifier. -/
theorem C39_new_input_is_independent (env : Env) (ops : List NarOp) (r r' : Reasoner) (h : runNar env ops = .ok r)
    (term : Term) (punct : Punct) (tv : Tv) (isEvent : Bool) (rng : List Nat)
    (ht : inputT2 env r term punct tv isEvent rng = .ok r') :
    idsGiven r' = idsGiven r + 1 ∧
      ∀ s, (Holds r s ∨ ∃ c ∈ r.answers, (NarOp.link ∉ ops ∨ ¬ IsTemporal c.question) ∧ c.answer = s) →
      ¬ SharesEvidence (newEternalSentenceByTv term punct tv ⟨[idsGiven r]⟩) s := by
  have hi := runNar_stamps h
  refine ⟨(inputT2_RInv ⟨stampOk_closed, fun n n' s hn hs => hs.mono hn⟩ ht ?_ hi).2, ?_⟩
  · rintro rfl rfl _
    refine ⟨by simp [newEternalSentenceByTv], by simp [newEternalSentenceByTv], by simp [newEternalSentenceByTv], ?_⟩
    intro id hid
    simp [newEternalSentenceByTv] at hid
    have := hi.pos
    omega
  · rintro s hs ⟨id, h1, h2⟩
    have hw : WellStamped r s := by
      rcases hs with hs | ⟨c, hc, hn, rfl⟩
      · exact hi.holds hs
      · exact C39_answers_well_stamped env ops r h c hc hn
    simp [newEternalSentenceByTv] at h1
    have := (hw.2.2.2 id h2).2
    omega

/-- C39: identifiers are never given back, so none is handed out twice. -/
theorem C39_never_reused (env : Env) (ops more : List NarOp) (r r' : Reasoner) (h : runNar env ops = .ok r)
    (h' : moreNar env r more = .ok r') : idsGiven r ≤ idsGiven r' := by
  refine (moreNar_RInv (P := fun _ _ => True) (Q := fun _ => True) ⟨fun _ => ⟨?_, ?_, ?_, ?_⟩, fun _ _ _ _ _ => trivial⟩ h'
    ?_ ?_ ?_).2
  all_goals first
    | (intros; trivial)
    | exact ⟨⟨fun _ _ => trivial, fun _ _ => ⟨fun _ _ => trivial, fun _ _ => trivial⟩, (runNar_stamps h).all.2.2⟩,
        fun _ _ => .inl trivial, (runNar_stamps h).link, (runNar_stamps h).pos⟩

example : (runNar env0 syllogism).map (fun r => (idsGiven r, r.answers.map (fun c => (c.answer.term, c.answer.stamp.ids)))) =
    .ok (3, [(.Stmt .INH (.Name "a") (.Name "c"), [0, 1])]) := by decide +kernel

/-- the answer of the syllogism is well stamped, and a further statement is independent of it -/
example : ∃ r r' c, runNar env0 syllogism = .ok r ∧ c ∈ r.answers ∧ WellStamped r c.answer ∧
    inputT2 env0 r (.Stmt .INH (.Name "x") (.Name "y")) .JUGEMENT ⟨1, 9/10⟩ false [] = .ok r' ∧ idsGiven r' = 4 ∧
    ¬ SharesEvidence (newEternalSentenceByTv (.Stmt .INH (.Name "x") (.Name "y")) .JUGEMENT ⟨1, 9/10⟩ ⟨[idsGiven r]⟩)
      c.answer := by
  have h : (runNar env0 syllogism).map (fun r => (idsGiven r, r.answers.map (fun c => c.answer.stamp.ids))) =
      .ok (3, [[0, 1]]) := by decide +kernel
  have h2 : ((runNar env0 syllogism).bind (fun r =>
      inputT2 env0 r (.Stmt .INH (.Name "x") (.Name "y")) .JUGEMENT ⟨1, 9/10⟩ false [])).map (fun _ => ()) = .ok () := by
    decide +kernel
  obtain ⟨r, hr, hv⟩ := R.map_ok.1 h
  obtain ⟨r', hb, -⟩ := R.map_ok.1 h2
  obtain ⟨x, hx, hi⟩ := R.bind_ok.1 hb
  rw [hr] at hx
  cases hx
  simp only [Prod.mk.injEq] at hv
  obtain ⟨c, l, hl, -⟩ := List.map_eq_cons_iff.1 hv.2
  have hc : c ∈ r.answers := by rw [hl]; simp
  have hn : NarOp.link ∉ syllogism := by simp [syllogism, ln]
  obtain ⟨h4, hi'⟩ := C39_new_input_is_independent env0 _ r r' hr _ _ _ _ _ hi
  exact ⟨r, r', c, hr, hc, C39_answers_well_stamped env0 _ r hr c hc (.inl hn), hi, by rw [h4, hv.1]; rfl,
    hi' c.answer (.inr ⟨c, hc, .inl hn, rfl⟩)⟩

/-- the first goal of the first level and the first stored rule -/
def firstGoalAndRule (r : Reasoner) : Option (Entry × Sentence) :=
  match r.proc.goals.batchesByDepth, r.proc.mem.heap with
  | (gr :: _) :: _, b :: _ =>
    match gr.entries with
    | g :: _ => some (g, b)
    | [] => none
  | _, _ => none

theorem firstGoalAndRule_some {r : Reasoner} {g : Entry} {b : Sentence} (h : firstGoalAndRule r = some (g, b)) :
    Stored r.proc.goals g ∧ b ∈ r.proc.mem.heap := by
  unfold firstGoalAndRule at h
  split at h
  · rename_i gr _ _ b' _ h1 h2
    split at h
    · rename_i g' _ h3
      cases h
      refine ⟨.inr ⟨0, _, gr, by rw [h1]; rfl, List.mem_cons_self .., by rw [h3]; exact List.mem_cons_self ..⟩, ?_⟩
      rw [h2]; exact List.mem_cons_self ..
    · cases h
  · cases h

/-- C39, violation: learned rules identify their evidence by the time of the events and not by the identifiers handed out.
So a goal told by the user can count as resting on the same evidence as a rule learned from other observations, and the
rule cannot be used for the goal. -/
theorem C39_rule_and_goal_confused : ∃ (ops : List NarOp) (r : Reasoner) (g : Entry) (b : Sentence),
    runNar env0 ops = .ok r ∧ Stored r.proc.goals g ∧ b ∈ r.proc.mem.heap ∧ g.evidence = none ∧
    b.term = .Stmt .PREDIMPL (.Seq [.Name "a", encodeOp [.SetExt [.Name "SELF"]] "^l"]) g.sentence.term ∧
    SharesEvidence g.sentence b ∧ infGoalBelief g.sentence b = .ok none := by
  have h : (runNar env0 learnThenGoal).map (fun r => (firstGoalAndRule r).map (fun x =>
      decide (x.1.evidence = none) &&
      decide (x.2.term = .Stmt .PREDIMPL (.Seq [.Name "a", encodeOp [.SetExt [.Name "SELF"]] "^l"]) x.1.sentence.term) &&
      decide (x.1.sentence.stamp.ids = [3]) && decide (x.2.stamp.ids = [2, 2, 3]) &&
      decide (infGoalBelief x.1.sentence x.2 = .ok none))) = .ok (some true) := by decide +kernel
  obtain ⟨r, hr, h⟩ := R.map_ok.1 h
  obtain ⟨⟨g, b⟩, hg, h⟩ := Option.map_eq_some_iff.1 h
  obtain ⟨h1, h2⟩ := firstGoalAndRule_some hg
  simp only [Bool.and_eq_true, decide_eq_true_eq] at h
  obtain ⟨⟨⟨⟨k1, k2⟩, k4⟩, k5⟩, k6⟩ := h
  exact ⟨learnThenGoal, r, g, b, hr, h1, h2, k1, k2, ⟨3, by rw [k4]; simp, by rw [k5]; simp⟩, k6⟩

/-! ## C40 -/

/-- C40: a goal only concerns the goal system. -/
theorem C40_event_goal (env : Env) (r r' : Reasoner) (term : Term) (tv : Tv) (rng : List Nat)
    (h : inputT2 env r term .GOAL tv true rng = .ok r') :
    ∃ g, addEntry r.proc.goals r.proc.t (newEternalSentenceByTv term .GOAL tv ⟨[idsGiven r]⟩) none 0 = .ok g ∧
      r' = { r with proc := { r.proc with goals := g }, sh := { r.sh with stampIdCounter := idsGiven r + 1 } } := by
  unfold inputT2 at h
  obtain ⟨_, _, h⟩ := R.bind_ok.1 h
  obtain ⟨g, hg, h⟩ := R.bind_ok.1 h
  cases h
  exact ⟨g, hg, rfl⟩

/-- C40: an observed event is appended to what is perceived, with the present time; nothing else changes. -/
theorem C40_event (env : Env) (r r' : Reasoner) (term : Term) (tv : Tv) (rng : List Nat)
    (h : inputT2 env r term .JUGEMENT tv true rng = .ok r') :
    r' = { r with proc := { r.proc with trace := r.proc.trace ++ [⟨term, r.proc.t, r.proc.t⟩] },
                  sh := { r.sh with stampIdCounter := idsGiven r + 1 } } := by
  unfold inputT2 at h
  obtain ⟨_, _, h⟩ := R.bind_ok.1 h
  cases h
  rfl

/-- C40: a question marked as event is appended to the open questions; nothing else changes.  A question above the limit of
complexity is ignored. -/
theorem C40_question (env : Env) (r r' : Reasoner) (term : Term) (tv : Tv) (rng : List Nat)
    (h : inputT2 env r term .QUESTION tv true rng = .ok r') :
    r' = { r with sh := { r.sh with
      stampIdCounter := idsGiven r + 1
      questionTasks := if (calcComplexity term : Int) ≤ r.maxComplexity
        then r.sh.questionTasks ++ [{ sentence := newEternalSentenceByTv term .QUESTION tv ⟨[idsGiven r]⟩, handler := false,
                                      bestAnswerExp := 0, prio := 1 }]
        else r.sh.questionTasks } } := by
  unfold inputT2 at h
  obtain ⟨_, _, h⟩ := R.bind_ok.1 h
  obtain ⟨sh, hs, h⟩ := R.bind_ok.1 h
  cases h
  rw [memAddTask_question rfl hs]
  simp only [newEternalSentenceByTv, Reasoner.cfg]
  by_cases hc : (calcComplexity term : Int) ≤ r.maxComplexity
  · simp only [hc, if_true]; rfl
  · simp only [hc, if_false]; rfl

/-- C40: a statement only concerns the declarative reasoner; within the limit of complexity there is afterwards a task with
this statement and the new identifier as evidence. -/
theorem C40_statement (env : Env) (r r' : Reasoner) (term : Term) (tv : Tv) (rng : List Nat) (ht : ¬ IsTemporal term)
    (h : inputT2 env r term .JUGEMENT tv false rng = .ok r') :
    (∃ sh, r' = { r with sh := sh }) ∧
    ((calcComplexity term : Int) ≤ r.maxComplexity → ∃ ref ∈ r'.sh.judgementTasks, ∃ t, r'.sh.heap[ref]? = some t ∧
      t.sentence.term = term ∧ t.sentence.stamp.ids = [idsGiven r]) ∧
    (r.maxComplexity < (calcComplexity term : Int) → r' = { r with sh := { r.sh with stampIdCounter := idsGiven r + 1 } }) := by
  unfold inputT2 at h
  obtain ⟨_, _, h⟩ := R.bind_ok.1 h
  simp only [Bool.false_eq_true, if_false] at h
  unfold inputEternalT at h
  rw [if_neg (by rw [← isTemporal_iff] at ht; exact ht)] at h
  obtain ⟨sh, hs, h⟩ := R.bind_ok.1 h
  cases h
  refine ⟨⟨sh, rfl⟩, ?_, ?_⟩
  · intro hc
    obtain ⟨ref, h1, t, h2, h3, h4⟩ := C20_added_is_worked_on _ _ _ _ _ _ _ rfl hc hs
    exact ⟨ref, h1, t, h2, h3, by rw [h4]; rfl⟩
  · intro hc
    rw [C20_too_complex_ignored _ _ _ _ _ _ hc] at hs
    cases hs
    rfl

/-- C40: a rule about what follows in time only concerns procedural memory. -/
theorem C40_rule (env : Env) (r r' : Reasoner) (term : Term) (tv : Tv) (rng : List Nat) (ht : IsTemporal term)
    (h : inputT2 env r term .JUGEMENT tv false rng = .ok r') :
    ∃ m, memAddEvidence r.proc.mem { newEternalSentenceByTv term .JUGEMENT tv ⟨[idsGiven r]⟩ with evi := some (.CNT 10 10) }
        r.nConceptBeliefs r.proc.t rng = .ok m ∧
      r' = { r with proc := { r.proc with mem := m }, sh := { r.sh with stampIdCounter := idsGiven r + 1 } } := by
  unfold inputT2 at h
  obtain ⟨_, _, h⟩ := R.bind_ok.1 h
  simp only [Bool.false_eq_true, if_false] at h
  unfold inputEternalT at h
  rw [if_pos (by rw [← isTemporal_iff] at ht; exact ht)] at h
  obtain ⟨m, hm, h⟩ := R.bind_ok.1 h
  cases h
  exact ⟨m, hm, rfl⟩

/-- C40, violation: a question or a goal which is not marked as event is dropped, in every state. -/
theorem C40_eternal_question_dropped (env : Env) (r r' : Reasoner) (term : Term) (punct : Punct) (tv : Tv) (rng : List Nat)
    (hp : punct ≠ .JUGEMENT) (h : inputT2 env r term punct tv false rng = .ok r') :
    r' = { r with sh := { r.sh with stampIdCounter := idsGiven r + 1 } } := by
  unfold inputT2 at h
  obtain ⟨_, _, h⟩ := R.bind_ok.1 h
  simp only [Bool.false_eq_true, if_false] at h
  unfold inputEternalT at h
  cases punct with
  | JUGEMENT => exact absurd rfl hp
  | GOAL => split at h <;> (cases h; rfl)
  | QUESTION => split at h <;> (cases h; rfl)

/-- a goal, an event, a question, a statement, a rule and an eternal question, told one after the other -/
example : (runNar env0 [ln "a! :|:", ln "b. :|:", ln "<a --> b>? :|:", ln "<a --> b>.", ln "<(a,b,c) =/> d>.", ln "<a --> b>?"]).map
    (fun r => decide (goalCount r.proc.goals = 1) && decide (r.proc.trace.map (·.name) = [.Name "b"]) &&
      decide (r.sh.questionTasks.map (·.sentence.term) = [.Stmt .INH (.Name "a") (.Name "b")]) &&
      decide (r.sh.heap.map (fun t => (t.sentence.term, t.sentence.stamp.ids)) = [(.Stmt .INH (.Name "a") (.Name "b"), [3])]) &&
      decide (r.proc.mem.heap.length = 4) && decide (idsGiven r = 6)) = .ok true := by
  decide +kernel

/-! ## C41 -/

/-- C41: only the line "!QQ" ends the session. -/
theorem C41_quit (env : Env) (r r' : Reasoner) (line : List Char) (d : LineDraws) (quit : Bool) (out : List (List Char))
    (h : input env r line d = .ok (r', quit, out)) : quit = true ↔ trimNewline line = "!QQ".toList := by
  obtain ⟨_, _, rfl⟩ := input_ok h
  rw [beq_iff_eq, commandOf_quit]

/-- C41: comments and empty lines change nothing. -/
theorem C41_comment (env : Env) (r : Reasoner) (line : List Char) (d : LineDraws)
    (h : "//".toList <+: trimNewline line ∨ trimNewline line = []) : input env r line d = .ok (r, false, []) := by
  rcases h with h | h
  · rw [input_of_dispatch (dispatch_comment h)]; rfl
  · have : dispatch (trimNewline line) = .ok .empty := by rw [h]; decide
    rw [input_of_dispatch this]; rfl

/-- C41: every line which begins with "!sp" is a procedural step: perception, then decision and action. -/
theorem C41_step (env : Env) (r : Reasoner) (line : List Char) (d : LineDraws) (h : "!sp".toList <+: trimNewline line) :
    input env r line d = (procStep env r d).map (fun r' => (r', false, [])) := by
  rw [input_of_dispatch (dispatch_step h)]
  simp only [runCommand]
  cases procStep env r d with
  | error e => rfl
  | ok x => rfl

/-- C41, violation: the commands for the halves of a step do whole steps. -/
theorem C41_half_steps_are_whole_steps (env : Env) (r : Reasoner) (d : LineDraws) :
    input env r "!spA".toList d = input env r "!sp".toList d ∧ input env r "!spB".toList d = input env r "!sp".toList d := by
  refine ⟨?_, ?_⟩ <;> rw [C41_step _ _ _ _ (by decide), C41_step _ _ _ _ (by decide)]

/-- C41: "!s" with a number makes so many declarative reasoning cycles and leaves the procedural reasoner alone; no number
means one cycle. -/
theorem C41_cycles (env : Env) (r r' : Reasoner) (line : List Char) (d : LineDraws) (quit : Bool) (out : List (List Char))
    (n : Nat) (hn : n < 2 ^ 63)
    (hl : trimNewline line = '!' :: 's' :: natStr n ∨ (n = 1 ∧ trimNewline line = ['!', 's']))
    (h : input env r line d = .ok (r', quit, out)) :
    r'.currentTime = r.currentTime + n ∧ r'.sh.cycleCounter = r.sh.cycleCounter + n ∧ r'.proc = r.proc ∧ out = [] := by
  have key : ∃ arg, trimNewline line = '!' :: 's' :: arg ∧ arg.head? ≠ some 'p' ∧ nCycles arg = .ok n := by
    rcases hl with hl | ⟨rfl, hl⟩
    · have hd : ∀ c ∈ Nat.toDigits 10 n, c.isDigit = true :=
        fun c hc => Nat.isDigit_of_mem_toDigits (by decide) (by decide) hc
      have hs : natStr n = Nat.toDigits 10 n := by unfold natStr; rw [Nat.toString_eq_ofList_toDigits]; simp
      have hne : Nat.toDigits 10 n ≠ [] := Nat.toDigits_ne_nil
      refine ⟨natStr n, hl, ?_, ?_⟩
      · rw [hs]
        intro hp
        have := hd 'p' (List.mem_of_head? hp)
        revert this; decide
      · unfold nCycles
        rw [if_pos, parseI64_nat hn]
        rw [hs]
        have := byteLen_ge (Nat.toDigits 10 n)
        have := List.length_pos_iff.2 hne
        omega
    · exact ⟨[], hl, by simp, rfl⟩
  obtain ⟨arg, h1, h2, h3⟩ := key
  obtain ⟨_, hr, _⟩ := input_ok h
  rw [h1, commandOf_cycles h2] at hr
  obtain ⟨m, hm, hr⟩ := R.bind_ok.1 hr
  rw [h3] at hm
  cases hm
  obtain ⟨r1, hc, hr⟩ := R.bind_ok.1 hr
  cases hr
  obtain ⟨k1, k2, k3⟩ := cyclesLoop_time hc
  simp only [Int.toNat_natCast] at k1 k2
  exact ⟨k1, k2, k3, rfl⟩

example : (runNar env0 [ln "<a --> b>.", ln "!s12", ln "!s"]).map (fun r => (r.currentTime, r.sh.cycleCounter)) = .ok (13, 13) := by
  decide +kernel

/-- C41, violation: text other than a number after "!s" crashes. -/
theorem C41_bad_number_crashes (env : Env) (r : Reasoner) (line : List Char) (d : LineDraws) (c : Char) (cs : List Char)
    (hl : trimNewline line = '!' :: 's' :: c :: cs) (hc : c.toNat < 128) (hp : c ≠ 'p') (hn : parseI64 (c :: cs) = none) :
    input env r line d = .error .parse := by
  have hd := dispatch_cycles (arg := c :: cs) (by simpa using hp) (by rintro c' cs' he; cases he; exact utf8Size_one hc)
  rw [← hl] at hd
  rw [input_of_dispatch hd]
  have : nCycles (c :: cs) = .error .parse := by
    unfold nCycles
    rw [if_pos, hn]
    have := byteLen_ge (c :: cs)
    simp at this
    omega
  simp [runCommand, this, bind, Except.bind, Except.map]

example : (parseI64 "tep".toList, parseI64 "9223372036854775808".toList, parseI64 "-3".toList, parseI64 "+07".toList) =
    (none, none, some (-3), some 7) := by decide +kernel

/-- C41: a line beginning with "!" which is no command changes nothing (or crashes, see C67). -/
theorem C41_unknown_command (env : Env) (r r' : Reasoner) (line : List Char) (d : LineDraws) (quit : Bool)
    (out : List (List Char)) (l : List Char) (hl : trimNewline line = '!' :: l) (hc : commandOf ('!' :: l) = .narsese)
    (h : input env r line d = .ok (r', quit, out)) : r' = r ∧ quit = false ∧ out = [] := by
  obtain ⟨_, hr, rfl⟩ := input_ok h
  rw [hl, hc] at hr ⊢
  obtain ⟨⟨r1, ok⟩, h1, hr⟩ := R.bind_ok.1 hr
  cases hr
  unfold inputN at h1
  obtain ⟨p, hp, h1⟩ := R.bind_ok.1 h1
  cases p with
  | none => cases h1; exact ⟨rfl, rfl, rfl⟩
  | some x => exact absurd hp parseNarsese_bang

example : commandOf "!help".toList = .narsese := by decide

/-- C41: flushing drops all tasks and keeps beliefs, questions and the procedural reasoner. -/
theorem C41_flush (env : Env) (r : Reasoner) (line : List Char) (d : LineDraws) (h : trimNewline line = "!dtf".toList) :
    input env r line d =
      .ok ({ r with sh := { r.sh with judgementTasks := [], judgementTasksByTerm := [] } }, false, []) := by
  have hd : dispatch (trimNewline line) = .ok .flush := by rw [h]; decide
  rw [input_of_dispatch hd]
  rfl

/-- C41: babbling is switched. -/
theorem C41_babbling (env : Env) (r : Reasoner) (line : List Char) (d : LineDraws) (b : Bool)
    (h : trimNewline line = (if b then "!peb 1" else "!peb 0").toList) :
    input env r line d = .ok ({ r with proc := { r.proc with enBabbling := b } }, false, []) := by
  cases b with
  | true =>
    have hd : dispatch (trimNewline line) = .ok .babbleOn := by rw [h]; decide
    rw [input_of_dispatch hd]; rfl
  | false =>
    have hd : dispatch (trimNewline line) = .ok .babbleOff := by rw [h]; decide
    rw [input_of_dispatch hd]; rfl

/-- C41: registration of an operator without effect: it is appended to the operators and can be found by its name, unless
an operator with the same name was registered before. -/
theorem C41_register (env : Env) (r : Reasoner) (line : List Char) (d : LineDraws) (name : List Char) (hne : name ≠ [])
    (hw : ∀ c ∈ name, isUnicodeSpace c = false) (h : trimNewline line = "!por NOP ".toList ++ name) :
    ∃ r', input env r line d = .ok (r', false, []) ∧
      r' = { r with proc := { r.proc with ops := r.proc.ops ++ [⟨String.ofList name, true, 3⟩] } } ∧
      ((∀ o ∈ r.proc.ops, o.name ≠ String.ofList name) →
        retOpByName r'.proc.ops (String.ofList name) = some ⟨String.ofList name, true, 3⟩) := by
  have hd : dispatch (trimNewline line) = .ok (.register ("NOP ".toList ++ name)) := by
    have := dispatch_register (s := trimNewline line) (by rw [h]; exact ⟨"NOP ".toList ++ name, by simp⟩)
    rw [this, h]
    simp
  have hs : splitWhitespace ("NOP ".toList ++ name) [] = ["NOP".toList, name] := by
    have : ∀ (l cur : List Char), (∀ c ∈ l, isUnicodeSpace c = false) → splitWhitespace l cur = splitWhitespace [] (cur ++ l) := by
      intro l
      induction l with
      | nil => intro cur _; simp
      | cons c cs ih =>
        intro cur hc
        show (if isUnicodeSpace c then _ else _) = _
        rw [hc c (List.mem_cons_self ..), if_neg (by simp), ih _ (fun c' h' => hc c' (List.mem_cons_of_mem _ h'))]
        simp
    show "NOP".toList :: splitWhitespace name [] = _
    rw [this name [] hw]
    simp [splitWhitespace, hne]
  refine ⟨_, ?_, rfl, ?_⟩
  · rw [input_of_dispatch hd]
    simp only [runCommand, hs]
    rfl
  · intro hn
    show List.find? _ _ = _
    rw [List.find?_append, List.find?_eq_none.2 (by simpa using hn)]
    simp

/-- C41: of a line everything counts except the line ends (newlines and carriage returns, as many as there are) behind it. -/
theorem C41_line_ends (line s : List Char) : trimNewline line = s ↔
    (∃ e, line = s ++ e ∧ ∀ c ∈ e, c = '\n' ∨ c = '\r') ∧ ∀ c, s.getLast? = some c → c ≠ '\n' ∧ c ≠ '\r' := by
  have key : ∀ l : List Char, (∃ e, l = e ++ l.dropWhile (fun c => c == '\n' || c == '\r') ∧ ∀ c ∈ e, c = '\n' ∨ c = '\r') ∧
      ∀ c, (l.dropWhile (fun c => c == '\n' || c == '\r')).head? = some c → c ≠ '\n' ∧ c ≠ '\r' := by
    intro l
    refine ⟨⟨l.takeWhile (fun c => c == '\n' || c == '\r'), List.takeWhile_append_dropWhile.symm, ?_⟩, ?_⟩
    · intro c hc
      simpa using List.all_eq_true.1 List.all_takeWhile c hc
    · intro c hc
      have := List.head?_dropWhile_not (fun c => c == '\n' || c == '\r') l
      rw [hc] at this
      simpa using this
  have uniq : ∀ (e t : List Char), (∀ c ∈ e, c = '\n' ∨ c = '\r') → (∀ c, t.head? = some c → c ≠ '\n' ∧ c ≠ '\r') →
      (e ++ t).dropWhile (fun c => c == '\n' || c == '\r') = t := by
    intro e
    induction e with
    | nil =>
      intro t _ ht
      cases t with
      | nil => rfl
      | cons c cs => have := ht c rfl; simp [this.1, this.2]
    | cons a e ih =>
      intro t he ht
      have ha := he a (List.mem_cons_self ..)
      rw [List.cons_append, List.dropWhile_cons_of_pos (by simpa using ha)]
      exact ih t (fun c hc => he c (List.mem_cons_of_mem _ hc)) ht
  unfold trimNewline
  constructor
  · rintro rfl
    obtain ⟨⟨e, h1, h2⟩, h3⟩ := key line.reverse
    refine ⟨⟨e.reverse, ?_, fun c hc => h2 c (List.mem_reverse.1 hc)⟩, fun c hc => h3 c (by rwa [List.getLast?_reverse] at hc)⟩
    have := congrArg List.reverse h1
    rwa [List.reverse_reverse, List.reverse_append] at this
  · rintro ⟨⟨e, rfl, he⟩, hs⟩
    rw [List.reverse_append, uniq e.reverse s.reverse (fun c hc => he c (List.mem_reverse.1 hc))
      (fun c hc => hs c (by rwa [List.head?_reverse] at hc)), List.reverse_reverse]

example : trimNewline "!sp\r\n\n".toList = "!sp".toList := by decide

/-- C41: with a negative number of cycles nothing happens. -/
theorem C41_negative_cycles (env : Env) (r : Reasoner) (line : List Char) (d : LineDraws) (n : Nat) (hn : n ≤ 2 ^ 63)
    (hl : trimNewline line = '!' :: 's' :: '-' :: natStr n) : input env r line d = .ok (r, false, []) := by
  have hd := dispatch_cycles (arg := '-' :: natStr n) (by simp) (by rintro c cs he; cases he; rfl)
  rw [← hl] at hd
  rw [input_of_dispatch hd]
  have : nCycles ('-' :: natStr n) = .ok (-(n : Int)) := by
    unfold nCycles
    rw [if_pos, parseI64_neg hn]
    have := byteLen_ge ('-' :: natStr n)
    simp at this
    omega
  simp only [runCommand, this, bind, Except.bind]
  rw [show (-(n : Int)).toNat = 0 by omega]
  rfl

/-- C41: a plus sign before the number of cycles is allowed. -/
theorem C41_signed_cycles (env : Env) (r : Reasoner) (d : LineDraws) (n : Nat) (hn : n < 2 ^ 63) :
    input env r ('!' :: 's' :: '+' :: natStr n) d = input env r ('!' :: 's' :: natStr n) d := by
  have hs : natStr n = Nat.toDigits 10 n := by unfold natStr; rw [Nat.toString_eq_ofList_toDigits]; simp
  have hdig : ∀ c ∈ natStr n, c.isDigit = true := by
    rw [hs]; exact fun c hc => Nat.isDigit_of_mem_toDigits (by decide) (by decide) hc
  have hne : natStr n ≠ [] := by rw [hs]; exact Nat.toDigits_ne_nil
  have ht : ∀ pre : List Char, trimNewline (pre ++ natStr n) = pre ++ natStr n := by
    intro pre
    rw [C41_line_ends]
    refine ⟨⟨[], by simp, by simp⟩, ?_⟩
    intro c hc
    have hm : c ∈ natStr n := by
      rw [List.getLast?_append_of_ne_nil _ hne] at hc
      exact List.mem_of_getLast? hc
    have := hdig c hm
    constructor <;> rintro rfl <;> revert this <;> decide
  have h1 : dispatch (trimNewline ('!' :: 's' :: '+' :: natStr n)) = .ok (.cycles ('+' :: natStr n)) := by
    have t1 := ht ['!', 's', '+']
    simp only [List.cons_append, List.nil_append] at t1
    rw [t1]
    exact dispatch_cycles (arg := '+' :: natStr n) (by simp) (by rintro c cs he; cases he; rfl)
  have h2 : dispatch (trimNewline ('!' :: 's' :: natStr n)) = .ok (.cycles (natStr n)) := by
    have t1 := ht ['!', 's']
    simp only [List.cons_append, List.nil_append] at t1
    rw [t1]
    refine dispatch_cycles (arg := natStr n) ?_ ?_
    · intro hp
      have := hdig 'p' (List.mem_of_head? hp)
      revert this; decide
    · rintro c cs he
      have := hdig c (by rw [he]; simp)
      apply utf8Size_one
      simp only [Char.isDigit, Bool.and_eq_true, decide_eq_true_iff] at this
      have := UInt32.le_iff_toNat_le.1 this.2
      simp at this
      omega
  rw [input_of_dispatch h1, input_of_dispatch h2]
  have e1 : nCycles ('+' :: natStr n) = .ok (n : Int) := by
    unfold nCycles
    rw [if_pos, parseI64_plus hn]
    have := byteLen_ge ('+' :: natStr n)
    simp at this
    omega
  have e2 : nCycles (natStr n) = .ok (n : Int) := by
    unfold nCycles
    rw [if_pos, parseI64_nat hn]
    have := byteLen_ge (natStr n)
    have := List.length_pos_iff.2 hne
    omega
  simp only [runCommand, e1, e2]
  rfl

example : (runNar env0 [ln "<a --> b>.", ln "!s-12", ln "!s+3"]).map (fun r => (r.currentTime, r.sh.cycleCounter)) = .ok (3, 3) := by
  decide +kernel

/-- C41: registration of the two operators of the library. -/
theorem C41_register_library (env : Env) (r : Reasoner) (line : List Char) (d : LineDraws) :
    (trimNewline line = "!por execinj".toList → input env r line d =
      .ok ({ r with proc := { r.proc with ops := r.proc.ops ++ [⟨"^nal9_exeAndInject", false, 3⟩] } }, false, [])) ∧
    (trimNewline line = "!por nlpRel0".toList → input env r line d =
      .ok ({ r with proc := { r.proc with ops := r.proc.ops ++ [⟨"^nlpRel0", false, 3⟩] } }, false, [])) := by
  constructor
  · intro h
    have hd : dispatch (trimNewline line) = .ok (.register "execinj".toList) := by rw [h]; decide
    rw [input_of_dispatch hd]
    rfl
  · intro h
    have hd : dispatch (trimNewline line) = .ok (.register "nlpRel0".toList) := by rw [h]; decide
    rw [input_of_dispatch hd]
    rfl

/-- C41: other registrations are ignored: a type which is not known, or a wrong number of words. -/
theorem C41_register_unknown (env : Env) (r : Reasoner) (line : List Char) (d : LineDraws) (arg : List Char)
    (h : trimNewline line = "!por ".toList ++ arg) (h1 : splitWhitespace arg [] ≠ ["execinj".toList])
    (h2 : splitWhitespace arg [] ≠ ["nlpRel0".toList]) (h3 : ∀ name, splitWhitespace arg [] ≠ ["NOP".toList, name]) :
    input env r line d = .ok (r, false, []) := by
  have hd : dispatch (trimNewline line) = .ok (.register arg) := by
    have := dispatch_register (s := trimNewline line) (by rw [h]; exact ⟨arg, rfl⟩)
    rw [this, h]
    simp
  rw [input_of_dispatch hd]
  have : registeredOp (splitWhitespace arg []) = none := by
    generalize splitWhitespace arg [] = args at h1 h2 h3
    unfold registeredOp
    split
    · rename_i ty
      rw [if_neg (by rintro h; exact h1 (by rw [eq_of_beq h])), if_neg (by rintro h; exact h2 (by rw [eq_of_beq h]))]
    · rename_i ty name
      rw [if_neg (by rintro h; exact h3 name (by rw [eq_of_beq h]))]
    · rfl
  simp only [runCommand, this]
  rfl

example : splitWhitespace " NOP  x  y ".toList [] = ["NOP".toList, "x".toList, "y".toList] := by decide

/-- C41: a procedural step perceives first; the storage worker may do some rounds; then the reasoner decides and acts, all
on the state left by the one before. -/
theorem C41_step_order (env : Env) (r r' : Reasoner) (line : List Char) (d : LineDraws) (quit : Bool)
    (out : List (List Char)) (hl : "!sp".toList <+: trimNewline line) (h : input env r line d = .ok (r', quit, out)) :
    ∃ p0 p2 act, narStep0 r.proc d.perceive = .ok p0 ∧
      narStep1 libCall env.goalDecay (d.between.foldl workerStep p0) d.decide d.infs = .ok (p2, act) ∧ r'.proc = p2 ∧
      r'.queue = r.queue ∧ r'.answers = r.answers := by
  rw [C41_step env r line d hl] at h
  obtain ⟨r1, h1, h⟩ := R.map_ok.1 h
  cases h
  unfold procStep at h1
  obtain ⟨p0, h0, h1⟩ := R.bind_ok.1 h1
  rw [procWork_fold] at h1
  unfold procStep1 at h1
  obtain ⟨⟨p2, act⟩, h2, h1⟩ := R.bind_ok.1 h1
  refine ⟨p0, p2, act, h0, h2, ?_⟩
  unfold declEffects at h1
  cases act with
  | none => cases h1; exact ⟨rfl, rfl, rfl⟩
  | some t =>
    cases hd : decodeOp t with
    | none => simp only [hd] at h1; cases h1; exact ⟨rfl, rfl, rfl⟩
    | some x =>
      simp only [hd] at h1
      obtain ⟨effs, _, h1⟩ := R.bind_ok.1 h1
      obtain ⟨sh, _, h1⟩ := R.bind_ok.1 h1
      cases h1; exact ⟨rfl, rfl, rfl⟩

/-- C41: lines of ASCII characters always select a command, the documented one. -/
theorem C41_ascii_lines (line : List Char) (h : Ascii line) :
    dispatch (trimNewline line) = .ok (commandOf (trimNewline line)) := by
  apply dispatch_ascii
  apply Ascii.isAscii
  intro c hc
  apply h c
  unfold trimNewline at hc
  rw [List.mem_reverse] at hc
  exact List.mem_reverse.1 ((List.dropWhile_sublist _).subset hc)

/-- C41, violation: a line whose second character is outside ASCII crashes, whatever it says. -/
theorem C41_second_character_crashes (env : Env) (r : Reasoner) (line : List Char) (d : LineDraws) (a b : Char)
    (rest : List Char) (hl : trimNewline line = a :: b :: rest) (ha : a.toNat < 128) (hb : ¬ b.toNat < 128) :
    input env r line d = .error .index := by
  unfold input
  rw [hl]
  simp only [dispatch_cut (utf8Size_one ha) (show 1 < b.utf8Size by have := utf8Size_more hb; omega)]
  rfl

example : (input env0 createNar "bär. :|:".toList (draws [] [])).toOption = none := by
  rw [C41_second_character_crashes (a := 'b') (b := 'ä') (rest := "r. :|:".toList)] <;> first | rfl | decide

/-! ## C68 -/

/-- C68: once the rules are made available to question answering, the candidate answers for a question about a temporal
rule are the rules stored under a part of the question. -/
theorem C68_candidates (env : Env) (ops : List NarOp) (r : Reasoner) (h : runNar env ops = .ok r) (hl : NarOp.link ∈ ops)
    (q : Term) (hq : IsTemporal q) (b : Sentence) :
    Candidate r.look q b ↔ ∃ s, IsSubterm s q ∧ RuleStored r s b := by
  have hk : r.look = { r.sh with procMem := r.proc.mem.view } := by
    unfold Reasoner.look; rw [(runNar_linked h).2 hl]; rfl
  have hu : ∀ s, BeliefUnder r.look.procMem s b ↔ RuleStored r s b := by
    intro s; rw [hk]; exact view_under _ s b
  constructor
  · rintro (⟨_, s, hs, hb⟩ | ⟨hn, _⟩)
    · exact ⟨s, hs, (hu s).1 hb⟩
    · exact absurd hq hn
  · rintro ⟨s, hs, hb⟩
    exact .inl ⟨hq, s, hs, (hu s).2 hb⟩

/-- C68: one attempt to answer such a question tries all of these rules, and the question handlers get those which match
and improve on the best answer so far; the best of them all is found. -/
theorem C68_answers (env : Env) (ops : List NarOp) (r : Reasoner) (h : runNar env ops = .ok r) (hl : NarOp.link ∈ ops)
    (hq : ∀ q ∈ r.sh.questionTasks, IsTemporal q.sentence.term) (cfg : Cfg) (selVal : Rat) (sh' : Shared)
    (calls : List AnswerCall) (ha : answerSampled cfg selVal r.look = .ok (sh', calls))
    (hne : r.sh.questionTasks ≠ []) :
    ∃ i q q', r.sh.questionTasks[i]? = some q ∧ sh'.questionTasks = r.sh.questionTasks.set i q' ∧
      (∀ c ∈ calls, c.question = q.sentence.term ∧ CanAnswer q c.answer ∧
        ∃ s, IsSubterm s q.sentence.term ∧ RuleStored r s c.answer) ∧
      ∀ s b e, IsSubterm s q.sentence.term → RuleStored r s b → CanAnswer q b → Expectation b e → e ≤ q'.bestAnswerExp := by
  have hqs : r.look.questionTasks = r.sh.questionTasks := by unfold Reasoner.look; split <;> rfl
  rcases C19_candidates cfg selVal r.look sh' calls ha with ⟨h1, _⟩ | ⟨i, q, q', cands, h1, h2, h3, rfl⟩
  · rw [hqs] at h1; exact absurd h1 hne
  · rw [hqs] at h1
    have hqt := hq q (List.mem_of_getElem? h1)
    have hcand := fun b => C68_candidates env ops r h hl _ hqt b
    obtain ⟨_, _, _, _, _, j2, as, _, hs, j3, _, _, j6⟩ := qaTryAll_spec h3
    refine ⟨i, q, q', h1, by simp only [hqs], ?_, ?_⟩
    · intro c hc
      obtain ⟨k1, k2⟩ := j6 c hc
      exact ⟨k1, (j3 _ k2).1, (hcand _).1 ((h2 _).1 (hs.subset k2))⟩
    · intro s b e hsub hr hcan he
      exact j2 b ((h2 b).2 ((hcand b).2 ⟨s, hsub, hr⟩)) hcan e he

/-- C68: as long as the program using the reasoner does not make the rules available, such questions have no candidate
answers. -/
theorem C68_not_available (env : Env) (ops : List NarOp) (r : Reasoner) (h : runNar env ops = .ok r) (hl : NarOp.link ∉ ops)
    (q : Term) (hq : IsTemporal q) (b : Sentence) : ¬ Candidate r.look q b := by
  have hk : r.look = r.sh := by
    unfold Reasoner.look
    rw [if_neg (fun hn => hl ((runNar_linked h).1 hn))]
  rw [hk]
  rintro (⟨_, s, _, c, hc, _⟩ | ⟨hn, _⟩)
  · rw [(runNar_stamps h).link] at hc
    simp [Mem.get] at hc
  · exact hn hq

/-- C68: then, if only such questions are open, trying to answer does nothing. -/
theorem C68_never_answered (env : Env) (ops : List NarOp) (r : Reasoner) (h : runNar env ops = .ok r) (hl : NarOp.link ∉ ops)
    (hq : ∀ q ∈ r.look.questionTasks, IsTemporal q.sentence.term) (cfg : Cfg) (selVal : Rat) (sh' : Shared)
    (calls : List AnswerCall) (ha : answerSampled cfg selVal r.look = .ok (sh', calls)) : sh' = r.look ∧ calls = [] := by
  rcases C19_candidates cfg selVal r.look sh' calls ha with ⟨_, h2, h3⟩ | ⟨i, q, q', cands, h1, h2, h3, rfl⟩
  · exact ⟨h2, h3⟩
  · have hnil : cands = [] := by
      apply List.eq_nil_iff_forall_not_mem.2
      intro b hb
      exact C68_not_available env ops r h hl _ (hq q (List.mem_of_getElem? h1)) b ((h2 b).1 hb)
    subst hnil
    cases h3
    refine ⟨?_, rfl⟩
    rw [show r.look.questionTasks.set i q = r.look.questionTasks from ?_]
    apply List.ext_getElem?
    intro j
    rw [List.getElem?_set]
    split
    · rename_i hij
      subst hij
      rw [h1, if_pos (List.getElem?_eq_some_iff.1 h1).1]
    · rfl

/-- a rule is learned, then it is asked how to reach its effect -/
def askHow : List NarOp := [.handlers 1] ++ learnThenGoal ++ [ln "<?x =/> b>? :|:", ln "!s3"]

/-- as in the interactive program, the question is answered by the learned rule -/
example : (runNar env0 (.link :: askHow)).map (fun r => r.answers.map (fun c => (c.question, c.answer.term))) =
    .ok [(.Stmt .PREDIMPL (.QVar "x") (.Name "b"), .Stmt .PREDIMPL (.Seq [.Name "a",
      .Stmt .INH (.SetExt [.Prod [.SetExt [.Name "SELF"]]]) (.Name "^l")]) (.Name "b"))] := by decide +kernel

/-- C39, violation: this rule, the answer, counts an observation twice. -/
theorem C39_rule_counts_twice : ∃ (r : Reasoner) (c : AnswerCall), runNar env0 (.link :: askHow) = .ok r ∧ c ∈ r.answers ∧
    ¬ WellStamped r c.answer := by
  have h : (runNar env0 (.link :: askHow)).map (fun r => r.answers.map (fun c => c.answer.stamp.ids)) = .ok [[2, 2, 3]] := by
    decide +kernel
  obtain ⟨r, hr, h⟩ := R.map_ok.1 h
  cases ha : r.answers with
  | nil => rw [ha] at h; cases h
  | cons c cs =>
    rw [ha] at h
    refine ⟨r, c, hr, by rw [ha]; exact List.mem_cons_self .., ?_⟩
    intro hw
    have h1 := hw.2.2.1
    rw [show c.answer.stamp.ids = [2, 2, 3] from (List.cons.inj h).1] at h1
    exact absurd h1 (by decide)

/-- C68, violation: without this a rule is known which matches the question, and the question is not answered. -/
theorem C68_answer_withheld : ∃ (r : Reasoner) (q : Task2) (b : Sentence), runNar env0 askHow = .ok r ∧
    r.sh.questionTasks = [q] ∧ IsTemporal q.sentence.term ∧ b ∈ r.proc.mem.heap ∧ CanAnswer q b ∧ r.answers = [] := by
  have h : (runNar env0 askHow).map (fun r =>
      match r.sh.questionTasks, r.proc.mem.heap with
      | [q], b :: _ => decide (q.sentence.term = .Stmt .PREDIMPL (.QVar "x") (.Name "b")) && decide (b.punct = .JUGEMENT) &&
          (unify q.sentence.term b.term).isSome && r.answers.isEmpty
      | _, _ => false) = .ok true := by decide +kernel
  obtain ⟨r, hr, h⟩ := R.map_ok.1 h
  split at h
  · rename_i q b rest hq hb
    simp only [Bool.and_eq_true, decide_eq_true_eq, List.isEmpty_iff] at h
    obtain ⟨⟨⟨h1, h2⟩, h3⟩, h4⟩ := h
    exact ⟨r, q, b, hr, hq, by rw [h1]; exact (isTemporal_iff _).1 rfl, by rw [hb]; exact List.mem_cons_self .., ⟨h2, h3⟩, h4⟩
  · cases h

/-- C68: all other questions are compared with every belief of the declarative memory under a part of the question. -/
theorem C68_other_questions (r : Reasoner) (q : Term) (hq : ¬ IsTemporal q) (b : Sentence) :
    Candidate r.look q b ↔ ∃ s, IsSubterm s q ∧ BeliefUnder r.sh.mem s b := by
  have hm : r.look.mem = r.sh.mem := by unfold Reasoner.look; split <;> rfl
  constructor
  · rintro (⟨h, _⟩ | ⟨_, h⟩)
    · exact absurd h hq
    · rwa [hm] at h
  · intro h
    rw [← hm] at h
    exact .inr ⟨hq, h⟩

/-! ## C69 -/

/-- C69: nothing is invented: every sentence the declarative reasoner ever holds follows from the statements it was told,
by pooling independent evidence and by the rules of inference. -/
theorem C69_derivable (env : Env) (ops : List NarOp) (r : Reasoner) (h : runNar env ops = .ok r) (s : Sentence)
    (hs : Holds r s) : Derivable env ops s := (runNar_derivable h).holds hs

/-- C69: the same for every answer, except that questions about temporal rules may be answered by a rule which the
procedural reasoner knew, if the rules were made available. -/
theorem C69_answers_derivable (env : Env) (ops : List NarOp) (r : Reasoner) (h : runNar env ops = .ok r) (c : AnswerCall)
    (hc : c ∈ r.answers) :
    Derivable env ops c.answer ∨ (NarOp.link ∈ ops ∧ IsTemporal c.question ∧ WasRule env ops c.answer) := by
  rcases (runNar_derivable h).answers c hc with h1 | ⟨h1, h2⟩
  · exact .inl h1
  · exact .inr ⟨(runNar_linked h).1 h1, h2⟩

/-- C69: who is told nothing knows nothing, and can only answer with rules it learned. -/
theorem C69_nothing_told (env : Env) (ops : List NarOp) (r : Reasoner) (h : runNar env ops = .ok r)
    (hn : ∀ pre op post r0 term tv, ops = pre ++ op :: post → runNar env pre = .ok r0 → ¬ Told env r0 op term tv) :
    (∀ s, ¬ Holds r s) ∧ ∀ c ∈ r.answers, NarOp.link ∈ ops ∧ IsTemporal c.question ∧ WasRule env ops c.answer := by
  have key : ∀ s, ¬ Derivable env ops s := by
    intro s hs
    induction hs with
    | told h1 h2 h3 => exact hn _ _ _ _ _ _ h1 h2 h3
    | pool _ _ _ _ _ ih => exact ih
    | two _ _ _ ih => exact ih
    | alone _ _ ih => exact ih
    | used _ _ ih => exact ih
  refine ⟨fun s hs => key s (C69_derivable env ops r h s hs), ?_⟩
  intro c hc
  rcases C69_answers_derivable env ops r h c hc with h1 | h1
  · exact absurd h1 (key _)
  · exact h1

/-- the answer of the syllogism follows from what was told -/
example : ∃ r c, runNar env0 syllogism = .ok r ∧ c ∈ r.answers ∧ Derivable env0 syllogism c.answer := by
  have h : (runNar env0 syllogism).map (fun r => r.answers.map (fun c => c.answer.stamp.ids)) = .ok [[0, 1]] := by
    decide +kernel
  obtain ⟨r, hr, hv⟩ := R.map_ok.1 h
  obtain ⟨c, l, hl, -⟩ := List.map_eq_cons_iff.1 hv
  have hc : c ∈ r.answers := by rw [hl]; simp
  refine ⟨r, c, hr, hc, ?_⟩
  rcases C69_answers_derivable env0 _ r hr c hc with h | ⟨h, -⟩
  · exact h
  · exact absurd h (by simp [syllogism, ln])

/-- who is only asked and thinks knows nothing -/
example : ∃ r, runNar env0 [.handlers 1, .tell (.Stmt .INH (.Name "a") (.Name "c")) .QUESTION ⟨1, 9/10⟩ true [],
      .declWork, .declWork] = .ok r ∧ r.sh.questionTasks.length = 1 ∧ ∀ s, ¬ Holds r s := by
  have h : (runNar env0 [.handlers 1, .tell (.Stmt .INH (.Name "a") (.Name "c")) .QUESTION ⟨1, 9/10⟩ true [],
      .declWork, .declWork]).map (fun r => r.sh.questionTasks.length) = .ok 1 := by decide +kernel
  obtain ⟨r, hr, hv⟩ := R.map_ok.1 h
  refine ⟨r, hr, hv, (C69_nothing_told env0 _ r hr ?_).1⟩
  intro pre op post r0 term tv he _ ht
  have hm : op ∈ ([.handlers 1, .tell (.Stmt .INH (.Name "a") (.Name "c")) .QUESTION ⟨1, 9/10⟩ true [],
      .declWork, .declWork] : List NarOp) := by rw [he]; simp
  simp only [List.mem_cons, List.not_mem_nil, or_false] at hm
  rcases hm with rfl | rfl | rfl | rfl <;> simp [Told] at ht

/-! ## C70 -/

/-- C70: executing an operation always ends. -/
theorem C70_ends (ops : List Op) (name : String) (args : List Term) : opEffects ops name args ≠ .error .fuel :=
  opEffects_ends ops name args

/-- C70: the operator for sequences executes the operations of its second argument in order, skipping what is no registered
operation, and then reports its third argument as an event. -/
theorem C70_execute_and_inject (ops : List Op) (op : Op) (h : retOpByName ops "^nal9_exeAndInject" = some op)
    (hb : op.babbleable = false) (self : Term) (seq : List Term) (e : Term) :
    opEffects ops "^nal9_exeAndInject" [self, .Seq seq, e] =
      (seq.mapM (operationEffects ops)).map (fun effs => effs.flatten ++ [.inject e]) := opEffects_exec h hb self seq e

/-- C70: other arguments are ignored. -/
theorem C70_execute_other_arguments (ops : List Op) (args : List Term)
    (h : ∀ self seq e, args ≠ [self, .Seq seq, e]) : opEffects ops "^nal9_exeAndInject" args = .ok [] := by
  unfold opEffects
  split
  · rename_i op ho
    have hn : op.name = "^nal9_exeAndInject" := by simpa using List.find?_some ho
    unfold callDepth callOp
    split
    · rfl
    rw [if_pos (by simp [hn])]
    unfold execAndInject
    split
    · exact absurd rfl (h _ _ _)
    · rfl
  · rfl

/-- C70: the operator for relations adds its second argument to the declarative knowledge; the second element of a product
`(x, and, y)` becomes the extensional intersection of `x` and `y`. -/
theorem C70_relation (ops : List Op) (op : Op) (h : retOpByName ops "^nlpRel0" = some op) (hb : op.babbleable = false)
    (self a b pred : Term) (hp : (Term.Stmt .INH (.Prod [a, b]) pred).convTermToStr.isSome)
    (hp' : (Term.Stmt .INH (.Prod [a, rewriteRight b]) pred).convTermToStr.isSome) :
    opEffects ops "^nlpRel0" [self, .Stmt .INH (.Prod [a, b]) pred] = .ok [.relate (.Stmt .INH (.Prod [a, rewriteRight b]) pred)] ∧
      (∀ x y, b = .Seq [x, .Name "and", y] → rewriteRight b = .ExtInt [x, y]) ∧
      ((¬ ∃ x y, b = .Seq [x, .Name "and", y]) → rewriteRight b = b) := by
  have hn : op.name = "^nlpRel0" := by simpa using List.find?_some h
  refine ⟨?_, ?_, ?_⟩
  · unfold opEffects
    rw [h]
    obtain ⟨s1, e1⟩ := Option.isSome_iff_exists.1 hp
    obtain ⟨s2, e2⟩ := Option.isSome_iff_exists.1 hp'
    simp [callDepth, callOp, hb, hn, nlpRel0, rewriteRel, printed, e1, e2, bind, Except.bind]
  · rintro x y rfl
    simp [rewriteRight]
  · intro hx
    unfold rewriteRight
    split
    · rename_i x m y
      rw [if_neg]
      intro hm
      exact hx ⟨x, y, by rw [(C01_comparison_decides_identity _ _).1 hm]⟩
    · rfl

/-- "a eats b and c" -/
example : opEffects [⟨"^nlpRel0", false, 3⟩] "^nlpRel0" [.SetExt [.Name "SELF"],
      .Stmt .INH (.Prod [.Name "a", .Seq [.Name "b", .Name "and", .Name "c"]]) (.Name "eat")] =
    .ok [.relate (.Stmt .INH (.Prod [.Name "a", .ExtInt [.Name "b", .Name "c"]]) (.Name "eat"))] := by
  have h := C70_relation [⟨"^nlpRel0", false, 3⟩] _ rfl rfl (.SetExt [.Name "SELF"]) (.Name "a")
    (.Seq [.Name "b", .Name "and", .Name "c"]) (.Name "eat") (by decide) (by decide)
  rw [h.1, h.2.1 _ _ rfl]

/-- C70, violation: a relation with a product of fewer than two elements crashes. -/
theorem C70_short_product_crashes (ops : List Op) (op : Op) (h : retOpByName ops "^nlpRel0" = some op)
    (hb : op.babbleable = false) (self pred : Term) (ts : List Term) (hl : ts.length < 2) :
    opEffects ops "^nlpRel0" [self, .Stmt .INH (.Prod ts) pred] = .error .index := by
  have hn : op.name = "^nlpRel0" := by simpa using List.find?_some h
  have hr : rewriteRel (.Stmt .INH (.Prod ts) pred) = .error .index := by
    match ts, hl with
    | [], _ => rfl
    | [_], _ => rfl
  unfold opEffects
  rw [h]
  simp [callDepth, callOp, hb, hn, nlpRel0, hr, bind, Except.bind]

/-- C70, violation: of a product with more than two elements only the first two are kept, so that another statement is
believed than the one which was reported. -/
theorem C70_long_product_cut (ops : List Op) (op : Op) (h : retOpByName ops "^nlpRel0" = some op) (hb : op.babbleable = false)
    (self a b c pred : Term) (ts : List Term) (effs : List OpEffect)
    (he : opEffects ops "^nlpRel0" [self, .Stmt .INH (.Prod (a :: b :: c :: ts)) pred] = .ok effs) :
    effs = [.relate (.Stmt .INH (.Prod [a, rewriteRight b]) pred)] := by
  have hn : op.name = "^nlpRel0" := by simpa using List.find?_some h
  unfold opEffects at he
  rw [h] at he
  simp only [callDepth, callOp, hb, hn, nlpRel0, rewriteRel] at he
  have he : ((printed (.Stmt .INH (.Prod (a :: b :: c :: ts)) pred)).bind fun _ =>
      (printed (.Stmt .INH (.Prod [a, rewriteRight b]) pred)).bind fun _ =>
        .ok [.relate (.Stmt .INH (.Prod [a, rewriteRight b]) pred)]) = .ok effs := he
  obtain ⟨_, _, he⟩ := R.bind_ok.1 he
  obtain ⟨_, _, he⟩ := R.bind_ok.1 he
  cases he
  rfl

/-- C70: the operators change the procedural reasoner by reporting events only, in order, at the current time.  So the
theorems about all operators which only report events (C29–C35) hold for the operators of the library. -/
theorem C70_only_reports : OnlyReports libCall := by
  intro name args p p' h
  rw [libCall_eq] at h
  obtain ⟨effs, _, rfl⟩ := R.map_ok.1 h
  exact ⟨_, rfl⟩

/-- C70: a relation reported by an executed action is told to the declarative memory as a statement with truth value
(1, 0.9), with a new evidence id, at the current time of the procedural reasoner; it may be as complex as any other, and 60
beliefs are kept instead of 20. -/
theorem C70_relation_is_told (env : Env) (r r' : Reasoner) (line : List Char) (d : LineDraws) (quit : Bool)
    (out : List (List Char)) (hl : "!sp".toList <+: trimNewline line) (h : input env r line d = .ok (r', quit, out))
    (p0 p2 : Proc) (act : Option Term) (h0 : narStep0 r.proc d.perceive = .ok p0)
    (h2 : narStep1 libCall env.goalDecay (d.between.foldl workerStep p0) d.decide d.infs = .ok (p2, act)) :
    (act = none → r'.sh = r.sh) ∧
    (∀ t, act = some t → decodeOp t = none → r'.sh = r.sh) ∧
    (∀ t args name, act = some t → decodeOp t = some (args, name) →
      ∃ effs, opEffects (d.between.foldl workerStep p0).ops name args = .ok effs ∧
        ((∀ rel, .relate rel ∉ effs) → r'.sh = r.sh) ∧
        (∀ rel, effs = [.relate rel] →
          memAddTask ⟨64, 60, r.nGlobal, env.decay⟩ { r.sh with stampIdCounter := r.sh.stampIdCounter + 1 }
            (newEternalSentenceByTv rel .JUGEMENT ⟨1, 9/10⟩ ⟨[r.sh.stampIdCounter]⟩) true 1
            (d.between.foldl workerStep p0).t = .ok r'.sh)) := by
  rw [C41_step env r line d hl] at h
  obtain ⟨r1, h1, h⟩ := R.map_ok.1 h
  cases h
  unfold procStep at h1
  obtain ⟨p0', h0', h1⟩ := R.bind_ok.1 h1
  rw [h0] at h0'
  cases h0'
  rw [procWork_fold] at h1
  unfold procStep1 at h1
  obtain ⟨⟨p2', act'⟩, h2', h1⟩ := R.bind_ok.1 h1
  simp only at h2' h1
  rw [h2] at h2'
  cases h2'
  unfold declEffects at h1
  cases act with
  | none => cases h1; exact ⟨fun _ => rfl, (by rintro t ht; cases ht), (by rintro t a n ht; cases ht)⟩
  | some t =>
    refine ⟨by simp, ?_, ?_⟩
    · rintro t' ht hd
      cases ht
      simp only [hd] at h1
      cases h1; rfl
    · rintro t' args name ht hd
      cases ht
      simp only [hd] at h1
      obtain ⟨effs, he, h1⟩ := R.bind_ok.1 h1
      obtain ⟨sh, hf, h1⟩ := R.bind_ok.1 h1
      cases h1
      refine ⟨effs, he, ?_, ?_⟩
      · intro hn
        refine foldlM_inv (fun x => x = r.sh) hf rfl ?_
        intro e he' a b ha hs
        cases e with
        | inject _ => cases hs; exact ha
        | relate rel => exact absurd he' (hn rel)
      · rintro rel rfl
        obtain ⟨b, hb, hf⟩ := foldlM_cons_ok.1 hf
        cases foldlM_nil_ok.1 hf
        exact hb

/-- operations `t1` and `t2`, nested and unregistered ones in between: only the registered ones are executed, in order -/
example :
    let ops : List Op := [⟨"^nal9_exeAndInject", false, 3⟩, ⟨"^nlpRel0", false, 3⟩]
    let self := Term.SetExt [.Name "SELF"]
    let call := fun (l : List Term) (n : String) => Term.Stmt .INH (.SetExt [.Prod l]) (.Name n)
    let rel := Term.Stmt .INH (.Prod [.Name "a", .Seq [.Name "b", .Name "and", .Name "c"]]) (.Name "eat")
    (opEffects ops "^nal9_exeAndInject" [self, .Seq [call [self, rel] "^nlpRel0", .Name "z",
        call [self, .Seq [.Name "w"], .Name "e1"] "^nal9_exeAndInject", call [self, rel] "^unknown"], .Name "e2"]).map
      (fun effs => effs.map (fun e => match e with | .inject t => ("inject", t) | .relate t => ("relate", t))) =
    .ok [("relate", .Stmt .INH (.Prod [.Name "a", .ExtInt [.Name "b", .Name "c"]]) (.Name "eat")),
      ("inject", .Name "e1"), ("inject", .Name "e2")] := by
  decide +kernel

end Nar.Props
