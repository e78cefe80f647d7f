import Verif.Lemmas.Serving2
import Verif.Props.GivenUp
import Verif.Props.Deeds
/-! # C116: everything done serves something wanted -/
namespace Nar.Props
open Nar Term

/-- C116: whatever a step executes without just trying it out serves a goal of the user: a chain of known rules leads from the
executed operator to a goal which was given in the history.  This holds in every history, with all operators which only report
events, and for all draws. -/
theorem C116_done_for_a_goal (call : Call) (hcall : OnlyReports call) (decay : Int → Rat) (start p p' : Proc) (hs : Started start)
    (ops : List ProcOp) (hrun : runProc call decay start ops = .ok p) (rng : List Nat) (infs : List (Rat × Rat × List Nat)) (t : Term)
    (hstep : narStep1 call decay p rng infs = .ok (p', some t)) :
    Wanted (GivenGoal ops) (KnownRule p) t ∨ TriedOut p t := by
  obtain ⟨n, d, -, -, hg⟩ := hs.goals
  have h := runProc_serves (goal := GivenGoal ops) hcall hs.fresh.inv hs.weights (fun t tv id h => ⟨tv, id, h⟩)
    (by rw [hg]; exact fun e he => absurd he (makeGoalSystem_empty n d e)) hrun
  exact (narStep1_serves hcall (fun b hb => ⟨b, hb, rfl⟩) h hstep).2.2 t rfl

/-- C116: the same for the whole reasoner, where goals are given through the programming interface, as lines, or in sentences
made from relations: what is executed in a step (with any rounds of the storage worker between its two parts) serves a goal which
was given, or is tried out. -/
theorem C116_reasoner_acts_for_a_goal (env : Env) (ops : List NarOp) (r : Reasoner) (hr : runNar env ops = .ok r)
    (draws : Nat → SampleDraws) (p p' : Proc) (h0 : narStep0 r.proc draws = .ok p) (between : List (List Nat)) (rng : List Nat)
    (infs : List (Rat × Rat × List Nat)) (t : Term)
    (h1 : narStep1 libCall env.goalDecay (between.foldl workerStep p) rng infs = .ok (p', some t)) :
    Wanted (fun g => ∃ op ∈ ops, GivesGoal env op g) (KnownRule p') t ∨ TriedOut (between.foldl workerStep p) t := by
  obtain ⟨-, -, h⟩ := (runNar_serves hr).mid h0 between
  obtain ⟨-, k2, k3⟩ := narStep1_serves libCall_reports (fun b hb => ⟨b, hb, rfl⟩) h h1
  rcases k3 t rfl with k | k
  · refine .inl (k.mono (fun _ h => h) ?_)
    rintro x ⟨b, hb, rfl⟩
    exact ⟨b, k2 ▸ hb, rfl⟩
  · exact .inr k

/-- C116: who wants nothing does nothing: if no goal was given and nothing is tried out, no step executes anything. -/
theorem C116_nothing_wanted_nothing_done (env : Env) (ops : List NarOp) (hno : ∀ op ∈ ops, ∀ t, ¬ GivesGoal env op t) (r : Reasoner)
    (hr : runNar env ops = .ok r) (draws : Nat → SampleDraws) (p p' : Proc) (h0 : narStep0 r.proc draws = .ok p)
    (between : List (List Nat)) (hb : (between.foldl workerStep p).enBabbling = false) (rng : List Nat)
    (infs : List (Rat × Rat × List Nat)) (act : Option Term)
    (h1 : narStep1 libCall env.goalDecay (between.foldl workerStep p) rng infs = .ok (p', act)) : act = none := by
  cases act with
  | none => rfl
  | some t =>
    rcases C116_reasoner_acts_for_a_goal env ops r hr draws p p' h0 between rng infs t h1 with h | h
    · exact absurd h (fun h => h.of_none (fun g ⟨op, ho, hg⟩ => hno op ho g hg))
    · rw [h.1] at hb; cases hb

/-- C116, violated: the steps of a procedure should be done one after the other, and only what is known to follow should be
expected.  But of a rule with several operators only the last one is ever done: in no history of harmless input without orders an
operator is executed (unless it is tried out) which is in no rule the last one. -/
theorem C116_earlier_steps_left_out (call : Call) (decay : Int → Rat) (start p p' : Proc) (hs : Started start)
    (hw : WellBehaved start.ops call) (hcall : ReportsIndirect call) (hth : 1/2 ≤ start.threshold) (hb : start.enBabbling = false)
    (ops : List ProcOp) (ho : ∀ op ∈ ops, op.Harmless start.ops ∧ op.Indirect start.ops)
    (hrun : runProc call decay start ops = .ok p) (name : String) (hlast : ∀ b ∈ p.mem.heap, ¬ RuleFor b name)
    (rng : List Nat) (infs : List (Rat × Rat × List Nat)) (hi : ∀ d ∈ infs, 0 ≤ d.2.1) (act : Option Term)
    (hstep : narStep1 call decay p rng infs = .ok (p', act)) : ¬ Does act name :=
  C114_discredited_not_done call decay start p p' hs hw hcall hth hb ops ho hrun name (fun b hb h => absurd h (hlast b hb)) rng infs hi
    act hstep

/-! ## concrete cases -/

/-- doing `^l` and then `^r` after `a` leads to `b`; `b` is wanted and `a` is seen -/
def procedure : List NarOp :=
  [ln "!por NOP ^l", ln "!por NOP ^r", ln "!peb 0",
   .tell (rule (.Name "a") [opL, opR] (.Name "b")) .JUGEMENT ⟨1, 9/10⟩ false [], ln "b! :|:", ln "a. :|:"]

/-- C116, violated: it is known that `^l` and then `^r` lead from `a` to `b`, `b` is wanted and `a` is seen.  Then `^r` is executed,
though `^l` was not, and `b` is expected; as it does not happen, the rule gets a failure. -/
theorem C116_steps_skipped :
    ((runNar env0 (procedure ++ [stepIdle []])).map (fun r => r.proc.trace.map (·.name)) = .ok [.Name "a", opR]) ∧
    (runNar env0 (procedure ++ [stepIdle [], stepIdle []])).map (fun r => r.proc.mem.heap.map (·.evi)) =
      .ok [some (.CNT 10 10), some (.CNT 10 11), some (.CNT 10 10), some (.CNT 10 10)] := by
  constructor <;> decide +kernel

/-- the step of the procedural reasoner after `learnLB`, wanting `b` and seeing `a`, executes `^l`, which is the last element of the
condition of the rule to `b` -/
example : ∃ p p', runProc noEffect (fun _ => 1) calm pursueB.dropLast = .ok p ∧
    narStep1 noEffect (fun _ => 1) p [0] [] = .ok (p', some opL) ∧
    Wanted (GivenGoal pursueB.dropLast) (KnownRule p) opL ∧ ¬ TriedOut p opL := by
  have h : (runProc noEffect (fun _ => 1) calm pursueB.dropLast).bind (fun p => (narStep1 noEffect (fun _ => 1) p [0] []).map
      (fun x => (x.2, p.mem.heap.map (·.term), p.enBabbling))) =
      .ok (some opL, [leadsAB, leadsAB, leadsAB, leadsAB], false) := by decide +kernel
  obtain ⟨p, hp, h⟩ := R.bind_ok.1 h
  obtain ⟨⟨p', act⟩, h1, h⟩ := R.map_ok.1 h
  simp only [Prod.mk.injEq] at h
  obtain ⟨rfl, h2, h3⟩ := h
  refine ⟨p, p', hp, h1, ?_, fun k => by rw [k.1] at h3; cases h3⟩
  rcases C116_done_for_a_goal noEffect noEffect_reports _ calm p p' calm_started _ hp _ _ _ h1 with k | k
  · exact k
  · rw [k.1] at h3; cases h3

/-- the chain in this case -/
example (p : Proc) (h : KnownRule p leadsAB) : Wanted (GivenGoal pursueB.dropLast) (KnownRule p) opL :=
  .last (ts := [.Name "a"]) (.condition (effect := .Name "b") h (.given ⟨⟨1, 9/10⟩, 100, by simp [pursueB, learnLB]⟩))

/-- the whole reasoner with a goal, and what it does -/
example : ∃ r p p', runNar env0 procedure = .ok r ∧ narStep0 r.proc firstDraws = .ok p ∧
    narStep1 libCall env0.goalDecay (([] : List (List Nat)).foldl workerStep p) [0] [] = .ok (p', some opR) := by
  have h : (runNar env0 procedure).bind (fun r => (narStep0 r.proc firstDraws).bind (fun p =>
      (narStep1 libCall env0.goalDecay p [0] []).map (·.2))) = .ok (some opR) := by decide +kernel
  obtain ⟨r, hr, h⟩ := R.bind_ok.1 h
  obtain ⟨p, hp, h⟩ := R.bind_ok.1 h
  obtain ⟨⟨p', act⟩, h1, h⟩ := R.map_ok.1 h
  simp only at h
  subst h
  exact ⟨r, p, p', hr, hp, h1⟩

/-- a history in which nothing is wanted (the same without the goal), in which nothing is tried out -/
example : ∃ r p p', runNar env0 (procedure.eraseIdx 4) = .ok r ∧ narStep0 r.proc firstDraws = .ok p ∧ p.enBabbling = false ∧
    narStep1 libCall env0.goalDecay p [0] [] = .ok (p', none) ∧ p.trace.map (·.name) = [.Name "a"] := by
  have h : (runNar env0 (procedure.eraseIdx 4)).bind (fun r => (narStep0 r.proc firstDraws).bind (fun p =>
      (narStep1 libCall env0.goalDecay p [0] []).map (fun x => (x.2, p.enBabbling, p.trace.map (·.name))))) =
      .ok (none, false, [.Name "a"]) := by decide +kernel
  obtain ⟨r, hr, h⟩ := R.bind_ok.1 h
  obtain ⟨p, hp, h⟩ := R.bind_ok.1 h
  obtain ⟨⟨p', act⟩, h1, h⟩ := R.map_ok.1 h
  simp only [Prod.mk.injEq] at h
  obtain ⟨rfl, h2, h3⟩ := h
  exact ⟨r, p, p', hr, hp, h2, h1, h3⟩

/-- it gives no goal -/
example : ∀ op ∈ procedure.eraseIdx 4, ∀ t, ¬ GivesGoal env0 op t := by
  intro op hop t
  have hl : procedure.eraseIdx 4 = [ln "!por NOP ^l", ln "!por NOP ^r", ln "!peb 0",
    .tell (rule (.Name "a") [opL, opR] (.Name "b")) .JUGEMENT ⟨1, 9/10⟩ false [], ln "a. :|:"] := rfl
  rw [hl] at hop
  have key : ∀ (s : String) (d : LineDraws) (c : Command), dispatch (trimNewline s.toList) = .ok c → (∀ x, c ≠ .nlp x) →
      (c = .narsese → (parseNarsese env0.pf (trimNewline s.toList)).map (·.map (fun x => x.2.2)) = .ok (some (.JUGEMENT, true))) →
      ¬ GivesGoal env0 (.line s.toList d) t := by
    rintro s d c hd h1 h2 (⟨h3, tv, h4⟩ | ⟨⟨x, h3⟩, -⟩)
    · have := h2 (Except.ok.inj (hd.symm.trans h3))
      rw [h4] at this
      cases this
    · exact h1 x (Except.ok.inj (hd.symm.trans h3))
  simp only [List.mem_cons, List.not_mem_nil, or_false] at hop
  rcases hop with rfl | rfl | rfl | rfl | rfl
  · exact key _ _ (.register "NOP ^l".toList) (by decide +kernel) (by rintro x ⟨⟩) (by rintro ⟨⟩)
  · exact key _ _ (.register "NOP ^r".toList) (by decide +kernel) (by rintro x ⟨⟩) (by rintro ⟨⟩)
  · exact key _ _ .babbleOff (by decide +kernel) (by rintro x ⟨⟩) (by rintro ⟨⟩)
  · rintro ⟨-, h, -⟩; cases h
  · exact key _ _ .narsese (by decide +kernel) (by rintro x ⟨⟩) (fun _ => by decide +kernel)

/-- a reasoner which learned that `^l` and `^r` lead to `b`, with `^l` never the last -/
def bothDraws : Nat → SampleDraws := fun _ => ⟨0, [0, 1], 0, 0⟩

/-- a reasoner which learns rules with two operators -/
def skilled : Proc := { calm with nOpsMax := 2 }

/-- it learns such a rule, wants `b` and sees `a` -/
def skill : List ProcOp :=
  [.event (.Name "a"), .event opL, .event opR, .event (.Name "b"), .step0 bothDraws, .worker [], .worker [], .worker [], .worker [],
   .goal (.Name "b") ⟨1, 9/10⟩ 100, .flush, .event (.Name "a")]

/-- it does the second operator -/
example : (runProc noEffect (fun _ => 1) skilled skill).bind (fun p => (narStep1 noEffect (fun _ => 1) p [0] []).map
      (fun x => (x.2, p.mem.heap.map (·.term)))) =
    .ok (some opR, List.replicate 4 (rule (.Name "a") [opL, opR] (.Name "b"))) := by decide +kernel

theorem skilled_started : Started skilled where
  fresh := ⟨rfl, rfl, rfl⟩
  trace := rfl
  alive := rfl
  time := by decide
  table := by decide +kernel
  goals := ⟨_, _, by decide, by decide, rfl⟩
  weights := by decide

theorem skill_meets (ops : List Op) (h : ∃ o ∈ ops, o.name = "^l") (h' : ∃ o ∈ ops, o.name = "^r") :
    ∀ op ∈ skill, op.Harmless ops ∧ op.Indirect ops := by
  intro op hop
  simp only [skill, List.mem_cons, List.not_mem_nil, or_false] at hop
  have hn : ∀ n, ¬ StartsWithCall (.Name n) := by intro n h; simp [StartsWithCall] at h
  rcases hop with rfl | rfl | rfl | rfl | rfl | rfl | rfl | rfl | rfl | rfl | rfl | rfl
  · exact ⟨plain_name _ _, fun h => absurd h (hn _)⟩
  · exact ⟨call_plain (args := [selfTerm]) (name := "^l") ⟨by simp, rfl⟩ ⟨_, rfl⟩, fun _ => ⟨[selfTerm], "^l", ⟨by simp, rfl⟩, h⟩⟩
  · exact ⟨call_plain (args := [selfTerm]) (name := "^r") ⟨by simp, rfl⟩ ⟨_, rfl⟩, fun _ => ⟨[selfTerm], "^r", ⟨by simp, rfl⟩, h'⟩⟩
  · exact ⟨plain_name _ _, fun h => absurd h (hn _)⟩
  · exact ⟨trivial, trivial⟩
  · exact ⟨fun d hd => (by cases hd), trivial⟩
  · exact ⟨fun d hd => (by cases hd), trivial⟩
  · exact ⟨fun d hd => (by cases hd), trivial⟩
  · exact ⟨fun d hd => (by cases hd), trivial⟩
  · exact ⟨printable_name _, hn _⟩
  · exact ⟨trivial, trivial⟩
  · exact ⟨plain_name _ _, fun h => absurd h (hn _)⟩

/-- no rule of it ends in `^l` -/
example : ∃ p, runProc noEffect (fun _ => 1) skilled skill = .ok p ∧ ∀ b ∈ p.mem.heap, ¬ RuleFor b "^l" := by
  have h : (runProc noEffect (fun _ => 1) skilled skill).map (fun p => p.mem.heap.map (·.term)) =
    .ok (List.replicate 4 (rule (.Name "a") [opL, opR] (.Name "b"))) := by decide +kernel
  obtain ⟨p, hp, h⟩ := R.map_ok.1 h
  refine ⟨p, hp, ?_⟩
  rintro b hb ⟨cond, acts, op, effect, args, h1, h2⟩
  have hm : b.term ∈ p.mem.heap.map (·.term) := List.mem_map.2 ⟨b, hb, rfl⟩
  rw [h] at hm
  have := List.eq_of_mem_replicate hm
  rw [this] at h1
  obtain ⟨-, h3, -⟩ := rule_inj h1
  have h4 : [opL] ++ [opR] = acts ++ [op] := h3
  have h5 := (List.append_inj' h4 rfl).2
  rw [← List.cons.inj h5 |>.1] at h2
  have h6 := h2.2
  simp [opR, encodeOp] at h6

end Nar.Props
