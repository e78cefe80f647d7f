import Verif.Lemmas.Proc5
import Verif.Props.Rules
import Verif.Props.Goal
/-! # Properties of the procedural reasoner: C29 - C36, C64 -/
namespace Nar.Props
open Nar

deriving instance DecidableEq for Event

/-! ## a concrete run -/

/-- `<({SELF}) --> ^l>` -/
def opL : Term := encodeOp [selfTerm] "^l"
/-- a new reasoner with two operators, one of which may be babbled -/
def agent : Proc := { narInit with ops := [⟨"^l", true, 3⟩, ⟨"^r", false, 3⟩] }
/-- operators without any effect on the reasoner -/
def noEffect : Call := fun _ _ p => .ok p
/-- always sample the first operator and the first event -/
def firstDraws : Nat → SampleDraws := fun _ => ⟨1, [0], 0, 0⟩
/-- see `a`, do `^l`, see `b`, and learn from it -/
def learnLB : List ProcOp :=
  [.event (.Name "a"), .event opL, .event (.Name "b"), .step0 firstDraws, .worker [], .worker [], .worker [], .worker []]
/-- want `b`, see `a`, act -/
def pursueB : List ProcOp := learnLB ++ [.goal (.Name "b") ⟨1, 9/10⟩ 100, .flush, .event (.Name "a"), .step1 [] []]

theorem noEffect_reports : OnlyReports noEffect := by
  intro name args p p' h
  cases h
  exact ⟨[], by simp⟩

theorem agent_fresh : Fresh agent := ⟨rfl, rfl, rfl⟩

theorem agent_ops : ∀ o ∈ agent.ops, 1 ≤ o.eviCnt := by decide

/-! ## C29 -/

theorem trace_fold (ops : List TraceOp) (tr acc : List Event) (h1 : tr <:+ acc) (h2 : min 20 acc.length ≤ tr.length) :
    (ops.foldl TraceOp.run tr) <:+ eventsSinceFlush ops acc ∧
      min 20 (eventsSinceFlush ops acc).length ≤ (ops.foldl TraceOp.run tr).length := by
  induction ops generalizing tr acc with
  | nil => exact ⟨h1, h2⟩
  | cons op ops ih =>
    rw [List.foldl_cons]
    cases op with
    | happened e =>
      refine ih _ _ ?_ ?_
      · obtain ⟨pre, rfl⟩ := h1
        exact ⟨pre, by simp [TraceOp.run]⟩
      · simp only [TraceOp.run, List.length_append, List.length_singleton]; omega
    | limit =>
      refine ih _ _ ?_ ?_
      · simp only [TraceOp.run]
        rw [traceLimit_newest]
        exact (newest_suffix _ _).trans h1
      · simp only [TraceOp.run]
        rw [traceLimit_newest, newest_length]; omega
    | flush => exact ih _ _ (List.suffix_refl _) (by simp [TraceOp.run])

/-- C29: after any history the window holds the newest events since the last flush, in order of arrival: all of
them, or at least the newest 20. -/
theorem C29_window_is_newest (ops : List TraceOp) :
    ∃ n, 20 ≤ n ∧ ops.foldl TraceOp.run [] = newest n (eventsSinceFlush ops []) := by
  obtain ⟨h1, h2⟩ := trace_fold ops [] [] (List.suffix_refl _) (by simp)
  have h3 := suffix_eq_newest h1
  by_cases hn : 20 ≤ (ops.foldl TraceOp.run []).length
  · exact ⟨_, hn, h3⟩
  · refine ⟨20, Nat.le_refl _, ?_⟩
    have hlen := h1.length_le
    have : (eventsSinceFlush ops []).length = (ops.foldl TraceOp.run []).length := by omega
    rw [List.IsSuffix.eq_of_length h1 this.symm]
    unfold newest
    rw [Nat.sub_eq_zero_of_le (by omega)]; rfl

/-- C29: after the window was limited it holds exactly the newest 20 events (or all, if there are less). -/
theorem C29_limited_window (ops : List TraceOp) :
    (ops ++ [TraceOp.limit]).foldl TraceOp.run [] = newest 20 (eventsSinceFlush ops []) := by
  obtain ⟨h1, h2⟩ := trace_fold ops [] [] (List.suffix_refl _) (by simp)
  rw [List.foldl_append]
  simp only [List.foldl_cons, List.foldl_nil]
  show traceLimit _ = _
  rw [traceLimit_newest]
  exact newest_newest 20 h1 h2

/-- C29: after a step the window holds the newest 20 of: the events before, what the operator reported, and the
executed action itself as last event. -/
theorem C29_window_after_step (call : Call) (hcall : OnlyReports call) (decay : Int → Rat) (p p' : Proc) (rng : List Nat)
    (infs : List (Rat × Rat × List Nat)) (act : Option Term) (h : narStep1 call decay p rng infs = .ok (p', act)) :
    ∃ reported, (act = none → reported = []) ∧
      p'.trace = newest 20 (p.trace ++ reported ++ (match act with | some a => [⟨a, p.t, p.t⟩] | none => [])) := by
  obtain ⟨g, g2, an, evs, concepts, goals, _, _, h1, rfl, _⟩ := narStep1_spec hcall h
  refine ⟨evs, h1, ?_⟩
  cases act <;> rfl

/-- C29: the current situation is the last event. -/
theorem C29_last_event (trace : List Event) (e : Event) : retLastEvents (trace ++ [e]) = some [e] := by
  simp [retLastEvents]

theorem C29_no_last_event : retLastEvents [] = none := rfl

/-- the events 0 .. 24 with a flush after the second and limits in between -/
def windowOps : List TraceOp :=
  [.happened ⟨.Name "x", 0, 0⟩, .happened ⟨.Name "y", 0, 0⟩, .flush] ++
  (List.range 25).flatMap (fun i => [.happened ⟨.Name "e", i, i⟩] ++ if i % 7 = 0 then [.limit] else [])

example : (windowOps.foldl TraceOp.run []).map (·.evi) = (List.range 23).map (fun i => (i : Int) + 2) := by
  decide +kernel
example : ((windowOps ++ [TraceOp.limit]).foldl TraceOp.run []).map (·.evi) = (List.range 20).map (fun i => (i : Int) + 5) := by
  decide +kernel
example : ∃ p' act, narStep1 noEffect (fun _ => 1) agent [0] [] = .ok (p', act) ∧ p'.trace = [⟨opL, 0, 0⟩] := by
  have h : (narStep1 noEffect (fun _ => 1) agent [0] []).map (fun r => (r.2, r.1.trace)) = .ok (some opL, [⟨opL, 0, 0⟩]) := by
    decide +kernel
  obtain ⟨⟨p', act⟩, h1, h2⟩ := R.map_ok.1 h
  exact ⟨p', act, h1, (Prod.mk.inj h2).2⟩

/-! ## C30 -/

/-- C30: in every history of a new reasoner, every temporal rule counts at least one observation and not more
supporting observations than observations. -/
theorem C30_counts_consistent (call : Call) (hcall : OnlyReports call) (decay : Int → Rat) (p p' : Proc) (hp : Fresh p)
    (hops : ∀ o ∈ p.ops, 1 ≤ o.eviCnt) (ops : List ProcOp) (h : runProc call decay p ops = .ok p')
    (b : Sentence) (hb : b ∈ p'.mem.heap) :
    ∃ pos cnt, Counts b pos cnt ∧ 0 ≤ pos ∧ pos ≤ cnt ∧ 1 ≤ cnt :=
  ((runProc_inv hcall h hp.inv hops).1.heap b hb).2.2

/-- C30: rules never lose evidence: whatever happens afterwards, a stored rule stays the same rule, none of its
counters decreases, and the additional supporting observations are among the additional observations. -/
theorem C30_counts_never_decrease (call : Call) (hcall : OnlyReports call) (decay : Int → Rat) (p p1 p2 : Proc)
    (hp : Fresh p) (hops : ∀ o ∈ p.ops, 1 ≤ o.eviCnt) (ops1 ops2 : List ProcOp)
    (h1 : runProc call decay p ops1 = .ok p1) (h2 : runProc call decay p1 ops2 = .ok p2)
    (r : Nat) (b : Sentence) (hb : p1.mem.heap[r]? = some b) :
    ∃ b' pos cnt pos' cnt', p2.mem.heap[r]? = some b' ∧ b'.term = b.term ∧ b'.expDt = b.expDt ∧
      Counts b pos cnt ∧ Counts b' pos' cnt' ∧ pos ≤ pos' ∧ cnt ≤ cnt' ∧ pos' - pos ≤ cnt' - cnt := by
  obtain ⟨i1, e1, _⟩ := runProc_inv hcall h1 hp.inv hops
  obtain ⟨_, _, hg⟩ := runProc_inv hcall h2 i1 (by rw [e1]; exact hops)
  obtain ⟨b', hb', g1, g2, g3, g4⟩ := hg r b hb
  obtain ⟨_, _, pos, cnt, hc, _⟩ := i1.heap b (List.mem_of_getElem? hb)
  obtain ⟨pos', cnt', k1, k2, k3, k4⟩ := g4 pos cnt hc
  exact ⟨b', pos, cnt, pos', cnt', hb', g1, g2, hc, k1, k2, k3, k4⟩

/-- C30: hence every temporal rule has a truth value with frequency in [0,1] and confidence in [0,1). -/
theorem C30_truth_in_range (call : Call) (hcall : OnlyReports call) (decay : Int → Rat) (p p' : Proc) (hp : Fresh p)
    (hops : ∀ o ∈ p.ops, 1 ≤ o.eviCnt) (ops : List ProcOp) (h : runProc call decay p ops = .ok p')
    (b : Sentence) (hb : b ∈ p'.mem.heap) : ∃ tv, HasTruth b tv ∧ Tv.Sane tv := by
  obtain ⟨pos, cnt, h1, h2, h3, h4⟩ := C30_counts_consistent call hcall decay p p' hp hops ops h b hb
  exact C12_counted_evidence_in_range b pos cnt h2 h3 (by omega) h1

/-- every rule in memory says that a condition followed by something leads to an effect -/
theorem C30_rules_have_a_condition (call : Call) (hcall : OnlyReports call) (decay : Int → Rat) (p p' : Proc) (hp : Fresh p)
    (hops : ∀ o ∈ p.ops, 1 ≤ o.eviCnt) (ops : List ProcOp) (h : runProc call decay p ops = .ok p')
    (b : Sentence) (hb : b ∈ p'.mem.heap) : ∃ cond acts effect, b.term = rule cond acts effect :=
  ((runProc_inv hcall h hp.inv hops).1.heap b hb).1

/-- learning the rule, acting on it, and being disappointed -/
def disappointed : List ProcOp := pursueB ++ [.step0 firstDraws]

example : (runProc noEffect (fun _ => 1) agent disappointed).map (fun p => p.mem.heap.map (·.evi)) =
    .ok [some (.CNT 3 4), some (.CNT 3 3), some (.CNT 3 3), some (.CNT 3 3)] := by decide +kernel

/-! ## C31 -/

open Classical in
/-- C31, what holds: a step forgets exactly the anticipations which are confirmed or due and keeps the others; a rule
gets exactly one negative observation for each of its anticipations which is due and not confirmed, nothing else
happens to any rule.  An anticipation counts as confirmed if the predicted effect is among the newest events of the
window (as many as configured, 2 by default).

What is missing for the full property: an effect which occurs in time but is followed by further events before the
next step is not recognised (`C31_effect_missed`). -/
theorem C31_anticipations_exact_partial (p p' : Proc) (draws : Nat → SampleDraws) (h : narStep0 p draws = .ok p') :
    p'.anticipated = p.anticipated.filter (fun a => decide (p.t < a.deadline ∧ ¬ Confirmed p a)) ∧
    p'.mem.concepts = p.mem.concepts ∧ p'.mem.heap.length = p.mem.heap.length ∧
    ∀ (r : Nat) (b : Sentence), p.mem.heap[r]? = some b →
      ∃ b', p'.mem.heap[r]? = some b' ∧ Disappointed (failures p r) b b' := by
  obtain ⟨heap, new, rfl, _, _, h1, h2⟩ := narStep0_spec h
  exact ⟨rfl, rfl, h1, h2⟩

/-- C31: an effect which is among the events since the last step is recognised, if these are not more than the
configured window: the anticipation is forgotten and adds nothing. -/
theorem C31_in_time_adds_nothing (p p' : Proc) (draws : Nat → SampleDraws) (h : narStep0 p draws = .ok p')
    (old new : List Event) (htrace : p.trace = old ++ new) (hnew : new.length ≤ p.perceptWindow)
    (r : Nat) (b : Sentence) (hb : p.mem.heap[r]? = some b) (cond effect : Term)
    (hrule : b.term = .Stmt .PREDIMPL cond effect) (e : Event) (he : e ∈ new) (hname : e.name = effect) :
    (∀ a ∈ p'.anticipated, a.evi ≠ r) ∧ p'.mem.heap[r]? = some b := by
  have hrec : Recent p.perceptWindow p.trace e := by
    unfold Recent newest
    rw [htrace, List.drop_append]
    refine List.mem_append_right _ ?_
    have : (old ++ new).length - p.perceptWindow - old.length = 0 := by
      rw [List.length_append]; omega
    rw [this]; exact he
  have hconf : ∀ a : Anticipation, a.evi = r → Confirmed p a := by
    rintro a rfl
    exact ⟨b, cond, effect, e, hb, hrule, hrec, hname⟩
  obtain ⟨h1, h2, h3, h4⟩ := C31_anticipations_exact_partial p p' draws h
  constructor
  · intro a ha hr
    rw [h1] at ha
    have := (List.mem_filter.1 ha).2
    simp only [decide_eq_true_eq] at this
    exact this.2 (hconf a hr)
  · obtain ⟨b', hb', hd⟩ := h4 r b hb
    have hz : failures p r = 0 := by
      unfold failures
      rw [List.length_eq_zero_iff, List.filter_eq_nil_iff]
      intro a _ hc
      simp only [decide_eq_true_eq] at hc
      exact hc.2.2 (hconf a hc.1)
    rw [hz] at hd
    rcases hd with ⟨_, rfl⟩ | ⟨pos, cnt, hc, rfl⟩
    · exact hb'
    · rw [hb']
      simp only [Option.some.injEq]
      have : b.evi = some (.CNT pos cnt) := hc
      cases b
      simp_all

/-- the reasoner acts to reach `b`; `b` happens at the deadline, but two more events happen before the next step -/
def effectThenTwo : List ProcOp := pursueB ++ [.event (.Name "b"), .event (.Name "c"), .event (.Name "d"), .step0 firstDraws]

/-- C31, violated: the anticipated effect occurs in time, nevertheless the rule gets a negative observation. -/
theorem C31_effect_missed : ∃ p1 p2, runProc noEffect (fun _ => 1) agent pursueB = .ok p1 ∧
    p1.anticipated = [⟨0, 1⟩] ∧ p1.t = 1 ∧ p1.mem.heap.map (·.evi) = List.replicate 4 (some (.CNT 3 3)) ∧
    p1.mem.heap.map (·.term) = List.replicate 4 (rule (.Name "a") [opL] (.Name "b")) ∧
    runProc noEffect (fun _ => 1) p1 [.event (.Name "b"), .event (.Name "c"), .event (.Name "d"), .step0 firstDraws] = .ok p2 ∧
    p2.anticipated = [] ∧ p2.mem.heap.map (·.evi) = some (.CNT 3 4) :: List.replicate 3 (some (.CNT 3 3)) := by
  have h1 : (runProc noEffect (fun _ => 1) agent pursueB).map (fun p => (p.anticipated, p.t, p.mem.heap.map (·.evi),
      p.mem.heap.map (·.term))) = .ok ([⟨0, 1⟩], 1, List.replicate 4 (some (.CNT 3 3)),
        List.replicate 4 (rule (.Name "a") [opL] (.Name "b"))) := by decide +kernel
  have h2 : (runProc noEffect (fun _ => 1) agent effectThenTwo).map (fun p => (p.anticipated, p.mem.heap.map (·.evi))) =
      .ok ([], some (.CNT 3 4) :: List.replicate 3 (some (.CNT 3 3))) := by decide +kernel
  obtain ⟨p1, hp1, e1⟩ := R.map_ok.1 h1
  obtain ⟨p2, hp2, e2⟩ := R.map_ok.1 h2
  unfold effectThenTwo runProc at hp2
  rw [List.foldlM_append] at hp2
  obtain ⟨q, hq, hp2⟩ := R.bind_ok.1 hp2
  unfold runProc at hp1
  rw [hp1] at hq
  cases hq
  simp only [Prod.mk.injEq] at e1 e2
  exact ⟨p1, p2, hp1, e1.1, e1.2.1, e1.2.2.1, e1.2.2.2, hp2, e2.1, e2.2⟩

/-- C31, violated: a learned rule is stored in several copies, and a disappointment reaches only one of them.  The
same rule is afterwards in memory with and without the negative observation. -/
theorem C31_only_one_copy_disappointed : ∃ p b b', runProc noEffect (fun _ => 1) agent disappointed = .ok p ∧
    b ∈ p.mem.heap ∧ b' ∈ p.mem.heap ∧ b.term = b'.term ∧ b.stamp = b'.stamp ∧ Counts b 3 4 ∧ Counts b' 3 3 := by
  have h : (runProc noEffect (fun _ => 1) agent disappointed).map (fun p => (p.mem.heap[0]?, p.mem.heap[1]?)) =
      .ok (some { term := rule (.Name "a") [opL] (.Name "b"), t := none, punct := .JUGEMENT, stamp := ⟨[0, 0, 0]⟩,
                  expDt := some 0, evi := some (.CNT 3 4), usage := ⟨0, 0, []⟩ },
           some { term := rule (.Name "a") [opL] (.Name "b"), t := none, punct := .JUGEMENT, stamp := ⟨[0, 0, 0]⟩,
                  expDt := some 0, evi := some (.CNT 3 3), usage := ⟨0, 0, []⟩ }) := by decide +kernel
  obtain ⟨p, hp, e⟩ := R.map_ok.1 h
  simp only [Prod.mk.injEq] at e
  exact ⟨p, _, _, hp, List.mem_of_getElem? e.1, List.mem_of_getElem? e.2, rfl, rfl, rfl, rfl⟩

example : ∃ p p', runProc noEffect (fun _ => 1) agent (pursueB ++ [.event (.Name "b")]) = .ok p ∧
    p.trace = [⟨.Name "a", 0, 0⟩, ⟨opL, 0, 0⟩] ++ [⟨.Name "b", 1, 1⟩] ∧ p.anticipated = [⟨0, 1⟩] ∧
    narStep0 p firstDraws = .ok p' := by
  have h : (runProc noEffect (fun _ => 1) agent (pursueB ++ [.event (.Name "b")])).map (fun p => (p.trace, p.anticipated,
      (narStep0 p firstDraws).toOption.isSome)) = .ok ([⟨.Name "a", 0, 0⟩, ⟨opL, 0, 0⟩] ++ [⟨.Name "b", 1, 1⟩], [⟨0, 1⟩], true) := by
    decide +kernel
  obtain ⟨p, hp, e⟩ := R.map_ok.1 h
  simp only [Prod.mk.injEq] at e
  obtain ⟨e1, e2, e3⟩ := e
  cases hn : narStep0 p firstDraws with
  | error x => rw [hn] at e3; cases e3
  | ok p' => exact ⟨p, p', hp, e1, e2, hn⟩

/-! ## C32, C33 -/

/-- C32: what a step decides and executes.  First the last operator of an option above the threshold may become a
goal (`Adopted`).  Then the best desired executable goal is acted upon if its expectation is strictly above the
threshold (`Decision`): the operator has to be registered, the goal is removed and the effect of the rule which
justifies the goal is anticipated after the interval of the rule. -/
theorem C32_decision (call : Call) (hcall : OnlyReports call) (decay : Int → Rat) (p p' : Proc) (rng : List Nat)
    (infs : List (Rat × Rat × List Nat)) (act : Option Term) (h : narStep1 call decay p rng infs = .ok (p', act)) :
    ∃ g g', Adopted p g ∧ Decision p g g' p'.anticipated act ∧
      (goalWork p.t p'.mem infs).foldlM (GoalOp.run decay) g' = .ok p'.goals := by
  obtain ⟨g, g2, an, evs, concepts, goals, h1, h2, _, rfl, _, _, _, h3⟩ := narStep1_spec hcall h
  exact ⟨g, g2, h1, h2, h3⟩

/-- C32: an executed action is either the statement of a desired goal with maximal expectation, strictly above the
threshold, or babbling; in both cases it is the call of a registered operator. -/
theorem C32_executed_only_above_threshold (call : Call) (hcall : OnlyReports call) (decay : Int → Rat) (p p' : Proc)
    (rng : List Nat) (infs : List (Rat × Rat × List Nat)) (act : Term)
    (h : narStep1 call decay p rng infs = .ok (p', some act)) :
    RegisteredCall p.ops act ∧
    ((∃ g e, Adopted p g ∧ BestGoal g p.threshold e ∧ e.sentence.term = act ∧ e.evidence ≠ none) ∨
     (p.enBabbling = true ∧ ∃ op ∈ p.ops, op.babbleable = true ∧ act = encodeOp [selfTerm] op.name)) := by
  obtain ⟨g, g', hg, hd, -⟩ := C32_decision call hcall decay p p' rng infs (some act) h
  rcases hd with ⟨e, i, r, b, iv, h1, h2, h3, h4, h5, h6, h7, h8, h9, h10⟩ | ⟨_, _, _, hb⟩
  · by_cases hr : RegisteredCall p.ops e.sentence.term
    · have := h9 hr
      cases this
      exact ⟨hr, .inl ⟨g, e, hg, h2, rfl, by rw [h3]; simp⟩⟩
    · have := h10 hr; cases this
  · rcases hb with hb | ⟨hb, op, ho, hbab, hact⟩
    · cases hb
    · cases hact
      exact ⟨encodeOp_registered ho, .inr ⟨hb, op, ho, hbab, rfl⟩⟩

/-- C32: without an executable goal or an option above the threshold nothing but babbling is executed. -/
theorem C32_nothing_below_threshold (call : Call) (hcall : OnlyReports call) (decay : Int → Rat) (p p' : Proc)
    (rng : List Nat) (infs : List (Rat × Rat × List Nat)) (act : Option Term)
    (h : narStep1 call decay p rng infs = .ok (p', act)) (hbab : p.enBabbling = false)
    (hopt : ∀ seq x r, IsOption p seq x (some r) → x ≤ p.threshold) (hgoal : ∀ e, ¬ BestGoal p.goals p.threshold e) :
    act = none := by
  cases act with
  | none => rfl
  | some a =>
    obtain ⟨_, ⟨g, e, hg, he, _⟩ | ⟨hb, _⟩⟩ := C32_executed_only_above_threshold call hcall decay p p' rng infs a h
    · rcases hg with rfl | ⟨seq, x, r, b, acts, op, args, name, tv, ho, hx, _⟩
      · exact absurd he (hgoal e)
      · exact absurd hx (not_lt.2 (hopt seq x r ho))
    · rw [hbab] at hb; cases hb

/-- C32: the goal found for the current state has maximal expectation among the stored goals whose sequence begins
with that state. -/
theorem C32_best_goal_for_state (g : GoalSystem) (state : Term) (x : Rat) (found : Option (Entry × Term))
    (h : selHighestExpGoalByState g state = .ok (x, found)) :
    (∀ e first rest a y, Stored g e → e.sentence.term = .Seq (first :: rest) →
      unify (retSubSeqAsSeqOrTerm (first :: rest).dropLast) state = some a → Expectation e.sentence y → y ≤ x) ∧
    (∀ e seq, found = some (e, seq) → Stored g e ∧ Expectation e.sentence x ∧ ∃ first rest a,
      e.sentence.term = .Seq (first :: rest) ∧
      unify (retSubSeqAsSeqOrTerm (first :: rest).dropLast) state = some a ∧ seq = unifySubst a e.sentence.term) := by
  obtain ⟨h1, h2⟩ := selHighest_spec h
  refine ⟨fun e first rest a y he ht hu hx => h1 e he _ ⟨first, rest, a, ht, hu, rfl⟩ y hx, ?_⟩
  rintro e seq rfl
  exact ⟨h2.1, h2.2.2, h2.2.1⟩

example : ∃ p p' p'', runProc noEffect (fun _ => 1) agent (pursueB.dropLast) = .ok p ∧
    narStep1 noEffect (fun _ => 1) p [] [] = .ok (p', some opL) ∧ p'.anticipated = [⟨0, 1⟩] ∧
    narStep1 noEffect (fun _ => 1) { p with threshold := 99/100, enBabbling := false } [] [] = .ok (p'', none) := by
  have h : (runProc noEffect (fun _ => 1) agent (pursueB.dropLast)).map (fun p =>
      ((narStep1 noEffect (fun _ => 1) p [] []).map (fun r => (r.2, r.1.anticipated)),
       (narStep1 noEffect (fun _ => 1) { p with threshold := 99/100, enBabbling := false } [] []).map (·.2))) =
      .ok (.ok (some opL, [⟨0, 1⟩]), .ok none) := by decide +kernel
  obtain ⟨p, hp, e⟩ := R.map_ok.1 h
  obtain ⟨e1, e2⟩ := Prod.mk.inj e
  obtain ⟨⟨p', a⟩, h1, h2⟩ := R.map_ok.1 e1
  obtain ⟨⟨p'', a''⟩, h3, rfl⟩ := R.map_ok.1 e2
  obtain ⟨rfl, h2⟩ := Prod.mk.inj h2
  exact ⟨p, p', p'', hp, h1, h2, h3⟩

/-- C33: if no action was chosen, exploration happens only if it is enabled, and executes an operator which allows
it; a chosen action is never replaced. -/
theorem C33_babbling (p : Proc) (picked picked' : Option Term) (rng rng' : List Nat)
    (h : babble p picked rng = .ok (picked', rng')) :
    (picked ≠ none → picked' = picked) ∧
    (picked = none → picked' = none ∨ (p.enBabbling = true ∧ ∃ op ∈ p.ops, op.babbleable = true ∧
      picked' = some (encodeOp [selfTerm] op.name))) := by
  constructor
  · intro hp
    rcases babble_spec h with h | ⟨h, _⟩
    · exact h
    · exact absurd h hp
  · rintro rfl
    rcases babble_spec h with h | ⟨_, h⟩
    · exact .inl h
    · exact .inr h

/-- C33: every operator which allows exploration is executed for some draw: exploration misses none. -/
theorem C33_every_babbleable_operator (p : Proc) (hen : p.enBabbling = true) (op : Op) (ho : op ∈ p.ops)
    (hb : op.babbleable = true) (rest : List Nat) :
    ∃ d, d < p.ops.length ∧ babble p none (d :: rest) = .ok (some (encodeOp [selfTerm] op.name), rest) := by
  obtain ⟨d, hd, rfl⟩ := List.mem_iff_getElem.1 ho
  refine ⟨d, hd, ?_⟩
  unfold babble
  simp only [hen, Bool.true_and, decide_eq_true_eq]
  rw [if_pos (by omega)]
  simp only [bind, Except.bind]
  rw [genRange_draw d rest _ (by omega)]
  simp only [List.getElem?_eq_getElem hd, hb, if_true]

/-- C33: in the other eight of nine draws nothing is executed. -/
theorem C33_most_draws_do_nothing (p : Proc) (d : Nat) (rest : List Nat) (h1 : p.ops.length ≤ d)
    (h2 : d < p.ops.length * 9) : (babble p none (d :: rest)).map (·.1) = .ok none := by
  unfold babble
  by_cases hen : (p.enBabbling && decide (p.ops.length > 0)) = true
  · simp only [hen, if_true]
    simp only [bind, Except.bind]
    rw [genRange_draw d rest _ h2]
    simp only [List.getElem?_eq_none h1]
    rfl
  · simp only [hen]
    rfl

/-- C33: nothing is executed if exploration is off, whatever the draws. -/
theorem C33_disabled (p : Proc) (h : p.enBabbling = false) (rng : List Nat) : babble p none rng = .ok (none, rng) := by
  unfold babble; simp [h]

example : (babble agent none [0]).map (·.1) = .ok (some opL) ∧ (babble agent none [1]).map (·.1) = .ok none ∧
    (babble agent none [7]).map (·.1) = .ok none ∧ (babble agent (some opL) [0]).map (·.1) = .ok (some opL) := by
  decide +kernel

/-! ## C34 -/

/-- C34: the interval chosen for a delay: the last one which is not longer, the first one if all are longer. -/
theorem C34_largest_interval_that_fits (table : List Int) (hs : table.Pairwise (· < ·)) (hne : table ≠ []) (dt : Int) :
    ∃ k : Nat, findMinTableIdx dt table = k ∧ k < table.length ∧
      (∀ (i : Nat) (v : Int), k < i → table[i]? = some v → dt < v) ∧
      ((∀ v ∈ table, dt < v) → k = 0) ∧
      (∀ v, table[k]? = some v → (∃ u ∈ table, u ≤ dt) → v ≤ dt) := by
  cases table with
  | nil => exact absurd rfl hne
  | cons first l =>
    obtain ⟨k, hk, hidx, hle, hgt⟩ := findMinTableIdx_spec dt first l
    have hsl := hs.of_cons
    refine ⟨k, hidx, by simp; omega, ?_, ?_, ?_⟩
    · intro i v hi hv
      cases i with
      | zero => omega
      | succ i =>
        rw [List.getElem?_cons_succ] at hv
        have hil := (List.getElem?_eq_some_iff.1 hv).1
        have hkl : k < l.length := by omega
        have := hgt _ (List.getElem?_eq_getElem hkl)
        rcases Nat.lt_or_ge k i with h | h
        · have h2 := List.pairwise_iff_getElem.1 hsl k i hkl hil h
          have h3 := (List.getElem?_eq_some_iff.1 hv).2
          omega
        · have : i = k := by omega
          subst this
          exact hgt v hv
    · intro hall
      by_contra hk0
      have hlt : 0 < (l.take k).length := by rw [List.length_take]; omega
      have hm := List.getElem_mem hlt
      have h1 := hle _ hm
      have h2 := hall _ (List.mem_cons_of_mem _ (List.mem_of_mem_take hm))
      omega
    · rintro v hv ⟨u, hu, hudt⟩
      cases k with
      | zero =>
        simp at hv
        subst hv
        rcases List.mem_cons.1 hu with rfl | hu
        · exact hudt
        · have := List.rel_of_pairwise_cons hs hu; omega
      | succ k =>
        rw [List.getElem?_cons_succ] at hv
        refine hle v ?_
        have hkl := (List.getElem?_eq_some_iff.1 hv).1
        rw [List.mem_take_iff_getElem]
        exact ⟨k, by omega, (List.getElem?_eq_some_iff.1 hv).2⟩

/-- C34: longer delays are never given shorter intervals (for any table). -/
theorem C34_monotone (table : List Int) (d d' : Int) (h : d ≤ d') : findMinTableIdx d table ≤ findMinTableIdx d' table := by
  cases table with
  | nil => simp [findMinTableIdx, findMinTableLoop]
  | cons first l =>
    obtain ⟨k, hk, hidx, hle, hgt⟩ := findMinTableIdx_spec d first l
    obtain ⟨k', hk', hidx', hle', hgt'⟩ := findMinTableIdx_spec d' first l
    rw [hidx, hidx']
    by_contra hc
    have hlt : k' < k := by omega
    have hkl : k' < l.length := by omega
    have h1 := hgt' _ (List.getElem?_eq_getElem hkl)
    have h2 := hle l[k'] (by rw [List.mem_take_iff_getElem]; exact ⟨k', by omega, rfl⟩)
    omega

/-- C34: no interval for an empty table -/
theorem C34_empty_table (d : Int) : findMinTableIdx d [] = -1 := by simp [findMinTableIdx, findMinTableLoop]

/-- C34: the table of the program is increasing and starts with 1, so the interval expected by a learned rule is at
least 1 and never longer than the observed delay, for every observed delay of at least 1. -/
theorem C34_expected_not_later_than_observed (d : Int) (hd : 1 ≤ d) :
    ∃ (k : Nat) (v : Int), findMinTableIdx d narInit.table = k ∧ narInit.table[k]? = some v ∧ 1 ≤ v ∧ v ≤ d := by
  have ht : narInit.table = [1, 2, 3, 4, 6, 8, 10, 13, 17] := by decide +kernel
  have hsorted : narInit.table.Pairwise (· < ·) := by rw [ht]; decide
  obtain ⟨k, h1, h2, _, _, h3⟩ := C34_largest_interval_that_fits narInit.table hsorted (by rw [ht]; simp) d
  refine ⟨k, narInit.table[k], h1, List.getElem?_eq_getElem h2, ?_, ?_⟩
  · have hm := List.getElem_mem h2
    generalize narInit.table[k] = v at hm
    rw [ht] at hm
    simp at hm
    omega
  · exact h3 _ (List.getElem?_eq_getElem h2) ⟨1, by rw [ht]; simp, hd⟩

/-- C34, consequence: after a delay which is not one of the intervals, the expectation of a rule learned from it ends
strictly before the delay is over. -/
theorem C34_expected_too_early (d : Int) (hd : 1 ≤ d) (hnot : d ∉ narInit.table) :
    ∃ (k : Nat) (v : Int), findMinTableIdx d narInit.table = k ∧ narInit.table[k]? = some v ∧ v < d := by
  obtain ⟨k, v, h1, h2, _, h3⟩ := C34_expected_not_later_than_observed d hd
  refine ⟨k, v, h1, h2, lt_of_le_of_ne h3 ?_⟩
  rintro rfl
  exact hnot (List.mem_of_getElem? h2)

example : findMinTableIdx 5 narInit.table = 3 ∧ narInit.table[3]? = some 4 ∧ findMinTableIdx 0 narInit.table = 0 ∧
    findMinTableIdx 1000 narInit.table = 8 ∧ (5 : Int) ∉ narInit.table := by decide +kernel

/-! ## C35 -/

/-- C35: a call with at least one argument is decoded to its name and arguments. -/
theorem C35_round_trip (args : List Term) (name : String) (h : args ≠ []) :
    decodeOp (encodeOp args name) = some (args, name) :=
  (decodeOp_iff _ _ _).2 ⟨h, rfl⟩

/-- C35: only calls are decoded. -/
theorem C35_only_calls (t : Term) (args : List Term) (name : String) (h : decodeOp t = some (args, name)) :
    args ≠ [] ∧ t = encodeOp args name := (decodeOp_iff _ _ _).1 h

/-- C35: a call without arguments is not recognised. -/
theorem C35_no_arguments (name : String) : decodeOp (encodeOp [] name) = none := rfl

/-- C35: an event counts as a call of a registered operator exactly if it decodes to the name of one. -/
theorem C35_registered (ops : List Op) (t : Term) :
    checkIsCallableOp ops t = true ↔ ∃ args o, args ≠ [] ∧ o ∈ ops ∧ t = encodeOp args o.name := by
  rw [callable_iff]
  constructor
  · rintro ⟨args, name, ⟨h1, h2⟩, o, ho, rfl⟩; exact ⟨args, o, h1, ho, h2⟩
  · rintro ⟨args, o, h1, ho, h2⟩; exact ⟨args, o.name, ⟨h1, h2⟩, o, ho, rfl⟩

example : decodeOp (encodeOp [selfTerm, .Name "x"] "^pick") = some ([selfTerm, .Name "x"], "^pick") ∧
    decodeOp (.Stmt .INH (.Name "a") (.Name "b")) = none ∧ checkIsCallableOp agent.ops opL = true := by decide

/-! ## C36 -/

/-- C36: the rule built from events: exactly if the first and the last are different and no operator calls, and all
between them (at least one) are calls of registered operators. -/
theorem C36_rule_shape (ops : List Op) (events : List Term) (r : Term) :
    tryBuildImplSeq ops events = .ok (some r) ↔
    ∃ first acts last, events = first :: (acts ++ [last]) ∧ acts ≠ [] ∧ (∀ a ∈ acts, RegisteredCall ops a) ∧
      ¬ RegisteredCall ops first ∧ ¬ RegisteredCall ops last ∧ first ≠ last ∧
      r = .Stmt .PREDIMPL (.Seq (first :: acts)) last := by
  constructor
  · exact tryBuildImplSeq_some
  · rintro ⟨first, acts, last, rfl, h1, h2, h3, h4, h5, rfl⟩
    rcases tryBuildImplSeq_of (ops := ops) (first := first) (last := last) h1 with h | h
    · exact h.1
    · exact absurd ⟨h2, h3, h4, h5⟩ h.2

/-- C36: everything a step sends to be learned is an observation of the window: events in their order, of the
promised shape, with the evidence of exactly these events. -/
theorem C36_only_observations_learned (p p' : Proc) (draws : Nat → SampleDraws) (h : narStep0 p draws = .ok p') :
    ∃ new, p'.queue = p.queue ++ new ∧ ∀ m ∈ new, m.2 = p.t ∧ Observation p m.1 := by
  obtain ⟨heap, new, rfl, h1, _⟩ := narStep0_spec h
  exact ⟨new, rfl, h1⟩

/-- C36: nothing which can be observed is out of reach: any event, a later operator call and the last event, if they
have the promised shape, are sampled for some draws (one operator per rule, as configured by default). -/
theorem C36_every_observation_can_be_learned (p : Proc) (hmax : p.nOpsMax = 1) (halive : p.workerAlive = true)
    (i j l : Nat) (first act last : Event) (hij : i < j) (hjl : j < l) (hl : l + 1 = p.trace.length)
    (h1 : p.trace[i]? = some first) (h2 : p.trace[j]? = some act) (h3 : p.trace[l]? = some last)
    (hf : ¬ RegisteredCall p.ops first.name) (ha : RegisteredCall p.ops act.name)
    (hla : ¬ RegisteredCall p.ops last.name) (hne : first.name ≠ last.name) :
    ∃ d s, perceiveSample p d = .ok { p with queue := p.queue ++ [(s, p.t)] } ∧
      s.term = rule first.name [act.name] last.name ∧ s.stamp.ids = [first.evi, act.evi, last.evi] ∧
      s.expDt = some (findMinTableIdx (last.occT - act.occT) p.table) := by
  obtain ⟨d, n, _, h⟩ := perceive_one hmax halive hij hjl hl h1 h2 h3 hf ha hla hne
  exact ⟨d, _, h, rfl, rfl, rfl⟩

example : tryBuildImplSeq agent.ops [.Name "a", opL, .Name "b"] = .ok (some (rule (.Name "a") [opL] (.Name "b"))) ∧
    tryBuildImplSeq agent.ops [.Name "a", opL, .Name "a"] = .ok none ∧
    tryBuildImplSeq agent.ops [opL, opL, .Name "a"] = .ok none := by decide
example : (runProc noEffect (fun _ => 1) agent (learnLB.take 4)).map (fun p => p.queue.map (·.1.term)) =
    .ok (List.replicate 4 (rule (.Name "a") [opL] (.Name "b"))) := by decide +kernel

/-! ## C64 -/

theorem filed_iff (m : PMem) (a b : Term) (r : Nat) :
    r ∈ retBeliefsByTermsNonuniqueP m [a, b] ↔ RuleUnder m a r ∨ RuleUnder m b r := by
  have key : ∀ t, r ∈ (Term.retSubterms t).flatMap (fun isub => (retBeliefsOfConceptP m isub).getD []) ↔ RuleUnder m t r := by
    intro t
    unfold RuleUnder
    rw [List.mem_flatMap]
    refine exists_congr fun sub => and_congr_right fun _ => ?_
    unfold retBeliefsOfConceptP
    cases m.get sub <;> simp
  unfold retBeliefsByTermsNonuniqueP
  simp only [List.flatMap_cons, List.flatMap_nil, List.append_nil, List.mem_append, key]

theorem storage_exact (m m' : PMem) (s : Sentence) (now : Int) (n : Nat) (rng : List Nat) (cond effect : Term)
    (acts : List Term) (hterm : s.term = rule cond acts effect) (hs : s.stamp.ids ≠ [])
    (h : workerStore m s now n rng = (m', none)) :
    (∀ (r : Nat) (b : Sentence), m.heap[r]? = some b →
      ((r ∈ retBeliefsByTermsNonuniqueP m [cond, effect] ∧ Supports b s) →
        ∃ b', CountedIn b s b' ∧ m'.heap[r]? = some b') ∧
      (¬ (r ∈ retBeliefsByTermsNonuniqueP m [cond, effect] ∧ Supports b s) → m'.heap[r]? = some b)) ∧
    ((∃ r ∈ retBeliefsByTermsNonuniqueP m [cond, effect], ∃ b, m.heap[r]? = some b ∧ Supports b s) →
      m'.heap.length = m.heap.length ∧ m'.concepts = m.concepts) ∧
    ((∀ r ∈ retBeliefsByTermsNonuniqueP m [cond, effect], ∀ b, m.heap[r]? = some b → ¬ Supports b s) →
      memAddEvidence m s n now rng = .ok m') := by
  unfold workerStore at h
  rw [show condAndPred s.term = .ok (cond, effect) from by rw [hterm]; rfl] at h
  simp only at h
  generalize hv : workerVisits s (retBeliefsByTermsNonuniqueP m [cond, effect]) (m.heap, true) = v at h
  obtain ⟨⟨heap, flag⟩, err⟩ := v
  cases err with
  | some e => simp only at h; cases (Prod.mk.inj h).2
  | none =>
    obtain ⟨k1, k2, k3⟩ := workerVisits_exact hs hv
    simp only [true_and] at k1 k2 k3
    cases flag with
    | false =>
      simp only [Prod.mk.injEq, and_true] at h
      subst h
      refine ⟨k1, fun _ => ⟨k2, rfl⟩, fun hno => ?_⟩
      exact absurd (k3.2 hno) (by simp)
    | true =>
      have hno := k3.1 rfl
      have hheap : heap = m.heap := by
        apply List.ext_getElem? 
        intro r
        cases hr : m.heap[r]? with
        | none =>
          rw [List.getElem?_eq_none_iff] at hr ⊢
          omega
        | some b => exact (k1 r b hr).2 (fun hc => hno r hc.1 b hr hc.2)
      subst hheap
      simp only at h
      have hadd : memAddEvidence m s n now rng = .ok m' := by
        unfold workerAdd at h
        unfold memAddEvidence
        cases h1 : memAddEvidenceInternal m s n now with
        | error e =>
          simp only [h1] at h
          exact absurd (Prod.mk.inj h).2 (by simp)
        | ok m1 =>
          simp only [h1] at h
          simp only [bind, Except.bind]
          cases h2 : matchandintroVar1Sentence s rng with
          | error e =>
            simp only [h2] at h
            exact absurd (Prod.mk.inj h).2 (by simp)
          | ok out =>
            obtain ⟨out, rng'⟩ := out
            simp only [h2] at h
            simp only
            cases h3 : out.foldlM (fun m i => memAddEvidenceInternal m i n now) m1 with
            | error e =>
              simp only [h3] at h
              exact absurd (Prod.mk.inj h).2 (by simp)
            | ok m2 =>
              simp only [h3] at h
              rw [(Prod.mk.inj h).1]
      refine ⟨?_, ?_, fun _ => hadd⟩
      · intro r b hb
        refine ⟨fun hc => absurd hc.2 (hno r hc.1 b hb), fun _ => ?_⟩
        obtain ⟨⟨l, hl, _⟩, _⟩ := memAddEvidence_spec hadd
        rw [hl, List.getElem?_append_left (List.getElem?_eq_some_iff.1 hb).1, hb]
      · rintro ⟨r, hr, b, hb, hsup⟩
        exact absurd hsup (hno r hr b hb)

/-- C64: what the storage of an observation does if it does not crash: each stored rule which it supports (same rule,
independent evidence, not slower than the rule allows) and which is found under the condition or the effect is counted
up exactly once; all other rules stay as they are.  Only if none was found, the observation is stored as new rule. -/
theorem C64_storage_exact (m m' : PMem) (s : Sentence) (now : Int) (n : Nat) (rng : List Nat) (cond effect : Term)
    (acts : List Term) (hterm : s.term = rule cond acts effect) (hs : s.stamp.ids ≠ [])
    (h : workerStore m s now n rng = (m', none)) :
    (∀ (r : Nat) (b : Sentence), m.heap[r]? = some b →
      (((RuleUnder m cond r ∨ RuleUnder m effect r) ∧ Supports b s) →
        ∃ b', CountedIn b s b' ∧ m'.heap[r]? = some b') ∧
      (¬ ((RuleUnder m cond r ∨ RuleUnder m effect r) ∧ Supports b s) → m'.heap[r]? = some b)) ∧
    ((∃ r, (RuleUnder m cond r ∨ RuleUnder m effect r) ∧ ∃ b, m.heap[r]? = some b ∧ Supports b s) →
      m'.heap.length = m.heap.length ∧ m'.concepts = m.concepts) ∧
    ((∀ r, (RuleUnder m cond r ∨ RuleUnder m effect r) → ∀ b, m.heap[r]? = some b → ¬ Supports b s) →
      memAddEvidence m s n now rng = .ok m') := by
  have key := storage_exact m m' s now n rng cond effect acts hterm hs h
  simp only [filed_iff] at key
  exact key

/-- C64: what is stored as new are copies of the observation, or the observation with an introduced variable; both with
its evidence. -/
theorem C64_new_rules (m m' : PMem) (s : Sentence) (now : Int) (n : Nat) (rng : List Nat)
    (h : memAddEvidence m s n now rng = .ok m') :
    ∃ l, m'.heap = m.heap ++ l ∧ ∀ x ∈ l, x.evi = s.evi ∧ x.stamp = s.stamp ∧ x.expDt = s.expDt ∧
      ∃ cond acts effect, x.term = rule cond acts effect := by
  obtain ⟨⟨l, hl, hx⟩, _⟩ := memAddEvidence_spec h
  refine ⟨l, hl, ?_⟩
  intro x hxl
  obtain ⟨h1, h2⟩ := hx x hxl
  rw [h1]
  exact ⟨rfl, rfl, rfl, h2⟩

/-- the same experience again, later: the rule is counted up -/
def learnTwice : List ProcOp := learnLB ++ [.flush, .step1 [9] [], .step1 [9] [],
  .event (.Name "a"), .event opL, .event (.Name "b"), .step0 firstDraws, .worker []]

example : (runProc noEffect (fun _ => 1) { agent with enBabbling := false } learnTwice).map (fun p =>
    (p.t, p.mem.heap.map (fun b => (b.evi, b.stamp.ids)))) =
    .ok (2, List.replicate 4 (some (.CNT 6 6), [0, 2, 0, 2, 0, 2])) := by decide +kernel

/-! ## C28: which rules are considered for a goal -/

theorem ruleUnder_iff (m : PMem) (a : Term) (r : Nat) : r ∈ retBeliefsByTermsNonuniqueP m [a] ↔ RuleUnder m a r := by
  have := filed_iff m a a r
  rw [or_self] at this
  rw [← this]
  unfold retBeliefsByTermsNonuniqueP
  simp

/-- C28: the rules considered for a goal are exactly the rules in memory under the goal whose effect is the goal. -/
theorem C28_rules_considered (m : PMem) (goal : Term) (rs : List Nat) (h : queryByConsequence goal m = .ok rs) (r : Nat) :
    r ∈ rs ↔ RuleUnder m goal r ∧ ∃ b cond, m.heap[r]? = some b ∧ b.term = .Stmt .PREDIMPL cond goal := by
  unfold queryByConsequence at h
  rw [filterR_ok h r, ruleUnder_iff]
  refine and_congr_right fun _ => ?_
  constructor
  · intro hf
    obtain ⟨b, hb, hf⟩ := R.bind_ok.1 hf
    have hf : hasConsequence goal b = true := by injection hf
    unfold hasConsequence at hf
    split at hf
    · rename_i cond pred ht
      rw [Term.checkEqTerm_iff] at hf
      subst hf
      exact ⟨b, cond, indexAt_ok.1 hb, ht⟩
    · cases hf
  · rintro ⟨b, cond, hb, ht⟩
    rw [indexAt_ok.2 hb]
    simp only [bind, Except.bind]
    unfold hasConsequence
    rw [ht]
    simp only [(Term.checkEqTerm_iff _ _).2 rfl]

/-- C28: every rule considered is used for some draw. -/
theorem C28_every_rule_is_used_for_some_draw (m : PMem) (goal : Sentence) (depth : Int) (cands : List Nat) (r : Nat)
    (hr : r ∈ cands) (cs : List DerivedGoal) (h : deriveWith m goal depth r = .ok cs) (rest : List Nat) :
    ∃ d, sampleBelief m goal depth cands (d :: rest) = .ok (cs, rest) := by
  obtain ⟨d, hd, rfl⟩ := List.mem_iff_getElem.1 hr
  refine ⟨d, ?_⟩
  unfold sampleBelief
  rw [if_pos (by omega)]
  simp only [bind, Except.bind]
  rw [genRange_draw d rest _ hd]
  simp only [indexAt_ok.2 (List.getElem?_eq_getElem hd), h]

example : (runProc noEffect (fun _ => 1) agent learnLB).map (fun p => queryByConsequence (.Name "b") p.mem) =
    .ok (.ok [2, 3]) := by decide +kernel

/-! ## C26 in a step -/

/-- C26: a step satisfies the goals whose statement is the latest event in the window, and touches no other goal. -/
theorem C26_step_satisfies (p p' : Proc) (draws : Nat → SampleDraws) (h : narStep0 p draws = .ok p') (older : List Event)
    (e : Event) (ht : p.trace = older ++ [e]) (hen : p.goals.enGoalSatisfaction = true) (i : Nat) (x : Entry) :
    StoredAt p'.goals i x ↔ ∃ y, StoredAt p.goals i y ∧
      x = if y.sentence.term = e.name then { y with desirability := 0 } else y := by
  obtain ⟨heap, new, rfl, _⟩ := narStep0_spec h
  have hg : satisfyLast p = eventOccurred p.goals e.name := by
    unfold satisfyLast
    rw [ht, List.getLast?_append]
    rfl
  show StoredAt (satisfyLast p) i x ↔ _
  rw [hg, (C26_event_satisfies_matching_goals p.goals e.name).1 i x]
  refine exists_congr (fun y => and_congr_right (fun _ => ?_))
  by_cases hy : y.sentence.term = e.name
  · simp [hen, hy]
  · simp [hy]

/-- C26: without any event a step satisfies no goal. -/
theorem C26_step_without_events (p p' : Proc) (draws : Nat → SampleDraws) (h : narStep0 p draws = .ok p')
    (ht : p.trace = []) : p'.goals = p.goals := by
  obtain ⟨heap, new, rfl, _⟩ := narStep0_spec h
  show satisfyLast p = _
  unfold satisfyLast
  rw [ht]
  rfl

/-- C26, violation: of two events which happen between steps only the later one satisfies goals: the goal about `a` keeps
its desirability although `a` happened. -/
theorem C26_earlier_event_ignored : ∃ p, runProc noEffect (fun _ => 1) agent
      [.goal (.Name "a") ⟨1, 9/10⟩ 100, .event (.Name "a"), .event (.Name "c"), .step0 firstDraws] = .ok p ∧
    (p.trace.map (·.name)) = [.Name "a", .Name "c"] ∧
    (retEntries p.goals).map (fun e => (e.sentence.term, e.desirability)) = [(.Name "a", 1)] := by
  have h : (runProc noEffect (fun _ => 1) agent
      [.goal (.Name "a") ⟨1, 9/10⟩ 100, .event (.Name "a"), .event (.Name "c"), .step0 firstDraws]).map
      (fun p => ((p.trace.map (·.name)), (retEntries p.goals).map (fun e => (e.sentence.term, e.desirability)))) =
      .ok ([.Name "a", .Name "c"], [(.Name "a", 1)]) := by decide +kernel
  obtain ⟨p, hp, h⟩ := R.map_ok.1 h
  exact ⟨p, hp, (Prod.mk.inj h).1, (Prod.mk.inj h).2⟩

example : (runProc noEffect (fun _ => 1) agent
    [.goal (.Name "a") ⟨1, 9/10⟩ 100, .event (.Name "a"), .step0 firstDraws]).map
      (fun p => (retEntries p.goals).map (fun e => (e.sentence.term, e.desirability))) = .ok [(.Name "a", 0)] := by
  decide +kernel

end Nar.Props
