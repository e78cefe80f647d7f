import Verif.Lemmas.Ways
import Verif.Props.Safe
/-! # Properties about acting on what was learned (C98) -/
namespace Nar.Props
open Nar Nar.Term

theorem reports_of_wellBehaved {ops : List Op} {call : Call} (h : WellBehaved ops call) : OnlyReports call := by
  intro name args p p' hc
  obtain ⟨evs, he, _⟩ := h name args p
  rw [he] at hc
  cases hc
  exact ⟨evs, rfl⟩

theorem reached {call : Call} {decay : Int → Rat} {p0 p : Proc} (hp : Started p0) (hcall : WellBehaved p0.ops call)
    {ops : List ProcOp} (ho : ∀ op ∈ ops, op.Harmless p0.ops) (hrun : runProc call decay p0 ops = .ok p) :
    PSafe p ∧ p.ops = p0.ops := by
  refine ⟨?_, (runProc_inv (reports_of_wellBehaved hcall) hrun hp.fresh.inv hp.weights).2.1⟩
  rcases runProc_safe (decay := decay) hcall hp.safe ho with ⟨p', h', hs⟩ | ⟨h', _⟩
  · rw [h'] at hrun; cases hrun; exact hs
  · rw [h'] at hrun; cases hrun

theorem Way.unique {p : Proc} {goal : Term} {T tv tv' : Tv} {state : Term} {rs : List Nat} (h : Way p goal T state rs tv)
    (h' : Way p goal T state rs tv') : tv = tv' := by
  induction h generalizing tv' with
  | direct h1 h2 h3 h4 =>
    cases h' with
    | direct k1 k2 k3 k4 =>
      rw [h2] at k2; cases k2
      rw [h4.unique k4]
    | more _ _ _ _ _ hw => cases hw
  | more h1 h2 h3 h4 h5 hw ih =>
    cases h' with
    | direct => cases hw
    | more k1 k2 k3 k4 k5 hw' =>
      rw [h2] at k2; cases k2
      rw [h3] at k3
      obtain ⟨_, _, rfl⟩ := rule_inj k3
      rw [h4.unique k4, ih hw']

/-- C98, what holds: Take any history of plain events, printable goals, steps and rounds of the worker.  If then the last
event is one from which something is known to follow, everything known to follow from it is wanted (more than the
threshold), what is wanted is wanted for itself, and no executable goal is left over, then the next step acts, whatever
is drawn: it executes the last operator of a rule which starts at the last event. -/
theorem C98_known_way_taken_partial (call : Call) (decay : Int → Rat) (p0 p : Proc) (hp : Started p0)
    (hcall : WellBehaved p0.ops call) (ops : List ProcOp) (ho : ∀ op ∈ ops, op.Harmless p0.ops)
    (hrun : runProc call decay p0 ops = .ok p) (hth : 1/2 ≤ p.threshold) (last : Event)
    (hl : p.trace.getLast? = some last)
    (hex : ∃ r b acts effect, RuleUnder p.mem last.name r ∧ p.mem.heap[r]? = some b ∧ b.term = rule last.name acts effect)
    (hall : EveryRuleHelps p last.name) (hplain : PlainGoals p.goals) (hact : p.goals.activeSet = [])
    (rng : List Nat) (infs : List (Rat × Rat × List Nat)) (hi : ∀ d ∈ infs, 0 ≤ d.2.1) :
    ∃ p' r op, narStep1 call decay p rng infs = .ok (p', some op) ∧ RuleEndsIn p last.name r op := by
  obtain ⟨hs, hops⟩ := reached hp hcall ho hrun
  obtain ⟨p', act, h, _⟩ := narStep1_safe (decay := decay) (hops ▸ hcall) hs rng hi
  obtain ⟨p1, picked, rng1, hd, _⟩ := decideAction_total hs rng
  have hd0 := hd
  unfold decideAction at hd
  obtain ⟨b0, h0, hd⟩ := R.bind_ok.1 hd
  obtain ⟨⟨b1, rng2⟩, h1, hd⟩ := R.bind_ok.1 hd
  obtain ⟨p2, h2, hd⟩ := R.bind_ok.1 hd
  obtain ⟨a, h3, hd⟩ := R.bind_ok.1 hd
  obtain ⟨⟨p4, pk⟩, h4, hd⟩ := R.bind_ok.1 hd
  obtain ⟨⟨pk', rng3⟩, h5, hd⟩ := R.bind_ok.1 hd
  cases hd
  have hc0 : ChoiceOk p b0 := foldlM_inv (ChoiceOk p) h0 (by intro b hb; cases hb)
    (fun i him _ _ hx hs => bestByState_choice (List.mem_range.1 him) hs hx)
  obtain ⟨b, rfl, hx⟩ := predictAll_direct hl hex hall hc0 h1
  have hcons := predictAll_choice hc0 h1 b rfl
  -- the choice is sound
  have hsound : SoundChoice p b.unifiedSeq b.evidence ∧ ∃ r bel acts effect, RuleUnder p.mem last.name r ∧
      p.mem.heap[r]? = some bel ∧ bel.term = rule last.name acts effect ∧ b.unifiedSeq = .Seq (last.name :: acts) ∧
      acts ≠ [] := by
    rcases hcons with ⟨e, _, first, rest, _, he, _, ht, _⟩ | ⟨e, last', T, tv, r, rs, bel, acts, effect, he, hl', hT, hw, hrs,
      hb, hbt, hseq, hxe, hev⟩
    · exact absurd ht ((hplain e he).2 _)
    · rw [hl] at hl'
      cases hl'
      cases hw with
      | more k1 k2 k3 k4 k5 hw' =>
        obtain ⟨_, ⟨e', he', ht'⟩, _⟩ := hall _ _ _ _ k1 k2 k3
        exact absurd ht' (k5 e' he')
      | @direct _ acts' _ b' tb k1 k2 k3 k4 =>
        rw [hb] at k2
        cases k2
        rw [hbt] at k3
        obtain ⟨_, rfl, rfl⟩ := rule_inj k3
        obtain ⟨⟨ini, op, rfl, hop⟩, _, _⟩ := hall _ _ _ _ k1 hb hbt
        have hsane : Tv.Sane tb := by
          obtain ⟨_, _, pos, cnt, c1, c2, c3, c4⟩ := (hs.heap bel (List.mem_of_getElem? hb)).sane
          obtain ⟨tv', t1, t2⟩ := C12_counted_evidence_in_range bel pos cnt c2 c3 (by omega) c1
          rw [k4.unique t1]; exact t2
        obtain ⟨⟨T', t1, t2, t3⟩, _⟩ := hplain e he
        have := hT.unique t1
        subst this
        rw [hxe] at hx
        exact ⟨⟨r, bel, _, last.name :: ini, op, hev, hb, ⟨tb, k4, rfl⟩, dedGoal_wanted t2 t3 hsane hth hx, hseq, hop⟩,
          r, bel, ini ++ [op], _, k1, hb, hbt, hseq, by simp⟩
  obtain ⟨hsd, r, bel, acts, effect, r1, r2, r3, r4, r5⟩ := hsound
  have hok : ActiveOk p p.goals := by intro e he; rw [hact] at he; cases he
  obtain ⟨op, rfl, hreg, hops2, hterm⟩ := decide_sound hs.goals.inv (by linarith) hok hx hsd h2 h3 h4 h5
  have hact' := step_acts (reports_of_wellBehaved hcall) h hd0 (by rw [hops2]; exact hreg)
  subst hact'
  refine ⟨p', r, op, h, ?_⟩
  rcases hterm with ⟨ini, hini⟩ | ⟨e, he, _⟩
  · rw [r4] at hini
    injection hini with hini
    obtain ⟨ini', op', rfl⟩ : ∃ i o, acts = i ++ [o] := ⟨_, _, (List.dropLast_append_getLast r5).symm⟩
    rw [← List.cons_append] at hini
    obtain ⟨_, h6⟩ := List.append_inj' hini rfl
    cases h6
    exact ⟨bel, ini', effect, r1, r2, r3⟩
  · rw [hact] at he; cases he

/-- C98: every way of at most two rules from the last event to a goal can be found: there are draws for which the step acts
as well as on that way, provided that whatever it may consider is sound and no executable goal is left over. -/
theorem C98_way_can_be_found (call : Call) (decay : Int → Rat) (p0 p : Proc) (hp : Started p0)
    (hcall : WellBehaved p0.ops call) (ops : List ProcOp) (ho : ∀ op ∈ ops, op.Harmless p0.ops)
    (hrun : runProc call decay p0 ops = .ok p) (hth : 0 ≤ p.threshold) (last : Event)
    (hl : p.trace.getLast? = some last) (goal : Term) (T tv : Tv) (rs : List Nat) (hw : Way p goal T last.name rs tv)
    (hlen : rs.length ≤ 2) (hg : ∃ e, Stored p.goals e ∧ e.sentence.term = goal)
    (hT : ∀ e, Stored p.goals e → e.sentence.term = goal → HasTruth e.sentence T)
    (hx : p.threshold < (tv.f - 1/2) * tv.c + 1/2)
    (hsound : ∀ seq y ev, Considered p seq y ev → p.threshold < y → SoundChoice p seq ev)
    (hact : p.goals.activeSet = []) :
    ∃ draws : List Nat, draws.length = rs.length ∧
      ∀ (rng : List Nat) (infs : List (Rat × Rat × List Nat)), (∀ d ∈ infs, 0 ≤ d.2.1) →
        ∃ p' acts op y ev, narStep1 call decay p (draws ++ rng) infs = .ok (p', some op) ∧
          Considered p (.Seq (acts ++ [op])) y ev ∧ (tv.f - 1/2) * tv.c + 1/2 ≤ y := by
  obtain ⟨hs, hops⟩ := reached hp hcall ho hrun
  obtain ⟨draws, hdl, hdr⟩ := predict_way hl hw hg ((tv.f - 1/2) * tv.c + 1/2) (chain := []) 3 (by omega)
    (by simpa using hlen) .nil (fun h => absurd rfl h) (by
      intro e T' tv' he ht hT' hw'
      rw [(hT' ).unique (hT e he ht)] at hw'
      rw [List.nil_append] at hw'
      rw [Way.unique hw hw'])
  refine ⟨draws, hdl, fun rng infs hi => ?_⟩
  obtain ⟨p', act, h, _⟩ := narStep1_safe (decay := decay) (hops ▸ hcall) hs (draws ++ rng) hi
  obtain ⟨p1, picked, rng1, hd, _⟩ := decideAction_total hs (draws ++ rng)
  have hd0 := hd
  unfold decideAction at hd
  obtain ⟨b0, h0, hd⟩ := R.bind_ok.1 hd
  obtain ⟨⟨b1, rng2⟩, h1, hd⟩ := R.bind_ok.1 hd
  obtain ⟨p2, h2, hd⟩ := R.bind_ok.1 hd
  obtain ⟨a, h3, hd⟩ := R.bind_ok.1 hd
  obtain ⟨⟨p4, pk⟩, h4, hd⟩ := R.bind_ok.1 hd
  obtain ⟨⟨pk', rng3⟩, h5, hd⟩ := R.bind_ok.1 hd
  cases hd
  have hc0 : ChoiceOk p b0 := foldlM_inv (ChoiceOk p) h0 (by intro b hb; cases hb)
    (fun i him _ _ hx hs => bestByState_choice (List.mem_range.1 him) hs hx)
  have hbest : ∃ b, b1 = some b ∧ (tv.f - 1/2) * tv.c + 1/2 ≤ b.exp := by
    have h1' := h1
    unfold predictAll retLastEvents at h1'
    rw [hl] at h1'
    obtain ⟨st, h6, h7⟩ := foldlM_cons_ok.1 h1'
    have := foldlM_nil_ok.1 h7
    subst this
    exact hdr rng b0 b1 rng2 hc0 h6
  obtain ⟨b, rfl, hbx⟩ := hbest
  have hcons := predictAll_choice hc0 h1 b rfl
  have hok : ActiveOk p p.goals := by intro e he; rw [hact] at he; cases he
  have hx' : p.threshold < b.exp := lt_of_lt_of_le hx hbx
  obtain ⟨op, rfl, hreg, hops2, hterm⟩ := decide_sound hs.goals.inv hth hok hx' (hsound _ _ _ hcons hx') h2 h3 h4 h5
  have hact' := step_acts (reports_of_wellBehaved hcall) h hd0 (by rw [hops2]; exact hreg)
  subst hact'
  rcases hterm with ⟨acts, hacts⟩ | ⟨e, he, _⟩
  · rw [hacts] at hcons
    exact ⟨p', acts, op, b.exp, b.evidence, h, hcons, hbx⟩
  · rw [hact] at he; cases he

/-- C98, violated: a goal to execute an operator which was given by the user is never acted upon, and as long as it promises
more than everything else, nothing else is done either (unless by babbling). -/
theorem C98_told_operator_goal_blocks (call : Call) (hcall : OnlyReports call) (decay : Int → Rat) (p p' : Proc)
    (rng : List Nat) (infs : List (Rat × Rat × List Nat)) (act : Option Term)
    (h : narStep1 call decay p rng infs = .ok (p', act)) (hbab : p.enBabbling = false) (e : Entry)
    (he : e ∈ p.goals.activeSet) (hdes : 1/10000 < e.desirability) (hev : e.evidence = none) (y : Rat)
    (hy : Expectation e.sentence y) (hrules : ∀ b ∈ p.mem.heap, ∀ x, Expectation b x → x < y)
    (hothers : ∀ e' ∈ p.goals.activeSet, e'.evidence ≠ none → ∀ x, Expectation e'.sentence x → x < y) : act = none := by
  obtain ⟨g, g', hg, hd, -⟩ := C32_decision call hcall decay p p' rng infs act h
  rcases hd with ⟨e1, i, r, b, iv, h1, h2, h3, _⟩ | ⟨_, _, _, hb⟩
  · exfalso
    obtain ⟨m1, m2, x, m3, m4, m5, m6⟩ := h2
    have hset : ∀ z, z ∈ g.activeSet ↔ z ∈ p.goals.activeSet ∨ (z ∈ g.activeSet ∧ ∃ b ∈ p.mem.heap, ∃ tv, HasTruth b tv ∧
        HasTruth z.sentence tv) := by
      intro z
      rcases hg with rfl | ⟨seq, x, r, b, acts, op, args, name, tv, _, _, a1, a2, _, a3, a4⟩
      · exact ⟨fun hz => .inl hz, fun hz => hz.elim id (·.1)⟩
      · have ho : (decodeOp op).isSome = true := by rw [(decodeOp_iff _ _ _).2 a3]; rfl
        obtain ⟨_, ⟨_, rfl⟩ | ⟨_, a4⟩⟩ := addEntry_cases a4
        · exact ⟨fun hz => .inl hz, fun hz => hz.elim id (·.1)⟩
        · rcases addEntry2_cases a4 with ⟨_, _, rfl⟩ | ⟨_, _, rfl⟩ | ⟨h3, _⟩
          · exact ⟨fun hz => .inl hz, fun hz => hz.elim id (·.1)⟩
          · refine ⟨fun hz => ?_, fun hz => hz.elim (fun hz => List.mem_append_left _ hz) (·.1)⟩
            rcases List.mem_append.1 hz with hz' | hz'
            · exact .inl hz'
            · have := List.mem_singleton.1 hz'
              subst this
              exact .inr ⟨hz, b, List.mem_of_getElem? a1, tv, a2, rfl⟩
          · have : (decodeOp op).isSome = false := h3
            rw [ho] at this; cases this
    have hyx : y ≤ x := m6 e ((hset e).2 (.inl he)) hdes y hy
    rcases (hset e1).1 m1 with hm | ⟨_, b', hb', tv, t1, t2⟩
    · have := hothers e1 hm (by rw [h3]; simp) x m3
      linarith
    · have := hrules b' hb' x (by
        obtain ⟨tv', t3, t4⟩ := m3
        rw [t2.unique t3] at t1
        exact ⟨tv', t1, t4⟩)
      linarith
  · rcases hb with hb | ⟨hb, _⟩
    · exact hb
    · rw [hbab] at hb; cases hb

/-! ## concrete cases -/

/-- a call of the other operator -/
def opR : Term := encodeOp [selfTerm] "^r"
/-- a new reasoner which does not babble -/
def calm : Proc := { agent with enBabbling := false }

theorem calm_started : Started calm where
  fresh := ⟨rfl, rfl, rfl⟩
  trace := rfl
  alive := rfl
  time := by decide
  table := by decide +kernel
  goals := ⟨_, _, by decide, by decide, rfl⟩
  weights := by decide

theorem counted3 {b : Sentence} (h : b.evi = some (.CNT 3 3)) : HasTruth b ⟨1, 3/4⟩ := by
  unfold HasTruth retTv
  rw [h]
  decide +kernel

theorem told9 {s : Sentence} (h : s.evi = some (.TV ⟨1, 9/10⟩)) : HasTruth s ⟨1, 9/10⟩ := by
  unfold HasTruth retTv
  rw [h]

/-- what matters: the rules with their evidence, the goals with theirs, the executable goals, the last event, the rules under
`a` and the threshold -/
def glance (p : Proc) : List (Term × Option Evidence) × List (Term × Option Evidence) × Nat × List Term × Option (List Nat) × Rat :=
  (p.mem.heap.map (fun b => (b.term, b.evi)), (retEntries p.goals).map (fun e => (e.sentence.term, e.sentence.evi)),
    p.goals.activeSet.length, p.trace.map (·.name), (p.mem.get (.Name "a")).map (·.byExp), p.threshold)

/-- `a`, then `^l` leads to `b` -/
def leadsAB : Term := rule (.Name "a") [opL] (.Name "b")

set_option synthInstance.maxSize 2000 in
/-- the state after learning that `^l` leads from `a` to `b`, wanting `b` and seeing `a` -/
theorem pursuing : ∃ p, runProc noEffect (fun _ => 1) calm pursueB.dropLast = .ok p ∧
    glance p = (List.replicate 4 (leadsAB, some (.CNT 3 3)), [(.Name "b", some (.TV ⟨1, 9/10⟩))], 0, [.Name "a"], some [0],
      29/50) :=
  R.map_ok.1 (show (runProc noEffect (fun _ => 1) calm pursueB.dropLast).map glance = _ by decide +kernel)

theorem seen_rules {p : Proc} {n : Nat} {t : Term} {ev : Option Evidence}
    (h : p.mem.heap.map (fun b => (b.term, b.evi)) = List.replicate n (t, ev)) {b : Sentence} (hb : b ∈ p.mem.heap) :
    b.term = t ∧ b.evi = ev := by
  have := List.mem_map_of_mem (f := fun b : Sentence => (b.term, b.evi)) hb
  rw [h] at this
  exact Prod.mk.inj (List.eq_of_mem_replicate this)

theorem seen_goals {p : Proc} {l : List (Term × Option Evidence)}
    (h : (retEntries p.goals).map (fun e => (e.sentence.term, e.sentence.evi)) = l) :
    (∀ t ev, (t, ev) ∈ l → ∃ e, Stored p.goals e ∧ e.sentence.term = t) ∧
      ∀ e, Stored p.goals e → (e.sentence.term, e.sentence.evi) ∈ l := by
  subst h
  refine ⟨?_, ?_⟩
  · intro t ev hm
    obtain ⟨e, he, hh⟩ := List.mem_map.1 hm
    exact ⟨e, (retEntries_mem _ _).1 he, (Prod.mk.inj hh).1⟩
  · intro e he
    exact List.mem_map_of_mem (f := fun e : Entry => (e.sentence.term, e.sentence.evi)) ((retEntries_mem _ _).2 he)

/-- the goal `b`, as it is given -/
def wantB : Term × Option Evidence := (.Name "b", some (.TV ⟨1, 9/10⟩))

/-- the truth of the goals in the following cases: each goal was given, or taken over from a counted rule -/
theorem seen_truth {p : Proc} {l : List (Term × Option Evidence)}
    (h : (retEntries p.goals).map (fun e => (e.sentence.term, e.sentence.evi)) = l)
    (hl : ∀ x ∈ l, x = wantB ∨ (x.2 = some (.TV ⟨1, 9/10⟩) ∨ x.2 = some (.TV ⟨1, 3/4⟩)) ∧ ∃ n, x.1 = encodeOp [selfTerm] n) :
    (∀ e, Stored p.goals e → e.sentence.term = .Name "b" → HasTruth e.sentence ⟨1, 9/10⟩) ∧ PlainGoals p.goals := by
  have h2 := (seen_goals h).2
  refine ⟨?_, ?_⟩
  · intro e he ht
    rcases hl _ (h2 e he) with h3 | ⟨_, n, h3⟩
    · exact told9 (Prod.mk.inj h3).2
    · simp only at h3
      rw [ht] at h3; cases h3
  · intro e he
    rcases hl _ (h2 e he) with h3 | ⟨h3, n, h4⟩
    · obtain ⟨h4, h5⟩ := Prod.mk.inj h3
      refine ⟨⟨_, told9 h5, by decide +kernel, by decide +kernel⟩, ?_⟩
      intro ts
      rw [h4]; simp
    · refine ⟨?_, fun ts => by simp only at h4; rw [h4]; simp [encodeOp]⟩
      rcases h3 with h3 | h3
      · exact ⟨_, told9 h3, by decide +kernel, by decide +kernel⟩
      · refine ⟨⟨1, 3/4⟩, ?_, by decide +kernel, by decide +kernel⟩
        unfold HasTruth retTv
        simp only at h3
        rw [h3]

/-- such a state meets the conditions -/
theorem seen_meets {p : Proc} {n : Nat} {l : List (Term × Option Evidence)} (h : glance p =
      (List.replicate 4 (leadsAB, some (.CNT 3 3)), l, n, [.Name "a"], some [0], 29/50)) (hops : p.ops = agent.ops)
    (hl : ∀ x ∈ l, x = wantB ∨ (x.2 = some (.TV ⟨1, 9/10⟩) ∨ x.2 = some (.TV ⟨1, 3/4⟩)) ∧ ∃ n, x.1 = encodeOp [selfTerm] n)
    (hb : wantB ∈ l) :
    p.threshold = 29/50 ∧ (∃ last, p.trace.getLast? = some last ∧ last.name = .Name "a") ∧
    (∃ r b acts effect, RuleUnder p.mem (.Name "a") r ∧ p.mem.heap[r]? = some b ∧ b.term = rule (.Name "a") acts effect) ∧
    EveryRuleHelps p (.Name "a") ∧ PlainGoals p.goals := by
  unfold glance at h
  simp only [Prod.mk.injEq] at h
  obtain ⟨h1, h2, _, h4, h5, h6⟩ := h
  have g1 := (seen_goals h2).1 _ _ hb
  obtain ⟨g2, g3⟩ := seen_truth h2 hl
  have hop : RegisteredCall p.ops opL := by
    rw [hops]
    exact encodeOp_registered (op := ⟨"^l", true, 3⟩) (by decide)
  refine ⟨h6, ?_, ?_, ?_, g3⟩
  · cases ht : p.trace.getLast? with
    | none => rw [List.getLast?_eq_none_iff.1 ht] at h4; cases h4
    | some last =>
      obtain ⟨l, hl⟩ := List.getLast?_eq_some_iff.1 ht
      rw [hl, List.map_append] at h4
      have := List.append_inj' (t₁ := [last.name]) (s₂ := []) (t₂ := [.Name "a"]) h4 rfl
      exact ⟨last, rfl, by have := this.2; simpa using this⟩
  · cases hg : p.mem.get (.Name "a") with
    | none => rw [hg] at h5; cases h5
    | some c =>
      rw [hg] at h5
      have hc : c.byExp = [0] := by simpa using h5
      have hlen : p.mem.heap.length = 4 := by have := congrArg List.length h1; simpa using this
      have h0 : 0 < p.mem.heap.length := by omega
      exact ⟨0, p.mem.heap[0], [opL], .Name "b", ⟨_, by simp [Term.retSubterms], c, hg, .inl (by rw [hc]; simp)⟩,
        List.getElem?_eq_getElem h0, (seen_rules h1 (List.getElem_mem h0)).1⟩
  · intro r b acts effect _ hb ht
    obtain ⟨r1, r2⟩ := seen_rules h1 (List.mem_of_getElem? hb)
    rw [r1] at ht
    obtain ⟨_, rfl, rfl⟩ := rule_inj ht
    refine ⟨⟨[], opL, rfl, hop⟩, g1, ?_⟩
    intro e T tb he ht hT htb
    rw [hT.unique (g2 e he ht), htb.unique (counted3 r2), h6]
    decide +kernel

/-- what was experienced once is used: the conditions of `C98_known_way_taken_partial` are met -/
example : ∃ p, runProc noEffect (fun _ => 1) calm pursueB.dropLast = .ok p ∧ ∀ rng,
    ∃ p' r op, narStep1 noEffect (fun _ => 1) p rng [] = .ok (p', some op) ∧ RuleEndsIn p (.Name "a") r op := by
  obtain ⟨p, hp, hs⟩ := pursuing
  have hops := (runProc_inv noEffect_reports hp calm_started.fresh.inv calm_started.weights).2.1
  obtain ⟨h1, ⟨last, h2, h3⟩, h4, h5, h6⟩ := seen_meets hs hops (by simp [wantB]) (by simp [wantB])
  have hact : p.goals.activeSet = [] := by
    unfold glance at hs
    simp only [Prod.mk.injEq] at hs
    exact List.length_eq_zero_iff.1 hs.2.2.1
  refine ⟨p, hp, fun rng => ?_⟩
  have := C98_known_way_taken_partial noEffect (fun _ => 1) calm p calm_started (noEffect_wellBehaved _) pursueB.dropLast
    ?_ hp (by rw [h1]; norm_num) last h2 (by rw [h3]; exact h4) (by rw [h3]; exact h5) h6 hact rng [] (by simp)
  · rw [h3] at this; exact this
  · intro op hop
    unfold pursueB learnLB at hop
    simp only [List.cons_append, List.nil_append, List.dropLast, List.mem_cons, List.not_mem_nil, or_false] at hop
    rcases hop with rfl | rfl | rfl | rfl | rfl | rfl | rfl | rfl | rfl | rfl | rfl
    all_goals first | exact plain_name _ _ | exact printable_name _ | trivial | simp [ProcOp.Harmless]
    exact call_plain (args := [selfTerm]) (name := "^l") ⟨by simp, rfl⟩ ⟨_, rfl⟩

/-- learn that `^l` leads from `a` to `b`; then the user wants `^r` to be executed, and `b`; see `a` -/
def blockedOps : List ProcOp :=
  learnLB ++ [.goal opR ⟨1, 9/10⟩ 101, .goal (.Name "b") ⟨1, 9/10⟩ 100, .flush, .event (.Name "a")]

set_option synthInstance.maxSize 2000 in
/-- C98, violated: the user wants `b` and gives the goal to execute `^r`.  The reasoner knows how to reach `b` from `a` and sees
`a`, but whatever is drawn it does nothing, neither what it knows nor what it was told. -/
theorem C98_told_goal_stops_all : ∃ p, runProc noEffect (fun _ => 1) calm blockedOps = .ok p ∧
    (∃ last, p.trace.getLast? = some last ∧ last.name = .Name "a") ∧
    (∃ r b acts effect, RuleUnder p.mem (.Name "a") r ∧ p.mem.heap[r]? = some b ∧ b.term = rule (.Name "a") acts effect) ∧
    EveryRuleHelps p (.Name "a") ∧ PlainGoals p.goals ∧ (∀ e ∈ p.goals.activeSet, RegisteredCall p.ops e.sentence.term) ∧
    ∀ rng infs p' act, narStep1 noEffect (fun _ => 1) p rng infs = .ok (p', act) → act = none := by
  have h : (runProc noEffect (fun _ => 1) calm blockedOps).map (fun p => (glance p,
      p.goals.activeSet.map (fun e => (e.sentence.term, e.sentence.evi)),
      p.goals.activeSet.map (fun e => (e.desirability, e.evidence)), p.enBabbling)) =
      .ok ((List.replicate 4 (leadsAB, some (.CNT 3 3)), [wantB, (opR, some (.TV ⟨1, 9/10⟩))], 1, [.Name "a"], some [0], 29/50),
        [(opR, some (.TV ⟨1, 9/10⟩))], [(1, none)], false) := by decide +kernel
  obtain ⟨p, hp, hv⟩ := R.map_ok.1 h
  simp only [Prod.mk.injEq] at hv
  obtain ⟨hv, ha, hb, hbab⟩ := hv
  have hops := (runProc_inv noEffect_reports hp calm_started.fresh.inv calm_started.weights).2.1
  obtain ⟨h1, h2, h3, h4, h5⟩ := seen_meets hv hops (by
    intro x hx
    rcases List.mem_cons.1 hx with rfl | hx
    · exact .inl rfl
    · have := List.mem_singleton.1 hx
      subst this
      exact .inr ⟨.inl rfl, "^r", rfl⟩) (by simp)
  obtain ⟨e, he⟩ : ∃ e, p.goals.activeSet = [e] := by
    have := congrArg List.length ha
    simp only [List.length_map, List.length_cons, List.length_nil, Nat.zero_add] at this
    exact List.length_eq_one_iff.1 this
  rw [he] at ha hb
  simp only [List.map_cons, List.map_nil, List.cons.injEq, Prod.mk.injEq, and_true] at ha hb
  refine ⟨p, hp, h2, h3, h4, h5, ?_, ?_⟩
  · intro e' he'
    rw [he] at he'
    have := List.mem_singleton.1 he'
    subst this
    rw [ha.1, hops]
    exact encodeOp_registered (op := ⟨"^r", false, 3⟩) (by decide)
  · intro rng infs p' act hn
    unfold glance at hv
    simp only [Prod.mk.injEq] at hv
    refine C98_told_operator_goal_blocks noEffect noEffect_reports _ p p' rng infs act hn hbab e (by rw [he]; simp)
      (by rw [hb.1]; norm_num) hb.2 _ ⟨_, told9 ha.2, rfl⟩ ?_ ?_
    · rintro b hbm x ⟨tv, t1, rfl⟩
      rw [t1.unique (counted3 (seen_rules hv.1 hbm).2)]
      norm_num
    · intro e' he' hne
      rw [he] at he'
      have := List.mem_singleton.1 he'
      subst this
      exact absurd hb.2 hne

/-- ... then `^r` and `^l` are reported to have been executed, and `a` is seen again -/
def spentOps : List ProcOp :=
  blockedOps ++ [.step1 [] [], .flush, .event opR, .step0 firstDraws, .flush, .event opL, .step0 firstDraws, .flush,
    .event (.Name "a")]

set_option synthInstance.maxSize 2000 in
/-- C98, violated: and later nothing is in the way any more, all executable goals are fulfilled.  But the goal to execute `^l`
which was considered before stays, fulfilled, and keeps the same goal from being pursued again: the step does nothing. -/
theorem C98_fulfilled_goal_in_the_way : ∃ p p', runProc noEffect (fun _ => 1) calm spentOps = .ok p ∧
    (∃ last, p.trace.getLast? = some last ∧ last.name = .Name "a") ∧
    (∃ r b acts effect, RuleUnder p.mem (.Name "a") r ∧ p.mem.heap[r]? = some b ∧ b.term = rule (.Name "a") acts effect) ∧
    EveryRuleHelps p (.Name "a") ∧ PlainGoals p.goals ∧ (∀ e ∈ p.goals.activeSet, e.desirability = 0) ∧
    narStep1 noEffect (fun _ => 1) p [] [] = .ok (p', none) := by
  have h : (runProc noEffect (fun _ => 1) calm spentOps).map (fun p => (glance p,
      p.goals.activeSet.map (·.desirability), (narStep1 noEffect (fun _ => 1) p [] []).map (·.2))) =
      .ok ((List.replicate 4 (leadsAB, some (.CNT 3 3)), [wantB, (opR, some (.TV ⟨1, 9/10⟩)), (opL, some (.TV ⟨1, 3/4⟩))], 2,
        [.Name "a"], some [0], 29/50), [0, 0], .ok none) := by decide +kernel
  obtain ⟨p, hp, hv⟩ := R.map_ok.1 h
  simp only [Prod.mk.injEq] at hv
  obtain ⟨hv, ha, hn⟩ := hv
  obtain ⟨⟨p', act⟩, hn, rfl⟩ := R.map_ok.1 hn
  have hops := (runProc_inv noEffect_reports hp calm_started.fresh.inv calm_started.weights).2.1
  obtain ⟨h1, h2, h3, h4, h5⟩ := seen_meets hv hops (by
    intro x hx
    simp only [List.mem_cons, List.not_mem_nil, or_false] at hx
    rcases hx with rfl | rfl | rfl
    · exact .inl rfl
    · exact .inr ⟨.inl rfl, "^r", rfl⟩
    · exact .inr ⟨.inr rfl, "^l", rfl⟩) (by simp)
  refine ⟨p, p', hp, h2, h3, h4, h5, ?_, hn⟩
  intro e he
  have := List.mem_map_of_mem (f := (·.desirability)) he
  rw [ha] at this
  simpa using this

/-- C98, violated: a goal which is fulfilled is pursued again.  After `b` was seen the goal is not desired any more, still the
reasoner acts to reach it as soon as it sees `a`. -/
theorem C98_fulfilled_goal_pursued : ∃ p p', runProc noEffect (fun _ => 1) calm (learnLB ++
      [.goal (.Name "b") ⟨1, 9/10⟩ 100, .flush, .event (.Name "b"), .step0 firstDraws, .flush, .event (.Name "a")]) = .ok p ∧
    (∀ e, Stored p.goals e → e.desirability = 0) ∧ narStep1 noEffect (fun _ => 1) p [] [] = .ok (p', some opL) := by
  have h : (runProc noEffect (fun _ => 1) calm (learnLB ++
      [.goal (.Name "b") ⟨1, 9/10⟩ 100, .flush, .event (.Name "b"), .step0 firstDraws, .flush, .event (.Name "a")])).map (fun p =>
      ((retEntries p.goals).map (·.desirability), (narStep1 noEffect (fun _ => 1) p [] []).map (·.2))) =
      .ok ([0], .ok (some opL)) := by decide +kernel
  obtain ⟨p, hp, hv⟩ := R.map_ok.1 h
  simp only [Prod.mk.injEq] at hv
  obtain ⟨⟨p', act⟩, hn, rfl⟩ := R.map_ok.1 hv.2
  refine ⟨p, p', hp, ?_, hn⟩
  intro e he
  have := List.mem_map_of_mem (f := (·.desirability)) ((retEntries_mem _ _).2 he)
  rw [hv.1] at this
  simpa using this

/-- learn that `^l` leads from `a` to `b`, and from `b` to `c`; then want `c` and see `a` -/
def farOps : List ProcOp :=
  learnLB ++ [.flush, .event (.Name "b"), .event opL, .event (.Name "c"), .step0 firstDraws, .worker [], .worker [], .worker [],
    .worker [], .goal (.Name "c") ⟨1, 99/100⟩ 100, .flush, .event (.Name "a")]

/-- `b`, then `^l` leads to `c` -/
def leadsBC : Term := rule (.Name "b") [opL] (.Name "c")

set_option synthInstance.maxSize 2000 in
/-- what was experienced in two parts is put together: the conditions of `C98_way_can_be_found` are met, and with the two draws
the agent executes `^l` although no single rule leads from `a` to `c` -/
example : ∃ p p', runProc noEffect (fun _ => 1) calm farOps = .ok p ∧
    narStep1 noEffect (fun _ => 1) p [] [] = .ok (p', some opL) ∧
    ∃ draws : List Nat, draws.length = 2 ∧ ∀ rng infs, (∀ d ∈ infs, 0 ≤ d.2.1) →
      ∃ p' acts op y ev, narStep1 noEffect (fun _ => 1) p (draws ++ rng) infs = .ok (p', some op) ∧
        Considered p (.Seq (acts ++ [op])) y ev := by
  have h : (runProc noEffect (fun _ => 1) calm farOps).map (fun p => (p.mem.heap.map (fun b => (b.term, b.evi)),
      (retEntries p.goals).map (fun e => (e.sentence.term, e.sentence.evi)), p.goals.activeSet.length, p.trace.map (·.name),
      (p.mem.get (.Name "a")).map (·.byExp), (p.mem.get (.Name "b")).map (·.byExp), p.threshold,
      (narStep1 noEffect (fun _ => 1) p [] []).map (·.2))) =
      .ok (List.replicate 4 (leadsAB, some (.CNT 3 3)) ++ List.replicate 4 (leadsBC, some (.CNT 3 3)),
        [(.Name "c", some (.TV ⟨1, 99/100⟩))], 0, [.Name "a"], some [0], some [2, 4], 29/50, .ok (some opL)) := by
    decide +kernel
  obtain ⟨p, hp, hv⟩ := R.map_ok.1 h
  simp only [Prod.mk.injEq] at hv
  obtain ⟨h1, h2, h3, h4, h5, h6, h7, h8⟩ := hv
  obtain ⟨⟨p', act⟩, hn, rfl⟩ := R.map_ok.1 h8
  refine ⟨p, p', hp, hn, ?_⟩
  have hops := (runProc_inv noEffect_reports hp calm_started.fresh.inv calm_started.weights).2.1
  have hop : RegisteredCall p.ops opL := by
    rw [hops]
    exact encodeOp_registered (op := ⟨"^l", true, 3⟩) (by decide)
  have hheap : ∀ b ∈ p.mem.heap, (b.term = leadsAB ∨ b.term = leadsBC) ∧ b.evi = some (.CNT 3 3) := by
    intro b hb
    have := List.mem_map_of_mem (f := fun b : Sentence => (b.term, b.evi)) hb
    rw [h1] at this
    simp only [List.mem_append, List.mem_replicate, Prod.mk.injEq] at this
    rcases this with ⟨_, k1, k2⟩ | ⟨_, k1, k2⟩
    · exact ⟨.inl k1, k2⟩
    · exact ⟨.inr k1, k2⟩
  have hlen : p.mem.heap.length = 8 := by have := congrArg List.length h1; simpa using this
  have hat : ∀ i (hi : i < 8), (p.mem.heap[i]'(by omega)).term =
      ((List.replicate 4 leadsAB ++ List.replicate 4 leadsBC)[i]'(by simpa using hi)) := by
    intro i hi
    have := congrArg (fun l => (l.map Prod.fst)[i]?) h1
    simp only [List.map_map, List.map_append, List.map_replicate, List.getElem?_map] at this
    rw [List.getElem?_eq_getElem (by omega), List.getElem?_eq_getElem (by simpa using hi)] at this
    exact Option.some.inj this
  have g := seen_goals h2
  have gT : ∀ e, Stored p.goals e → e.sentence.term = .Name "c" ∧ HasTruth e.sentence ⟨1, 99/100⟩ := by
    intro e he
    have := List.mem_singleton.1 (g.2 e he)
    obtain ⟨k1, k2⟩ := Prod.mk.inj this
    refine ⟨k1, ?_⟩
    unfold HasTruth retTv
    rw [k2]
  obtain ⟨last, hl, hln⟩ : ∃ last, p.trace.getLast? = some last ∧ last.name = .Name "a" := by
    cases ht : p.trace.getLast? with
    | none => rw [List.getLast?_eq_none_iff.1 ht] at h4; cases h4
    | some last =>
      obtain ⟨l, hl⟩ := List.getLast?_eq_some_iff.1 ht
      rw [hl, List.map_append] at h4
      have := List.append_inj' (t₁ := [last.name]) (s₂ := []) (t₂ := [.Name "a"]) h4 rfl
      exact ⟨last, rfl, by have := this.2; simpa using this⟩
  obtain ⟨ca, ga, ha⟩ := Option.map_eq_some_iff.1 h5
  obtain ⟨cb, gb, hb⟩ := Option.map_eq_some_iff.1 h6
  have hw : Way p (.Name "c") ⟨1, 99/100⟩ last.name [0, 4]
      (Tv.dedGoal (Tv.dedGoal ⟨1, 99/100⟩ ⟨1, 3/4⟩) ⟨1, 3/4⟩) := by
    rw [hln]
    refine .more (b := p.mem.heap[0]) (acts := [opL]) (effect := .Name "b")
      ⟨_, by simp [Term.retSubterms], ca, ga, .inl (by rw [ha]; simp)⟩ (List.getElem?_eq_getElem _) (hat 0 (by decide))
      (counted3 (hheap _ (List.getElem_mem _)).2) ?_
      (.direct (b := p.mem.heap[4]) (acts := [opL]) ⟨_, by simp [Term.retSubterms], cb, gb, .inl (by rw [hb]; simp)⟩
        (List.getElem?_eq_getElem _) (hat 4 (by decide)) (counted3 (hheap _ (List.getElem_mem _)).2))
    intro e he
    rw [(gT e he).1]
    decide
  obtain ⟨draws, hd, hh⟩ := C98_way_can_be_found noEffect (fun _ => 1) calm p calm_started (noEffect_wellBehaved _) farOps
    (by
      intro op hop
      unfold farOps learnLB at hop
      simp only [List.mem_append, List.mem_cons, List.not_mem_nil, or_false] at hop
      casesm* _ ∨ _
      all_goals subst op
      all_goals first | exact plain_name _ _ | exact printable_name _ | trivial |
        exact call_plain (args := [selfTerm]) (name := "^l") ⟨by simp, rfl⟩ ⟨_, rfl⟩ | simp [ProcOp.Harmless]) hp (by rw [h7]; norm_num) last hl (.Name "c") ⟨1, 99/100⟩ _ [0, 4] hw (by decide)
    (g.1 _ _ (List.mem_singleton.2 rfl)) (fun e he _ => (gT e he).2) (by rw [h7]; decide +kernel) (by
      rintro seq y ev (⟨e, _, first, rest, _, he, _, ht, _⟩ |
        ⟨e, last', T, tv, r, rs, b, acts, effect, _, hl', _, _, _, hb, hbt, rfl, _, rfl⟩) _
      · rw [(gT e he).1] at ht; cases ht
      · obtain ⟨k1, k2⟩ := hheap b (List.mem_of_getElem? hb)
        have hacts : acts = [opL] := by
          rcases k1 with k1 | k1 <;> rw [k1] at hbt
          · exact (rule_inj hbt).2.1.symm
          · exact (rule_inj hbt).2.1.symm
        subst hacts
        exact ⟨r, b, _, [last'.name], opL, rfl, hb, ⟨_, counted3 k2, rfl⟩, by rw [h7]; norm_num, rfl, hop⟩)
    (List.length_eq_zero_iff.1 h3)
  refine ⟨draws, hd, ?_⟩
  intro rng infs hi
  obtain ⟨p', acts, op, y, ev, k1, k2, _⟩ := hh rng infs hi
  exact ⟨p', acts, op, y, ev, k1, k2⟩

end Nar.Props
