import Verif.Lemmas.Taught
import Verif.Spec.Taught
import Verif.Lemmas.Programs7
/-! # Properties about learning from a single experience (C112) -/
namespace Nar.Props
open Nar Nar.Term

theorem waiting_taught {call : Call} {decay : Int → Rat} {s : Sentence} {a e : Term} {acts : List Term}
    (hs : s.term = rule a acts e) (hst : s.stamp.ids ≠ []) (hpu : s.punct = .JUGEMENT)
    (hvar : ∀ v q, a ≠ .Stmt .INH (.IndepVar v) q) (mid : List ProcOp) (hm : ∀ op ∈ mid, op.Waiting) (p : Proc)
    (hn : 1 ≤ p.nConceptBeliefs) (ht : Taught s a p) (hk : KnownFirst a s.term p.mem) :
    ∃ p' m q w tr, runProc call decay p mid = .ok p' ∧ p' = { p with mem := m, queue := q, workerAlive := w, trace := tr } ∧
      Taught s a p' ∧ KnownFirst a s.term p'.mem := by
  induction mid generalizing p with
  | nil => exact ⟨p, _, _, _, _, rfl, rfl, ht, hk⟩
  | cons op mid ih =>
    have hop := hm op (by simp)
    have hm' : ∀ op ∈ mid, op.Waiting := fun x hx => hm x (by simp [hx])
    cases op with
    | worker rng =>
      obtain ⟨m, q, w, hf⟩ := workerStep_frame p rng
      obtain ⟨h1, h2, _⟩ := worker_taught hs hst hpu hvar hn hop ht
      obtain ⟨p', m', q', w', tr, r1, r2, r3, r4⟩ := ih hm' (workerStep p rng) (by rw [hf]; exact hn) h1 (h2 hk)
      refine ⟨p', m', q', w', tr, ?_, ?_, r3, r4⟩
      · unfold runProc at r1 ⊢
        rw [List.foldlM_cons]
        exact r1
      · rw [r2, hf]
    | flush =>
      have hsafe : PSafe (traceFlush p) := by
        have h := ht.safe
        exact ⟨h.heap, h.queue, h.refs, h.antic, h.goals, (fun e he => by cases he), h.time, h.table, h.alive, h.weights⟩
      obtain ⟨p', m', q', w', tr, r1, r2, r3, r4⟩ := ih hm' (traceFlush p) hn ⟨hsafe, ht.heap, ht.queue⟩ hk
      refine ⟨p', m', q', w', tr, ?_, ?_, r3, r4⟩
      · unfold runProc at r1 ⊢
        rw [List.foldlM_cons]
        exact r1
      · rw [r2]; rfl
    | event => exact hop.elim
    | goal => exact hop.elim
    | rule => exact hop.elim
    | step0 => exact hop.elim
    | step1 => exact hop.elim

/-- C112: one experience is enough.  Whatever the two situations and the operator are: if a reasoner which knows nothing has
perceived `before`, then the operator, then `after'`, it does a step and the worker has had its turn, then whenever it
perceives `before` again and wants `after'`, it executes the operator.  This holds for all draws: of the samples, of the names
of variables, and of the step itself; and it does not matter how long is waited in between. -/
theorem C112_one_experience_is_enough (call : Call) (decay : Int → Rat) (p0 p : Proc) (hp : Started p0)
    (hcall : WellBehaved p0.ops call) (ops : List ProcOp) (ho : ∀ op ∈ ops, op.Harmless p0.ops)
    (hrun : runProc call decay p0 ops = .ok p) (before act after' : Event) (hexp : OneExperience p before act after')
    (args : List Term) (name : String) (hact : IsCall act.name args name) (n : Int) (hw : EvidenceWeight p.ops name n)
    (hmax : p.nOpsMax ≠ 0) (hroom : 1 ≤ p.nConceptBeliefs) (hsamples : 1 ≤ p.samplesPerStep) (hth : 1/2 ≤ p.threshold)
    (tv : Tv) (htv : Tv.Sane tv) (hf : 1/2 ≤ tv.f) (hprom : p.threshold < promise tv n) (id : Int)
    (draws : Nat → SampleDraws) (hd : ∀ i, (draws i).ops ≠ []) (rng0 : List Nat) (hr0 : ∀ d ∈ rng0, d % 16 ≠ 15)
    (mid : List ProcOp) (hmid : ∀ op ∈ mid, op.Waiting) :
    ∃ p', runProc call decay p ([.step0 draws, .worker rng0] ++ mid ++ [.goal after'.name tv id, .event before.name]) = .ok p' ∧
      ∀ (rng : List Nat) (infs : List (Rat × Rat × List Nat)), (∀ d ∈ infs, 0 ≤ d.2.1) →
        ∃ p'', narStep1 call decay p' rng infs = .ok (p'', some act.name) := by
  obtain ⟨hs, hops⟩ := reached hp hcall ho hrun
  obtain ⟨pre, o, post, w1, w2, w3, w4⟩ := hw
  have hop : retOpByName p.ops name = some o := by
    unfold retOpByName
    rw [w1, List.find?_append]
    have : pre.find? (fun o => o.name == name) = none := by
      rw [List.find?_eq_none]
      intro x hx
      simpa using w3 x hx
    rw [this]
    simp [w2]
  have hreg : RegisteredCall p.ops act.name := ⟨args, name, hact, o, by rw [w1]; simp, w2⟩
  have hn1 : 1 ≤ n := by rw [← w4]; exact hs.weights o (by rw [w1]; simp)
  have hafter : ¬ RegisteredCall p.ops after'.name := fun ⟨args, name, h, _⟩ => hexp.after_state args name h
  -- the step
  have h0 := step0_three hexp.fresh hmax hs.alive hexp.window hexp.before_state hafter hexp.differ hact hop draws hd
  rw [w4] at h0
  obtain ⟨s, hsdef⟩ : ∃ s, s = observed p n before act after' := ⟨_, rfl⟩
  rw [← hsdef] at h0
  have hterm : s.term = rule before.name [act.name] after'.name := by rw [hsdef]; rfl
  have hevi : s.evi = some (.CNT n n) := by rw [hsdef]; rfl
  obtain ⟨p1, hp1⟩ : ∃ p1 : Proc, p1 = { p with goals := satisfyLast p
                                                queue := List.replicate p.samplesPerStep (s, p.t) } := ⟨_, rfl⟩
  rw [← hp1] at h0
  have hs1 : PSafe p1 := by
    rcases narStep0_safe hs draws with ⟨q, hq, hq2, _⟩ | ⟨hq, _⟩
    · rw [h0] at hq; cases hq; exact hq2
    · rw [h0] at hq; cases hq
  have ht1 : Taught s before.name p1 := by
    refine ⟨hs1, ?_, ?_⟩
    · intro x hx
      rw [hp1] at hx
      have : p.mem.heap = [] := by rw [hexp.fresh.1]; rfl
      simp only [this] at hx
      cases hx
    · intro m hm
      rw [hp1] at hm
      rw [List.eq_of_mem_replicate hm]
  have hst : s.stamp.ids ≠ [] := by rw [hsdef]; simp [observed]
  have hpu : s.punct = .JUGEMENT := by rw [hsdef]; rfl
  -- the worker
  obtain ⟨a1, _, a3⟩ := worker_taught (rng := rng0) hterm hst hpu hexp.definite (by rw [hp1]; exact hroom) hr0 ht1
  have hk2 := a3 (by rw [hp1]; show PMem.get p.mem _ = none; rw [hexp.fresh.1]; rfl) (by
    rw [hp1]
    intro h
    have := congrArg List.length h
    simp at this
    omega)
  obtain ⟨m2, q2, w2', hfr⟩ := workerStep_frame p1 rng0
  obtain ⟨p3, m3, q3, w3', tr3, r1, r2, r3, r4⟩ := waiting_taught (call := call) (decay := decay) hterm hst hpu hexp.definite mid hmid
    (workerStep p1 rng0) (by rw [hfr, hp1]; exact hroom) a1 hk2
  have r2' : p3 = { p with goals := satisfyLast p, mem := m3, queue := q3, workerAlive := w3', trace := tr3 } := by
    rw [r2, hfr, hp1]
  -- the goal
  have hplain : ∀ e, ¬ Stored p3.goals e := by
    intro e he
    rw [r2'] at he
    simp only [satisfyLast] at he
    rw [hexp.window] at he
    obtain ⟨y, hy, _⟩ := (eventOccurred_stored p.goals after'.name e).1 he
    exact hexp.nothing y hy
  have hs3 := r3.safe
  have hev1 := (hs.trace before (by rw [hexp.window]; simp)).2
  have hev2 := (hs.trace after' (by rw [hexp.window]; simp)).2
  obtain ⟨g, hg, hgs⟩ := hs3.goals.add (t := p3.t) (goal := newEternalSentenceByTv after'.name .GOAL tv ⟨[id]⟩) (ev := none)
    (d := 0) rfl ⟨tv, rfl⟩ (le_refl 0) (fun r h => by cases h) hev2.1
  obtain ⟨p4, hp4⟩ : ∃ p4 : Proc, p4 = { p3 with goals := g, trace := p3.trace ++ [⟨before.name, p3.t, p3.t⟩] } := ⟨_, rfl⟩
  have hrun2 : runProc call decay p ([.step0 draws, .worker rng0] ++ mid ++ [.goal after'.name tv id, .event before.name]) = .ok p4 := by
    unfold runProc
    rw [List.foldlM_append, List.foldlM_append]
    have e1 : [ProcOp.step0 draws, ProcOp.worker rng0].foldlM (ProcOp.run call decay) p = .ok (workerStep p1 rng0) := by
      rw [List.foldlM_cons]
      show (narStep0 p draws >>= _) = _
      rw [h0]
      rfl
    rw [e1]
    show ((mid.foldlM (ProcOp.run call decay) (workerStep p1 rng0)) >>= _) = _
    have r1' : mid.foldlM (ProcOp.run call decay) (workerStep p1 rng0) = .ok p3 := r1
    rw [r1']
    show (inputGoal p3 after'.name tv id >>= _) = _
    unfold inputGoal
    rw [hg, hp4]
    rfl
  refine ⟨p4, hrun2, ?_⟩
  intro rng infs hi
  have hall : ∀ op ∈ ops ++ ([.step0 draws, .worker rng0] ++ mid ++ [.goal after'.name tv id, .event before.name]),
      op.Harmless p0.ops := by
    intro op hop
    rcases List.mem_append.1 hop with hop | hop
    · exact ho op hop
    rcases List.mem_append.1 hop with hop | hop
    · rcases List.mem_append.1 hop with hop | hop
      · simp only [List.mem_cons, List.not_mem_nil, or_false] at hop
        rcases hop with rfl | rfl
        · trivial
        · exact hr0
      · have := hmid op hop
        cases op with
        | worker rng => exact this
        | flush => trivial
        | event => exact this.elim
        | goal => exact this.elim
        | rule => exact this.elim
        | step0 => exact this.elim
        | step1 => exact this.elim
    · simp only [List.mem_cons, List.not_mem_nil, or_false] at hop
      rcases hop with rfl | rfl
      · exact hev2.1
      · show PlainEvent p0.ops before.name
        rw [← hops]; exact hev1
  have hwhole : runProc call decay p0 (ops ++ ([.step0 draws, .worker rng0] ++ mid ++
      [.goal after'.name tv id, .event before.name])) = .ok p4 := by
    have hr1 : ops.foldlM (ProcOp.run call decay) p0 = .ok p := hrun
    unfold runProc
    rw [List.foldlM_append, hr1]
    exact hrun2
  have hth4 : p4.threshold = p.threshold := by rw [hp4, r2']
  have hops4 : p4.ops = p.ops := by rw [hp4, r2']
  have hmem4 : p4.mem = p3.mem := by rw [hp4]
  have hgoals4 : p4.goals = g := by rw [hp4]
  -- what is wanted
  have hstored : ∀ e, Stored g e → e.sentence = newEternalSentenceByTv after'.name .GOAL tv ⟨[id]⟩ := by
    intro e he
    rcases (addEntry_spec hg).2.2 e he with he | ⟨acc, rfl⟩
    · exact absurd he (hplain e)
    · rfl
  have hwant : ∃ e, Stored g e ∧ e.sentence.term = after'.name := addEntry_known hs3.goals.inv hg
  have htruth : ∀ e, Stored g e → HasTruth e.sentence tv := by
    intro e he
    rw [hstored e he]
    rfl
  have hactive : g.activeSet = [] := by
    by_contra hne
    obtain ⟨e, l, hl⟩ := List.exists_cons_of_ne_nil hne
    have hm : e ∈ g.activeSet := by rw [hl]; simp
    obtain ⟨⟨args, name⟩, hc⟩ := Option.isSome_iff_exists.1 (hgs.inv.activeOp e hm)
    rw [hstored e (.inl hm)] at hc
    exact hexp.after_state _ _ ((decodeOp_iff _ _ _).1 hc)
  -- what is known
  have hknown : ∀ (r : Nat) (b : Sentence) (acts : List Term) (effect : Term), p3.mem.heap[r]? = some b →
      b.term = rule before.name acts effect → acts = [act.name] ∧ effect = after'.name ∧ HasTruth b ⟨1, n / (n + 1)⟩ := by
    intro r b acts effect hb hbt
    obtain ⟨k1, k2⟩ := r3.heap b (List.mem_of_getElem? hb)
    rcases k2 with k2 | k2
    · rw [hbt, hterm] at k2
      obtain ⟨_, rfl, rfl⟩ := rule_inj k2
      refine ⟨rfl, rfl, ?_⟩
      have : b.evi = some (.CNT n n) := by rw [k1]; exact hevi
      unfold HasTruth retTv
      rw [this]
      have z1 : n ≠ 0 := by omega
      have z2 : n ≠ -1 := by omega
      have z3 : (n : Rat) ≠ 0 := by exact_mod_cast z1
      simp only [retFreq, retConf, z1, z2, if_false, bind, Except.bind, div_self z3]
    · exact absurd hbt (k2 _ _)
  have hded : ((Tv.dedGoal tv ⟨1, n / (n + 1)⟩).f - 1/2) * (Tv.dedGoal tv ⟨1, n / (n + 1)⟩).c + 1/2 = promise tv n := by
    have hk : (0 : Rat) ≤ n / (n + 1) := by
      have : (1 : Rat) ≤ n := by exact_mod_cast hn1
      positivity
    have h1 : (Tv.ded tv ⟨1, n / (n + 1)⟩).c ≥ (Tv.neg (Tv.ded (Tv.neg tv) ⟨1, n / (n + 1)⟩)).c := by
      show tv.c * (n / (n + 1)) * (tv.f * 1) ≥ tv.c * (n / (n + 1)) * ((1 - tv.f) * 1)
      have := mul_nonneg htv.2.2.1 hk
      nlinarith
    unfold Tv.dedGoal
    simp only [h1, if_true]
    show (tv.f * 1 - 1/2) * (tv.c * (n / (n + 1)) * (tv.f * 1)) + 1/2 = _
    unfold promise
    ring
  have hlast : p4.trace.getLast? = some ⟨before.name, p3.t, p3.t⟩ := by rw [hp4]; simp
  obtain ⟨c, r, rest, b, c1, c2, c3, c4⟩ := r4
  obtain ⟨p'', r', op, hstep, b', acts', effect', f1, f2, f3⟩ := C98_known_way_taken_partial call decay p0 p4 hp hcall _ hall hwhole
    (by rw [hth4]; exact hth) ⟨before.name, p3.t, p3.t⟩ hlast
    ⟨r, b, [act.name], after'.name, ⟨before.name, self_mem_retSubterms _, c, by rw [hmem4]; exact c1, .inl (by rw [c2]; simp)⟩,
      by rw [hmem4]; exact c3, by rw [c4, hterm]⟩
    (by
      intro r b acts effect _ hb hbt
      rw [hmem4] at hb
      obtain ⟨rfl, rfl, ht⟩ := hknown r b acts effect hb hbt
      refine ⟨⟨[], act.name, rfl, by rw [hops4]; exact hreg⟩, by rw [hgoals4]; exact hwant, ?_⟩
      intro e T tb he _ hT htb
      rw [hgoals4] at he
      rw [hT.unique (htruth e he), htb.unique ht, hded, hth4]
      exact hprom)
    (by
      intro e he
      rw [hgoals4] at he
      refine ⟨⟨tv, htruth e he, htv, hf⟩, ?_⟩
      rw [hstored e he]
      exact hexp.single)
    (by rw [hgoals4]; exact hactive) rng infs hi
  rw [hmem4] at f2
  obtain ⟨k1, _, _⟩ := hknown _ _ _ _ f2 f3
  have k2 := List.append_inj' (s₁ := acts') (t₁ := [op]) (s₂ := []) (t₂ := [act.name]) k1 rfl
  cases k2.2
  exact ⟨p'', hstep⟩

/-- see that `x` is on, do something by chance, see that `x` is off -/
def playing : List ProcOp :=
  [.event (hasProp (.Name "x") "on"), .step0 firstDraws, .step1 [0] [], .event (hasProp (.Name "x") "off")]

theorem playing_plain (name : String) (ops : List Op) (h : ∀ o ∈ ops, o.name ≠ "x") : PlainEvent ops (hasProp (.Name "x") name) := by
  refine ⟨⟨_, rfl⟩, ?_⟩
  rintro x ps h'
  unfold hasProp at h'
  injection h' with _ h1 _
  subst h1
  rintro (⟨args, name, _, h2⟩ | ⟨args, h2⟩ | ⟨args, h2⟩ | ⟨o, ho, h2⟩)
  · cases h2
  · cases h2
  · cases h2
  · injection h2 with h2
    exact h o ho h2.symm

theorem playing_harmless : ∀ op ∈ playing, op.Harmless agent.ops := by
  have hx : ∀ o ∈ agent.ops, o.name ≠ "x" := by decide
  intro op hop
  simp only [playing, List.mem_cons, List.not_mem_nil, or_false] at hop
  rcases hop with rfl | rfl | rfl | rfl
  · exact playing_plain _ _ hx
  · trivial
  · exact fun d hd => by cases hd
  · exact playing_plain _ _ hx

/-- the reasoner did `^l` by chance when `x` was on, and then it was off.  From this one experience it has learned how to
switch `x` off: whatever is drawn -/
example : ∃ p, runProc noEffect (fun _ => 1) agent playing = .ok p ∧
    ∀ (draws : Nat → SampleDraws), (∀ i, (draws i).ops ≠ []) → ∀ rng0 : List Nat, (∀ d ∈ rng0, d % 16 ≠ 15) →
    ∃ p', runProc noEffect (fun _ => 1) p ([.step0 draws, .worker rng0] ++ [.flush, .worker [], .worker [3]] ++
        [.goal (hasProp (.Name "x") "off") ⟨1, 9/10⟩ 100, .event (hasProp (.Name "x") "on")]) = .ok p' ∧
      ∀ (rng : List Nat) (infs : List (Rat × Rat × List Nat)), (∀ d ∈ infs, 0 ≤ d.2.1) →
        ∃ p'', narStep1 noEffect (fun _ => 1) p' rng infs = .ok (p'', some opL) := by
  have h : (runProc noEffect (fun _ => 1) agent playing).map (fun p =>
      (p.trace.map (fun e => (e.name, e.occT, e.evi)), p.mem.heap.length, p.mem.concepts.length, p.anticipated.length, p.queue.length)) =
      .ok ([(hasProp (.Name "x") "on", 0, 0), (opL, 0, 0), (hasProp (.Name "x") "off", 1, 1)], 0, 0, 0, 0) := by decide +kernel
  have h' : (runProc noEffect (fun _ => 1) agent playing).map (fun p =>
      ((retEntries p.goals).length, p.ops, p.nOpsMax, p.nConceptBeliefs, p.samplesPerStep, p.threshold)) =
      .ok (0, [⟨"^l", true, 3⟩, ⟨"^r", false, 3⟩], 1, 100, 4, 29/50) := by decide +kernel
  obtain ⟨p, hp, hv⟩ := R.map_ok.1 h
  obtain ⟨p2, hp2, hv'⟩ := R.map_ok.1 h'
  rw [hp] at hp2
  cases hp2
  simp only [Prod.mk.injEq, List.length_eq_zero_iff] at hv hv'
  obtain ⟨v1, v2, v3, v4, v5⟩ := hv
  obtain ⟨g1, g2, g3, g4, g5, g6⟩ := hv'
  refine ⟨p, hp, ?_⟩
  obtain ⟨x, y, z, ht, rfl, rfl, rfl⟩ : ∃ x y z, p.trace = [x, y, z] ∧ x = ⟨hasProp (.Name "x") "on", 0, 0⟩ ∧ y = ⟨opL, 0, 0⟩ ∧
      z = ⟨hasProp (.Name "x") "off", 1, 1⟩ := by
    match ht : p.trace, v1 with
    | [⟨_, _, _⟩, ⟨_, _, _⟩, ⟨_, _, _⟩], v1 =>
      simp only [List.map_cons, List.map_nil, List.cons.injEq, Prod.mk.injEq, and_true] at v1
      obtain ⟨⟨rfl, rfl, rfl⟩, ⟨rfl, rfl, rfl⟩, rfl, rfl, rfl⟩ := v1
      exact ⟨_, _, _, rfl, rfl, rfl, rfl⟩
  have hexp : OneExperience p ⟨hasProp (.Name "x") "on", 0, 0⟩ ⟨opL, 0, 0⟩ ⟨hasProp (.Name "x") "off", 1, 1⟩ := by
    refine ⟨ht, ⟨?_, v4, v5⟩, ?_, ?_, ?_, by decide, ?_, ?_⟩
    · have : p.mem = ⟨p.mem.heap, p.mem.concepts⟩ := rfl
      rw [this, v2, v3]; rfl
    · intro e he
      have := (retEntries_mem _ _).2 he
      rw [g1] at this
      cases this
    · rintro ⟨_, _, ⟨_, h⟩, _⟩; cases h
    · rintro _ _ ⟨_, h⟩; cases h
    · intro v q h; cases h
    · intro ts h; cases h
  intro draws hd rng0 hr0
  exact C112_one_experience_is_enough noEffect (fun _ => 1) agent p agent_started (noEffect_wellBehaved _) playing playing_harmless hp
    _ _ _ hexp [selfTerm] "^l" ⟨by simp, rfl⟩ 3 (by rw [g2]; exact ⟨[], _, _, rfl, rfl, (fun x hx => by cases hx), rfl⟩)
    (by rw [g3]; decide) (by rw [g4]; decide) (by rw [g5]; decide) (by rw [g6]; decide +kernel) ⟨1, 9/10⟩
    (by unfold Tv.Sane; decide +kernel) (by decide +kernel) (by rw [g6]; decide +kernel) 100 draws hd rng0 hr0 _ (by
      intro op hop
      simp only [List.mem_cons, List.not_mem_nil, or_false] at hop
      rcases hop with rfl | rfl | rfl
      · trivial
      · exact fun d hd => by cases hd
      · exact fun d hd => by simp at hd; subst hd; decide)

end Nar.Props
