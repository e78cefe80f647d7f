import Verif.Lemmas.Proc3
/-! # Lemmas about whole steps and histories of the procedural reasoner -/
namespace Nar
open Term

theorem limitMemoryP_spec {m m' : PMem} {n : Nat} (h : limitMemoryP m n = .ok m') :
    ∃ concepts, m' = { m with concepts := concepts } ∧ concepts.length ≤ n ∧ (∀ c ∈ concepts, c ∈ m.concepts) ∧
      (m.concepts.length ≤ n → concepts = m.concepts) := by
  unfold limitMemoryP at h
  split at h
  · rename_i hle
    cases h
    exact ⟨m.concepts, rfl, hle, fun c hc => hc, fun _ => rfl⟩
  · rename_i hgt
    obtain ⟨l, hl, h⟩ := R.bind_ok.1 h
    cases h
    refine ⟨_, rfl, ?_, ?_, fun hle => absurd hle hgt⟩
    · rw [List.length_map, List.length_take]; omega
    · intro c hc
      obtain ⟨x, hx, rfl⟩ := List.mem_map.1 hc
      have hx := (sortDesc_perm l).mem_iff.1 (List.mem_of_mem_take hx)
      rw [← (keyed_ok_map hl).1]
      exact List.mem_map_of_mem hx

theorem limitAll_spec {decay : Int → Rat} {p p' : Proc} (h : limitAll decay p = .ok p') :
    ∃ concepts goals, p' = { p with trace := newest 20 p.trace, mem := { p.mem with concepts := concepts }, goals := goals } ∧
      (p.t.tmod 101 = 1 → concepts.length ≤ p.nConcepts) ∧ (∀ c ∈ concepts, c ∈ p.mem.concepts) ∧
      (p.t.tmod 101 ≠ 1 → concepts = p.mem.concepts) ∧
      ((if p.t.tmod 13 = 1 then [.limit p.t] else []) : List GoalOp).foldlM (GoalOp.run decay) p.goals = .ok goals := by
  unfold limitAll at h
  unfold limitMem limitGoals at h
  obtain ⟨mem, hm, h⟩ := R.bind_ok.1 h
  obtain ⟨goals, hg, h⟩ := R.bind_ok.1 h
  cases h
  have hgoals : ((if p.t.tmod 13 = 1 then [.limit p.t] else []) : List GoalOp).foldlM (GoalOp.run decay) p.goals
      = .ok goals := by
    by_cases h13 : p.t.tmod 13 = 1
    · rw [if_pos h13]
      simp only [h13, if_true] at hg
      exact foldlM_cons_ok.2 ⟨goals, hg, foldlM_nil_ok.2 rfl⟩
    · rw [if_neg h13]
      simp only [h13, if_false] at hg
      cases hg
      exact foldlM_nil_ok.2 rfl
  by_cases h101 : p.t.tmod 101 = 1
  · simp only [h101, if_true] at hm
    obtain ⟨concepts, rfl, h1, h2, _⟩ := limitMemoryP_spec hm
    exact ⟨concepts, goals, by rw [traceLimit_newest], fun _ => h1, h2, fun hn => absurd h101 hn, hgoals⟩
  · simp only [h101, if_false] at hm
    cases hm
    exact ⟨p.mem.concepts, goals, by rw [traceLimit_newest], fun h => absurd h h101, fun c hc => hc, fun _ => rfl, hgoals⟩

theorem inferGoals_spec {decay : Int → Rat} {p p' : Proc} {infs : List (Rat × Rat × List Nat)}
    (h : inferGoals p infs = .ok p') : ∃ goals, p' = { p with goals := goals } ∧
      (infs.map (fun d => GoalOp.infer p.t p.mem d.1 d.2.1 d.2.2)).foldlM (GoalOp.run decay) p.goals = .ok goals := by
  unfold inferGoals at h
  obtain ⟨goals, hg, h⟩ := R.bind_ok.1 h
  cases h
  refine ⟨goals, rfl, ?_⟩
  rw [List.foldlM_map]
  exact hg

theorem bestByState_fold_ok {p : Proc} (is : List Nat) (hi : ∀ i ∈ is, i < p.perceptWindow) {best best' : Option BestEntry}
    (h : is.foldlM (bestByState p) best = .ok best') (hb : BestOk p best) : BestOk p best' :=
  foldlM_inv (BestOk p) h hb (fun i him _ _ hx hs => bestByState_ok (hi i him) hs hx)

/-- what is decided -/
theorem decideAction_spec {p p' : Proc} {rng rng' : List Nat} {picked : Option Term}
    (h : decideAction p rng = .ok (p', picked, rng')) :
    ∃ g, Adopted p g ∧
      ((∃ e i r b interval, g.activeSet[i]? = some e ∧ BestGoal g p.threshold e ∧ e.evidence = some r ∧
          Executable e.sentence ∧ p.mem.heap[r]? = some b ∧ ExpectedAfter p b interval ∧ picked = some e.sentence.term ∧
          p' = { p with
            goals := { g with activeSet := g.activeSet.eraseIdx i }
            anticipated := if p.enAnticipation then p.anticipated ++ [⟨r, p.t + interval⟩] else p.anticipated }) ∨
        (((∀ e, ¬ BestGoal g p.threshold e) ∨
            ∃ e, BestGoal g p.threshold e ∧ (e.evidence = none ∨ ¬ Executable e.sentence)) ∧
          p' = { p with goals := g } ∧
          (picked = none ∨ (p.enBabbling = true ∧ ∃ op ∈ p.ops, op.babbleable = true ∧
            picked = some (encodeOp [selfTerm] op.name))))) := by
  unfold decideAction at h
  obtain ⟨b0, h0, h⟩ := R.bind_ok.1 h
  obtain ⟨⟨b1, rng1⟩, h1, h⟩ := R.bind_ok.1 h
  obtain ⟨p2, h2, h⟩ := R.bind_ok.1 h
  obtain ⟨act, h3, h⟩ := R.bind_ok.1 h
  obtain ⟨⟨p4, pk⟩, h4, h⟩ := R.bind_ok.1 h
  obtain ⟨⟨pk', rng2⟩, h5, h⟩ := R.bind_ok.1 h
  cases h
  have hb0 : BestOk p b0 := bestByState_fold_ok _ (fun i hi => List.mem_range.1 hi) h0 (by intro b hb; cases hb)
  have hb1 := predictAll_ok hb0 h1
  obtain ⟨g, rfl, hg⟩ := adoptBest_ok hb1 h2
  have hact := bestActive_spec h3
  refine ⟨g, hg, ?_⟩
  rcases pickAction_spec h4 with ⟨rfl, rfl, hbest⟩ | ⟨e, i, r, b, iv, rfl, he, hx, hb, hiv, rfl, rfl⟩
  · right
    refine ⟨?_, rfl, ?_⟩
    · rcases hbest with rfl | ⟨e, i, rfl, hh⟩
      · exact .inl hact
      · exact .inr ⟨e, hact.1, hh⟩
    · rcases babble_spec h5 with rfl | ⟨_, h6, op, h7, h8, rfl⟩
      · exact .inl rfl
      · exact .inr ⟨h6, op, h7, h8, rfl⟩
  · left
    refine ⟨e, i, r, b, iv, hact.2, hact.1, he, hx, hb, hiv, ?_, rfl⟩
    rcases babble_spec h5 with rfl | ⟨h6, _⟩
    · rfl
    · cases h6

theorem encodeOp_registered {ops : List Op} {op : Op} (h : op ∈ ops) : RegisteredCall ops (encodeOp [selfTerm] op.name) :=
  ⟨[selfTerm], op.name, ⟨by simp, rfl⟩, op, h, rfl⟩

/-- what a whole second part of a step does -/
theorem narStep1_spec {call : Call} (hcall : OnlyReports call) {decay : Int → Rat} {p p' : Proc} {rng : List Nat}
    {infs : List (Rat × Rat × List Nat)} {act : Option Term} (h : narStep1 call decay p rng infs = .ok (p', act)) :
    ∃ g g2 anticipated evs concepts goals, Adopted p g ∧ Decision p g g2 anticipated act ∧
      (act = none → evs = []) ∧
      p' = { p with
        goals := goals, anticipated := anticipated, mem := { p.mem with concepts := concepts },
        trace := newest 20 (p.trace ++ evs ++ actionEvent p.t act), t := p.t + 1 } ∧
      (p.t.tmod 101 = 1 → concepts.length ≤ p.nConcepts) ∧ (∀ c ∈ concepts, c ∈ p.mem.concepts) ∧
      (p.t.tmod 101 ≠ 1 → concepts = p.mem.concepts) ∧
      (goalWork p.t p'.mem infs).foldlM (GoalOp.run decay) g2 = .ok goals := by
  unfold narStep1 at h
  obtain ⟨⟨p1, picked, rng1⟩, h1, h⟩ := R.bind_ok.1 h
  obtain ⟨⟨p2, executed⟩, h2, h⟩ := R.bind_ok.1 h
  obtain ⟨p3, h3, h⟩ := R.bind_ok.1 h
  obtain ⟨p4, h4, h⟩ := R.bind_ok.1 h
  cases h
  obtain ⟨g, hg, hd⟩ := decideAction_spec h1
  -- the state after the decision
  have hframe : ∃ g2 an, p1 = { p with goals := g2, anticipated := an } ∧
      (∀ act, ((∀ t, picked = some t → RegisteredCall p.ops t → act = some t) ∧
        (∀ t, picked = some t → ¬ RegisteredCall p.ops t → act = none) ∧ (picked = none → act = none)) →
        Decision p g g2 an act) := by
    rcases hd with ⟨e, i, r, b, iv, k1, k2, k3, k4, k5, k6, k7, k8⟩ | ⟨k1, k2, k3⟩
    · refine ⟨_, _, k8, ?_⟩
      rintro act ⟨a1, a2, a3⟩
      exact .inl ⟨e, i, r, b, iv, k1, k2, k3, k4, k5, k6, rfl, rfl, a1 _ k7, a2 _ k7⟩
    · refine ⟨g, p.anticipated, k2, ?_⟩
      rintro act ⟨a1, a2, a3⟩
      refine .inr ⟨k1, rfl, rfl, ?_⟩
      rcases k3 with k3 | ⟨k3, op, k4, k5, k6⟩
      · exact .inl (a3 k3)
      · exact .inr ⟨k3, op, k4, k5, a1 _ k6 (encodeOp_registered k4)⟩
  obtain ⟨g2, an, rfl, hdec⟩ := hframe
  have hex : ∃ evs, (act = none → evs = []) ∧
      p2 = { p with goals := g2, anticipated := an, trace := p.trace ++ evs ++ actionEvent p.t act } ∧
      Decision p g g2 an act := by
    rcases execute_spec hcall h2 with ⟨rfl, rfl, k1⟩ | ⟨t, args, name, q1, evs, rfl, rfl, k1, k2, k3, k4, rfl⟩
    · refine ⟨[], fun _ => rfl, by simp [actionEvent], hdec none ⟨?_, ?_, ?_⟩⟩
      · intro t ht hr; exact absurd hr (k1 t ht)
      · intros; rfl
      · intro _; rfl
    · refine ⟨evs, by simp, rfl, hdec _ ⟨?_, ?_, ?_⟩⟩
      · intro t' ht' _; exact ht'
      · intro t' ht' hr; cases ht'; exact absurd k2 hr
      · intro h; cases h
  obtain ⟨evs, he, rfl, hdec⟩ := hex
  obtain ⟨concepts, goals, rfl, c1, c2, c3, c4⟩ := limitAll_spec h3
  obtain ⟨goals', rfl, hinf⟩ := inferGoals_spec (decay := decay) h4
  refine ⟨g, g2, an, evs, concepts, goals', hg, hdec, he, rfl, c1, c2, c3, ?_⟩
  unfold goalWork
  rw [List.foldlM_append]
  exact R.bind_ok.2 ⟨goals, c4, hinf⟩

/-! ## histories -/

/-- the invariant of histories: all rules and all messages in transit have sane counters -/
structure ProcInv (p : Proc) : Prop where
  heap : ∀ b ∈ p.mem.heap, SaneRule b
  queue : ∀ m ∈ p.queue, SaneRule m.1
  refs : p.mem.RefsValid

theorem HeapGrown.mem {h h' : List Sentence} (hlen : h'.length = h.length)
    (hg : ∀ (r : Nat) (b : Sentence), h[r]? = some b → ∃ b', h'[r]? = some b' ∧ Grown b b') {b' : Sentence} (hb : b' ∈ h') :
    ∃ b ∈ h, Grown b b' := by
  obtain ⟨r, hr, rfl⟩ := List.mem_iff_getElem.1 hb
  obtain ⟨x, hx, hgx⟩ := hg r _ (List.getElem?_eq_getElem (by omega))
  rw [List.getElem?_eq_getElem hr] at hx
  cases hx
  exact ⟨_, List.getElem_mem _, hgx⟩

theorem SaneRule.grown {b b' : Sentence} (h : SaneRule b) (hg : Grown b b') : SaneRule b' := by
  obtain ⟨h1, h2, pos, cnt, h3, h4, h5, h6⟩ := h
  obtain ⟨e1, e2, e3, e4⟩ := hg
  obtain ⟨pos', cnt', k1, k2, k3, k4⟩ := e4 pos cnt h3
  exact ⟨by rw [e1]; exact h1, by rw [e3]; exact h2, pos', cnt', k1, by omega, by omega, by omega⟩

theorem Observation.sane {p : Proc} {s : Sentence} (h : Observation p s) (hops : ∀ o ∈ p.ops, 1 ≤ o.eviCnt) : SaneRule s := by
  obtain ⟨first, acts, act, last, n, args, name, _, _, _, _, _, h1, _, _, _, h2, h3, h4⟩ := h
  refine ⟨⟨_, _, _, h1⟩, h4, n, n, h3, ?_⟩
  obtain ⟨pre, o, post, ho, _, _, rfl⟩ := h2
  have := hops o (by rw [ho]; simp)
  omega

theorem ProcOp.run_inv {call : Call} (hcall : OnlyReports call) {decay : Int → Rat} {p p' : Proc} {op : ProcOp}
    (h : op.run call decay p = .ok p') (hi : ProcInv p) (hops : ∀ o ∈ p.ops, 1 ≤ o.eviCnt) :
    ProcInv p' ∧ p'.ops = p.ops ∧ HeapGrown p.mem.heap p'.mem.heap := by
  cases op with
  | event term => cases h; exact ⟨⟨hi.heap, hi.queue, hi.refs⟩, rfl, .refl _⟩
  | flush => cases h; exact ⟨⟨hi.heap, hi.queue, hi.refs⟩, rfl, .refl _⟩
  | goal term tv id =>
    obtain ⟨g, _, h⟩ := R.bind_ok.1 h
    cases h
    exact ⟨⟨hi.heap, hi.queue, hi.refs⟩, rfl, .refl _⟩
  | rule term tv id n rng =>
    obtain ⟨m, hm, h⟩ := R.bind_ok.1 h
    cases h
    obtain ⟨⟨l, hl, hx⟩, hv⟩ := memAddEvidence_spec hm
    refine ⟨⟨?_, hi.queue, hv hi.refs⟩, rfl, ?_⟩
    · intro b hb
      rw [show ({ p with mem := m } : Proc).mem.heap = p.mem.heap ++ l from hl] at hb
      rcases List.mem_append.1 hb with hb | hb
      · exact hi.heap b hb
      · exact (hx b hb).sane ⟨rfl, 10, 10, rfl, by omega, by omega, by omega⟩
    · show HeapGrown _ m.heap
      rw [hl]; exact .append _ _
  | step0 draws =>
    obtain ⟨heap, new, rfl, h1, _, h2, h3⟩ := narStep0_spec h
    have hg : ∀ (r : Nat) (b : Sentence), p.mem.heap[r]? = some b → ∃ b', heap[r]? = some b' ∧ Grown b b' := by
      intro r b hb
      obtain ⟨b', hb', hd⟩ := h3 r b hb
      exact ⟨b', hb', hd.grown⟩
    refine ⟨⟨?_, ?_, ?_⟩, rfl, hg⟩
    · intro b' hb'
      obtain ⟨b, hb, hbg⟩ := HeapGrown.mem h2 hg hb'
      exact (hi.heap b hb).grown hbg
    · intro m hm
      rcases List.mem_append.1 hm with hm | hm
      · exact hi.queue m hm
      · exact (h1 m hm).2.sane hops
    · intro c hc r hr
      show r < heap.length
      rw [h2]; exact hi.refs c hc r hr
  | step1 rng infs =>
    obtain ⟨⟨p1, act⟩, hn, rfl⟩ := R.map_ok.1 h
    obtain ⟨g, g2, an, evs, concepts, goals, _, _, _, rfl, _, h1, _⟩ := narStep1_spec hcall hn
    exact ⟨⟨hi.heap, hi.queue, fun c hc => hi.refs c (h1 c hc)⟩, rfl, .refl _⟩
  | worker rng =>
    cases h
    unfold workerStep
    split
    · split
      · exact ⟨hi, rfl, .refl _⟩
      · rename_i s time rest hq
        have hs : SaneRule s := hi.queue (s, time) (by rw [hq]; simp)
        obtain ⟨g1, g2, g3⟩ := workerStore_grown (m := p.mem) (now := time) (n := p.nConceptBeliefs) (rng := rng) hs.2.1 hs.2.2
        exact ⟨⟨g2 hi.heap, fun m hm => hi.queue m (by rw [hq]; exact List.mem_cons_of_mem _ hm), g3 hi.refs⟩, rfl, g1⟩
    · exact ⟨hi, rfl, .refl _⟩

theorem runProc_inv {call : Call} (hcall : OnlyReports call) {decay : Int → Rat} {p p' : Proc} {ops : List ProcOp}
    (h : runProc call decay p ops = .ok p') (hi : ProcInv p) (hops : ∀ o ∈ p.ops, 1 ≤ o.eviCnt) :
    ProcInv p' ∧ p'.ops = p.ops ∧ HeapGrown p.mem.heap p'.mem.heap := by
  refine foldlM_inv (fun q : Proc => ProcInv q ∧ q.ops = p.ops ∧ HeapGrown p.mem.heap q.mem.heap) h ⟨hi, rfl, .refl _⟩ ?_
  rintro op _ q q' ⟨h1, h2, h3⟩ hq
  obtain ⟨k1, k2, k3⟩ := ProcOp.run_inv hcall hq h1 (by rw [h2]; exact hops)
  exact ⟨k1, k2.trans h2, h3.trans k3⟩

theorem Fresh.inv {p : Proc} (h : Fresh p) : ProcInv p where
  heap := by rw [h.1]; simp [PMem.empty]
  queue := by rw [h.2.2]; simp
  refs := by rw [h.1]; intro c hc; simp [PMem.empty] at hc

end Nar
