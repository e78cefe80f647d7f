import Verif.Lemmas.Whole2
import Verif.Lemmas.Proc4
import Verif.Lemmas.OpLib
import Verif.Props.Goal
/-! # The procedural part inside the whole reasoner: memory, goals, anticipations -/
namespace Nar
open Term

/-! ## tables of rules -/

/-- one concept per term, and tables of at most `n` rules -/
structure TabOk (n : Nat) (m : PMem) : Prop where
  once : (m.concepts.map (·.name)).Nodup
  bounded : ∀ c ∈ m.concepts, c.byExp.length ≤ n ∧ c.byUsage.length ≤ n

theorem TabOk.heap {n : Nat} {m : PMem} (h : TabOk n m) (heap : List Sentence) : TabOk n { m with heap := heap } :=
  ⟨h.once, h.bounded⟩

theorem storeTableP_length {key : Sentence → R Rat} {heap heap' : List Sentence} {table table' : List Nat}
    {s : Sentence} {n N : Nat} (h : storeTableP key heap table s n = .ok (heap', table')) (hn : n ≤ N)
    (hl : table.length ≤ N) : table'.length ≤ N := by
  unfold storeTableP at h
  obtain ⟨cells, _, h⟩ := R.bind_ok.1 h
  split at h
  · cases h; exact hl
  · obtain ⟨temp, ht, h⟩ := R.bind_ok.1 h
    obtain ⟨rfl, rfl⟩ := Prod.mk.inj (Except.ok.inj h)
    rw [List.length_take]; omega

theorem setC_names (cs : List PConcept) (c' : PConcept) : (PMem.setC cs c').map (·.name) = cs.map (·.name) := by
  unfold PMem.setC
  rw [List.map_map]
  apply List.map_congr_left
  intro c _
  simp only [Function.comp_apply]
  split
  · rename_i h; exact ((checkEqTerm_iff _ _).1 h).symm
  · rfl

theorem storeAtP_tab {s : Sentence} {n N : Nat} {now : Int} {m m' : PMem} {t : Term} (h : storeAtP s n now m t = .ok m')
    (hn : n ≤ N) (hN : 1 ≤ N) (hi : TabOk N m) : TabOk N m' := by
  unfold storeAtP at h
  split at h
  · rename_i c hc
    obtain ⟨⟨h1, e⟩, he, h⟩ := R.bind_ok.1 h
    obtain ⟨⟨h2, u⟩, hu, h⟩ := R.bind_ok.1 h
    cases h
    have hb := hi.bounded c (PMem.get_some hc).1
    refine ⟨by rw [setC_names]; exact hi.once, ?_⟩
    intro d hd
    simp only [PMem.setC, List.mem_map] at hd
    obtain ⟨d0, hd0, rfl⟩ := hd
    split
    · exact ⟨storeTableP_length he hn hb.1, storeTableP_length hu hn hb.2⟩
    · exact hi.bounded d0 hd0
  · rename_i hnone
    cases h
    refine ⟨?_, ?_⟩
    · rw [List.map_append, List.nodup_append]
      refine ⟨hi.once, by simp, ?_⟩
      intro a ha b hb
      simp only [List.map_cons, List.map_nil, List.mem_singleton] at hb
      subst hb
      obtain ⟨c, hc, rfl⟩ := List.mem_map.1 ha
      intro heq
      unfold PMem.get at hnone
      have := List.find?_eq_none.1 hnone c hc
      exact this ((checkEqTerm_iff _ _).2 heq)
    · intro d hd
      rcases List.mem_append.1 hd with hd | hd
      · exact hi.bounded d hd
      · rw [List.mem_singleton] at hd; subst hd
        exact ⟨hN, hN⟩

theorem memAddEvidenceInternal_tab {m m' : PMem} {s : Sentence} {n N : Nat} {now : Int}
    (h : memAddEvidenceInternal m s n now = .ok m') (hn : n ≤ N) (hN : 1 ≤ N) (hi : TabOk N m) : TabOk N m' := by
  unfold memAddEvidenceInternal at h
  obtain ⟨cond, _, h⟩ := R.bind_ok.1 h
  obtain ⟨pred, _, h⟩ := R.bind_ok.1 h
  unfold storeInConcepts2P at h
  split at h
  · cases h; exact hi
  · exact foldlM_inv (TabOk N) h hi (fun _ _ _ _ hx hs => storeAtP_tab hs hn hN hx)

theorem memAddEvidence_tab {m m' : PMem} {s : Sentence} {n N : Nat} {now : Int} {rng : List Nat}
    (h : memAddEvidence m s n now rng = .ok m') (hn : n ≤ N) (hN : 1 ≤ N) (hi : TabOk N m) : TabOk N m' := by
  unfold memAddEvidence at h
  obtain ⟨m1, h1, h⟩ := R.bind_ok.1 h
  obtain ⟨⟨out, rng'⟩, h2, h⟩ := R.bind_ok.1 h
  exact foldlM_inv (TabOk N) h (memAddEvidenceInternal_tab h1 hn hN hi)
    (fun _ _ _ _ hx hs => memAddEvidenceInternal_tab hs hn hN hx)

theorem workerAdd_tab {m : PMem} {s : Sentence} {n N : Nat} {now : Int} {rng : List Nat} (hn : n ≤ N) (hN : 1 ≤ N)
    (hi : TabOk N m) : TabOk N (workerAdd m s n now rng).1 := by
  unfold workerAdd
  split
  · exact hi
  · rename_i m1 h1
    have hi1 := memAddEvidenceInternal_tab h1 hn hN hi
    split
    · exact hi1
    · split
      · exact hi1
      · rename_i h2
        exact foldlM_inv (TabOk N) h2 hi1 (fun _ _ _ _ hx hs => memAddEvidenceInternal_tab hs hn hN hx)

theorem workerStore_tab {m : PMem} {s : Sentence} {now : Int} {n N : Nat} {rng : List Nat} (hn : n ≤ N) (hN : 1 ≤ N)
    (hi : TabOk N m) : TabOk N (workerStore m s now n rng).1 := by
  unfold workerStore
  split
  · exact hi
  · split
    · exact hi.heap _
    · exact workerAdd_tab hn hN (hi.heap _)
    · exact hi.heap _

theorem workerStep_frame (p : Proc) (rng : List Nat) :
    ∃ m q w, workerStep p rng = { p with mem := m, queue := q, workerAlive := w } := by
  unfold workerStep
  split
  · split
    · exact ⟨p.mem, p.queue, p.workerAlive, rfl⟩
    · exact ⟨_, _, _, rfl⟩
  · exact ⟨p.mem, p.queue, p.workerAlive, rfl⟩

theorem workerStep_tab {p : Proc} {rng : List Nat} {N : Nat} (hn : p.nConceptBeliefs ≤ N) (hN : 1 ≤ N)
    (hi : TabOk N p.mem) : TabOk N (workerStep p rng).mem := by
  unfold workerStep
  split
  · split
    · exact hi
    · exact workerStore_tab hn hN hi
  · exact hi

theorem limitMemoryP_tab {m m' : PMem} {n N : Nat} (h : limitMemoryP m n = .ok m') (hi : TabOk N m) : TabOk N m' := by
  refine ⟨?_, ?_⟩
  · unfold limitMemoryP at h
    split at h
    · cases h; exact hi.once
    · obtain ⟨l, hl, h⟩ := R.bind_ok.1 h
      cases h
      have h1 : (((sortDesc l).map (·.2)).map (·.name)).Nodup := by
        have hp : (((sortDesc l).map (·.2)).map (·.name)).Perm (m.concepts.map (·.name)) := by
          rw [← (keyed_ok_map hl).1]
          exact ((sortDesc_perm l).map _).map _
        exact hp.nodup_iff.2 hi.once
      exact h1.sublist ((List.Sublist.map _ (List.take_sublist _ _)).map _)
  · obtain ⟨cs, rfl, _, hsub, _⟩ := limitMemoryP_spec h
    exact fun c hc => hi.bounded c (hsub c hc)

theorem narStep1_tab {call : Call} (hcall : OnlyReports call) {decay : Int → Rat} {p p' : Proc} {rng : List Nat}
    {infs : List (Rat × Rat × List Nat)} {act : Option Term} (h : narStep1 call decay p rng infs = .ok (p', act))
    {N : Nat} (hi : TabOk N p.mem) : TabOk N p'.mem := by
  unfold narStep1 at h
  obtain ⟨⟨p1, picked, rng1⟩, h1, h⟩ := R.bind_ok.1 h
  obtain ⟨⟨p2, executed⟩, h2, h⟩ := R.bind_ok.1 h
  obtain ⟨p3, h3, h⟩ := R.bind_ok.1 h
  obtain ⟨p4, h4, h⟩ := R.bind_ok.1 h
  cases h
  have e1 : p1.mem = p.mem := by
    obtain ⟨g, _, hd⟩ := decideAction_spec h1
    rcases hd with ⟨e, i, r, b, iv, _, _, _, _, _, _, _, rfl⟩ | ⟨_, rfl, _⟩ <;> rfl
  have e2 : p2.mem = p1.mem := by
    rcases execute_spec hcall h2 with ⟨_, rfl, _⟩ | ⟨t, args, name, q, evs, _, _, _, _, _, _, rfl⟩ <;> rfl
  have h3m : TabOk N p3.mem := by
    unfold limitAll at h3
    obtain ⟨mem, hm, h3⟩ := R.bind_ok.1 h3
    obtain ⟨goals, _, h3⟩ := R.bind_ok.1 h3
    cases h3
    show TabOk N mem
    unfold limitMem at hm
    rw [e2, e1] at hm
    split at hm
    · exact limitMemoryP_tab hm hi
    · cases hm; exact hi
  obtain ⟨goals', rfl, _⟩ := inferGoals_spec (decay := decay) h4
  exact h3m

/-! ## goals -/

theorem runGoals_snoc {decay : Int → Rat} {n d : Int} {ops : List GoalOp} {g g' : GoalSystem}
    (h : runGoals decay n d ops = .ok g) {more : List GoalOp} (h' : more.foldlM (GoalOp.run decay) g = .ok g') :
    runGoals decay n d (ops ++ more) = .ok g' := by
  unfold runGoals
  rw [List.foldlM_append]
  exact R.bind_ok.2 ⟨g, h, h'⟩

/-- the goals are the result of some history of the goal system -/
def GoalsBy (decay : Int → Rat) (n d : Int) (g : GoalSystem) : Prop := ∃ ops, runGoals decay n d ops = .ok g

theorem GoalsBy.one {decay : Int → Rat} {n d : Int} {g g' : GoalSystem} (h : GoalsBy decay n d g) (op : GoalOp)
    (hop : op.run decay g = .ok g') : GoalsBy decay n d g' := by
  obtain ⟨ops, h⟩ := h
  exact ⟨ops ++ [op], runGoals_snoc h (foldlM_cons_ok.2 ⟨g', hop, foldlM_nil_ok.2 rfl⟩)⟩

theorem GoalsBy.many {decay : Int → Rat} {n d : Int} {g g' : GoalSystem} (h : GoalsBy decay n d g) (more : List GoalOp)
    (hop : more.foldlM (GoalOp.run decay) g = .ok g') : GoalsBy decay n d g' := by
  obtain ⟨ops, h⟩ := h
  exact ⟨ops ++ more, runGoals_snoc h hop⟩

theorem GoalsBy.satisfy {decay : Int → Rat} {n d : Int} {p : Proc} (h : GoalsBy decay n d p.goals) :
    GoalsBy decay n d (satisfyLast p) := by
  unfold satisfyLast
  split
  · exact h.one (.event _) rfl
  · exact h

theorem GoalsBy.step1 {call : Call} (hcall : OnlyReports call) {decay : Int → Rat} {p p' : Proc} {rng : List Nat}
    {infs : List (Rat × Rat × List Nat)} {act : Option Term} (h : narStep1 call decay p rng infs = .ok (p', act))
    {n d : Int} (hg : GoalsBy decay n d p.goals) : GoalsBy decay n d p'.goals := by
  obtain ⟨g, g2, an, evs, concepts, goals, had, hdec, _, rfl, _, _, _, hw⟩ := narStep1_spec hcall h
  have h1 : GoalsBy decay n d g := by
    rcases had with rfl | ⟨seq, x, r, b, acts, op, args, name, tv, _, _, _, _, _, _, hadd⟩
    · exact hg
    · exact hg.one (.add _ _ _ _) hadd
  have h2 : GoalsBy decay n d g2 := by
    rcases hdec with ⟨e, i, r, b, iv, _, _, _, _, _, _, rfl, _⟩ | ⟨_, rfl, _⟩
    · exact h1.one (.executed i) rfl
    · exact h1
  exact h2.many _ hw

/-! ## anticipations -/

/-- every anticipation was made at its own time, at most 17 before its deadline, and none is overdue -/
def AnticOk (t : Int) (l : List Anticipation) : Prop :=
  ∃ cs : List Int, List.Forall₂ (fun (a : Anticipation) c => c + 1 ≤ a.deadline ∧ a.deadline ≤ c + 17 ∧ t ≤ a.deadline ∧ c < t) l cs ∧
    cs.Pairwise (· < ·)

theorem strict_length (cs : List Int) : ∀ (lo hi : Int), cs.Pairwise (· < ·) → (∀ c ∈ cs, lo ≤ c ∧ c < hi) →
    cs = [] ∨ (cs.length : Int) ≤ hi - lo := by
  induction cs with
  | nil => intros; exact .inl rfl
  | cons c cs ih =>
    intro lo hi hp hb
    have hc := hb c (by simp)
    rw [List.pairwise_cons] at hp
    rcases ih (c + 1) hi hp.2 (fun x hx => ⟨by have := hp.1 x hx; omega, (hb x (List.mem_cons_of_mem _ hx)).2⟩) with rfl | h
    · right; simp; omega
    · right; simp only [List.length_cons]; push_cast; omega

theorem AnticOk.length {t : Int} {l : List Anticipation} (h : AnticOk t l) : l.length ≤ 17 := by
  obtain ⟨cs, h1, h2⟩ := h
  rw [h1.length_eq]
  have : ∀ c ∈ cs, t - 17 ≤ c ∧ c < t := by
    intro c hc
    obtain ⟨i, hi, rfl⟩ := List.mem_iff_getElem.1 hc
    have := h1.get (i := i) (by rw [h1.length_eq]; exact hi) hi
    simp only [List.get_eq_getElem] at this
    omega
  rcases strict_length cs (t - 17) t h2 this with rfl | h
  · simp
  · omega

theorem forall₂_filter {α β} {R : α → β → Prop} {l : List α} {m : List β} (h : List.Forall₂ R l m) (f : α → Bool) :
    ∃ m', List.Forall₂ (fun a b => R a b ∧ f a = true) (l.filter f) m' ∧ m'.Sublist m := by
  induction h with
  | nil => exact ⟨[], .nil, .refl _⟩
  | @cons a b l m hab _ ih =>
    obtain ⟨m', h1, h2⟩ := ih
    by_cases hf : f a = true
    · rw [List.filter_cons_of_pos hf]
      exact ⟨b :: m', .cons ⟨hab, hf⟩ h1, h2.cons_cons b⟩
    · rw [List.filter_cons_of_neg hf]
      exact ⟨m', h1, h2.cons b⟩

/-- after overdue anticipations are removed, at most one new one is made in the step -/
theorem AnticOk.step {t : Int} {l : List Anticipation} (h : AnticOk t l) (f : Anticipation → Bool)
    (hf : ∀ a, f a = true → t < a.deadline) {new : List Anticipation}
    (hnew : new = [] ∨ ∃ a, new = [a] ∧ t + 1 ≤ a.deadline ∧ a.deadline ≤ t + 17) : AnticOk (t + 1) (l.filter f ++ new) := by
  obtain ⟨cs, h1, h2⟩ := h
  obtain ⟨cs', k1, k2⟩ := forall₂_filter h1 f
  have hp := h2.sublist k2
  have k1' : List.Forall₂ (fun (a : Anticipation) c => c + 1 ≤ a.deadline ∧ a.deadline ≤ c + 17 ∧ t + 1 ≤ a.deadline ∧ c < t + 1)
      (l.filter f) cs' := by
    refine k1.imp ?_
    rintro a c ⟨⟨h1, h2, h3, h4⟩, h5⟩
    have := hf a h5
    omega
  rcases hnew with rfl | ⟨a, rfl, ha, ha'⟩
  · rw [List.append_nil]; exact ⟨cs', k1', hp⟩
  · refine ⟨cs' ++ [t], List.rel_append k1' (.cons ⟨by omega, by omega, by omega, by omega⟩ .nil), ?_⟩
    rw [List.pairwise_append]
    refine ⟨hp, by simp, ?_⟩
    intro c hc x hx
    rw [List.mem_singleton] at hx; subst hx
    obtain ⟨i, hi, rfl⟩ := List.mem_iff_getElem.1 hc
    have := k1.get (i := i) (by rw [k1.length_eq]; exact hi) hi
    simp only [List.get_eq_getElem] at this
    omega

/-! ## the whole procedural part -/

/-- the fixed configuration of the reasoner -/
structure PCfg (p : Proc) : Prop where
  window : p.perceptWindow = 2
  threshold : p.threshold = 58/100
  nOpsMax : p.nOpsMax = 1
  anticipation : p.enAnticipation = true
  nConcepts : p.nConcepts = 1000
  nBeliefs : p.nConceptBeliefs = 100
  samples : p.samplesPerStep = 4
  table : p.table = [1, 2, 3, 4, 6, 8, 10, 13, 17]

/-- what holds of the procedural part of the reasoner between two actions -/
structure PWhole (env : Env) (p : Proc) : Prop where
  cfg : PCfg p
  ops : ∀ o ∈ p.ops, o.eviCnt = 3
  inv : ProcInv p
  tab : TabOk 100 p.mem
  goals : GoalsBy env.goalDecay 20 8 p.goals
  antic : AnticOk p.t p.anticipated

theorem libCall_reports : OnlyReports libCall := by
  intro name args p p' h
  unfold libCall at h
  obtain ⟨effs, _, h⟩ := R.bind_ok.1 h
  cases h
  clear * -
  induction effs generalizing p with
  | nil => exact ⟨[], by simp⟩
  | cons e effs ih =>
    rw [List.foldl_cons]
    obtain ⟨evs, h⟩ := ih (applyInject p e)
    have : ∃ evs0, applyInject p e = { p with trace := p.trace ++ evs0 } := by
      cases e
      · exact ⟨_, rfl⟩
      · exact ⟨[], by simp [applyInject]⟩
    obtain ⟨evs0, h0⟩ := this
    rw [h, h0]
    exact ⟨evs0 ++ evs, by simp⟩

theorem PWhole.init (env : Env) : PWhole env narInit where
  cfg := ⟨rfl, rfl, rfl, rfl, rfl, rfl, rfl, by decide⟩
  ops := by intro o ho; cases ho
  inv := Fresh.inv ⟨rfl, rfl, rfl⟩
  tab := ⟨List.nodup_nil, by intro c hc; cases hc⟩
  goals := ⟨[], rfl⟩
  antic := ⟨[], .nil, .nil⟩

theorem PCfg.interval {p : Proc} (h : PCfg p) {b : Sentence} {iv : Int} (he : ExpectedAfter p b iv) : 1 ≤ iv ∧ iv ≤ 17 := by
  obtain ⟨k, hk, _⟩ := he
  have := List.mem_of_getElem? hk
  rw [h.table] at this
  simp only [List.mem_cons, List.not_mem_nil, or_false] at this
  omega

theorem PWhole.evi {env : Env} {p : Proc} (h : PWhole env p) : ∀ o ∈ p.ops, 1 ≤ o.eviCnt := by
  intro o ho; rw [h.ops o ho]; omega

theorem PWhole.worker {env : Env} {p : Proc} (h : PWhole env p) (rng : List Nat) : PWhole env (workerStep p rng) := by
  have hi := (ProcOp.run_inv libCall_reports (decay := env.goalDecay) (op := .worker rng) rfl h.inv h.evi).1
  have ht := workerStep_tab (rng := rng) (N := 100) (by rw [h.cfg.nBeliefs]) (by omega) h.tab
  obtain ⟨m, q, w, he⟩ := workerStep_frame p rng
  rw [he] at hi ht ⊢
  exact ⟨⟨h.cfg.window, h.cfg.threshold, h.cfg.nOpsMax, h.cfg.anticipation, h.cfg.nConcepts, h.cfg.nBeliefs, h.cfg.samples,
    h.cfg.table⟩, h.ops, hi, ht, h.goals, h.antic⟩

/-- the state between the two parts of a step -/
structure PMid (env : Env) (p : Proc) : Prop where
  cfg : PCfg p
  ops : ∀ o ∈ p.ops, o.eviCnt = 3
  inv : ProcInv p
  tab : TabOk 100 p.mem
  goals : GoalsBy env.goalDecay 20 8 p.goals

theorem PMid.worker {env : Env} {p : Proc} (h : PMid env p) (rng : List Nat) : PMid env (workerStep p rng) := by
  have hi := (ProcOp.run_inv libCall_reports (decay := env.goalDecay) (op := .worker rng) rfl h.inv
    (by intro o ho; rw [h.ops o ho]; omega)).1
  have ht := workerStep_tab (rng := rng) (N := 100) (by rw [h.cfg.nBeliefs]) (by omega) h.tab
  obtain ⟨m, q, w, he⟩ := workerStep_frame p rng
  rw [he] at hi ht ⊢
  exact ⟨⟨h.cfg.window, h.cfg.threshold, h.cfg.nOpsMax, h.cfg.anticipation, h.cfg.nConcepts, h.cfg.nBeliefs, h.cfg.samples,
    h.cfg.table⟩, h.ops, hi, ht, h.goals⟩

theorem PMid.workers {env : Env} (rngs : List (List Nat)) : ∀ {p : Proc}, PMid env p →
    PMid env (rngs.foldl workerStep p) ∧ (rngs.foldl workerStep p).t = p.t ∧
      (rngs.foldl workerStep p).anticipated = p.anticipated := by
  induction rngs with
  | nil => intro p h; exact ⟨h, rfl, rfl⟩
  | cons r rs ih =>
    intro p h
    obtain ⟨h1, h2, h3⟩ := ih (h.worker r)
    obtain ⟨m, q, w, he⟩ := workerStep_frame p r
    rw [List.foldl_cons]
    exact ⟨h1, h2.trans (by rw [he]), h3.trans (by rw [he])⟩

theorem PWhole.kept (env : Env) : PKept env (PWhole env) where
  act := by
    intro p p' op h ho hr
    have hi := ProcOp.run_inv libCall_reports hr h.inv h.evi
    cases op with
    | event term =>
      cases hr
      exact ⟨⟨h.cfg.window, h.cfg.threshold, h.cfg.nOpsMax, h.cfg.anticipation, h.cfg.nConcepts, h.cfg.nBeliefs, h.cfg.samples,
        h.cfg.table⟩, h.ops, hi.1, h.tab, h.goals, h.antic⟩
    | flush =>
      cases hr
      exact ⟨⟨h.cfg.window, h.cfg.threshold, h.cfg.nOpsMax, h.cfg.anticipation, h.cfg.nConcepts, h.cfg.nBeliefs, h.cfg.samples,
        h.cfg.table⟩, h.ops, hi.1, h.tab, h.goals, h.antic⟩
    | goal term tv id =>
      obtain ⟨g, hg, hr⟩ := R.bind_ok.1 hr
      cases hr
      exact ⟨⟨h.cfg.window, h.cfg.threshold, h.cfg.nOpsMax, h.cfg.anticipation, h.cfg.nConcepts, h.cfg.nBeliefs, h.cfg.samples,
        h.cfg.table⟩, h.ops, hi.1, h.tab, h.goals.one (.add _ _ _ _) hg, h.antic⟩
    | rule term tv id n rng =>
      obtain ⟨m, hm, hr⟩ := R.bind_ok.1 hr
      cases hr
      have hn : n = 20 := ho
      exact ⟨⟨h.cfg.window, h.cfg.threshold, h.cfg.nOpsMax, h.cfg.anticipation, h.cfg.nConcepts, h.cfg.nBeliefs, h.cfg.samples,
        h.cfg.table⟩, h.ops, hi.1, memAddEvidence_tab hm (by omega) (by omega) h.tab, h.goals, h.antic⟩
    | step0 _ => exact ho.elim
    | step1 _ _ => exact ho.elim
    | worker rng => cases hr; exact h.worker rng
  step := by
    intro p p1 p2 draws between rng infs h h0 h1
    have hi0 := (ProcOp.run_inv libCall_reports h0 h.inv h.evi).1
    obtain ⟨heap, new, hp1, _⟩ := narStep0_spec h0
    have hmid : PMid env p1 := by
      refine ⟨?_, ?_, hi0, ?_, ?_⟩ <;> rw [hp1]
      · exact ⟨h.cfg.window, h.cfg.threshold, h.cfg.nOpsMax, h.cfg.anticipation, h.cfg.nConcepts, h.cfg.nBeliefs,
          h.cfg.samples, h.cfg.table⟩
      · exact h.ops
      · exact h.tab.heap _
      · exact h.goals.satisfy
    have ht1 : p1.t = p.t := by rw [hp1]
    have ha1 : ∃ f : Anticipation → Bool, p1.anticipated = p.anticipated.filter f ∧ ∀ a, f a = true → p.t < a.deadline := by
      classical
      refine ⟨fun a => decide (p.t < a.deadline ∧ ¬ Confirmed p a), by rw [hp1], ?_⟩
      intro a ha; exact (of_decide_eq_true ha).1
    obtain ⟨f, hf1, hf2⟩ := ha1
    obtain ⟨hw, ht, ha⟩ := hmid.workers between
    rw [ht1] at ht
    rw [hf1] at ha
    generalize between.foldl workerStep p1 = q at hw ht ha h1
    have hi1 := (ProcOp.run_inv libCall_reports h1 hw.inv (by intro o ho; rw [hw.ops o ho]; omega)).1
    obtain ⟨⟨q2, act⟩, hn, rfl⟩ := R.map_ok.1 h1
    have htab := narStep1_tab libCall_reports hn hw.tab
    have hgoals := GoalsBy.step1 libCall_reports hn hw.goals
    obtain ⟨g, g2, an, evs, concepts, goals, _, hdec, _, rfl, _⟩ := narStep1_spec libCall_reports hn
    refine ⟨⟨hw.cfg.window, hw.cfg.threshold, hw.cfg.nOpsMax, hw.cfg.anticipation, hw.cfg.nConcepts, hw.cfg.nBeliefs,
      hw.cfg.samples, hw.cfg.table⟩, hw.ops, hi1, htab, hgoals, ?_⟩
    show AnticOk (q.t + 1) an
    rw [ht]
    have key : ∃ newA, an = q.anticipated ++ newA ∧
        (newA = [] ∨ ∃ a, newA = [a] ∧ p.t + 1 ≤ a.deadline ∧ a.deadline ≤ p.t + 17) := by
      rcases hdec with ⟨e, i, r, b, iv, _, _, _, _, _, hiv, _, rfl, _⟩ | ⟨_, _, rfl, _⟩
      · rw [if_pos hw.cfg.anticipation]
        have := hw.cfg.interval hiv
        refine ⟨_, rfl, .inr ⟨_, rfl, ?_⟩⟩
        rw [ht]
        show p.t + 1 ≤ p.t + iv ∧ p.t + iv ≤ p.t + 17
        omega
      · exact ⟨[], by simp, .inl rfl⟩
    obtain ⟨newA, rfl, hA⟩ := key
    rw [ha]
    exact h.antic.step f hf2 hA
  register := by
    intro p op h he
    refine ⟨⟨h.cfg.window, h.cfg.threshold, h.cfg.nOpsMax, h.cfg.anticipation, h.cfg.nConcepts, h.cfg.nBeliefs, h.cfg.samples,
        h.cfg.table⟩, ?_, ⟨h.inv.heap, h.inv.queue, h.inv.refs⟩, h.tab, h.goals, h.antic⟩
    intro o ho
    rcases List.mem_append.1 ho with ho | ho
    · exact h.ops o ho
    · rw [List.mem_singleton] at ho; subst ho; exact he
  babbling := by
    intro p b h
    exact ⟨⟨h.cfg.window, h.cfg.threshold, h.cfg.nOpsMax, h.cfg.anticipation, h.cfg.nConcepts, h.cfg.nBeliefs, h.cfg.samples,
        h.cfg.table⟩, h.ops, ⟨h.inv.heap, h.inv.queue, h.inv.refs⟩, h.tab, h.goals, h.antic⟩

theorem runNar_PWhole {env : Env} {ops : List NarOp} {r : Reasoner} (h : runNar env ops = .ok r) : PWhole env r.proc :=
  moreNar_WProc (PWhole.kept env) h (sh0 := createShared) (log0 := []) (runNar_WDecl (ops := []) rfl) (PWhole.init env)

/-- rules only grow -/
theorem ProcMore.grown {env : Env} {p0 p : Proc} (h : ProcMore env p0 p) (h0 : PWhole env p0) :
    HeapGrown p0.mem.heap p.mem.heap := by
  have key : PWhole env p ∧ HeapGrown p0.mem.heap p.mem.heap := by
    induction h with
    | start => exact ⟨h0, .refl _⟩
    | act op _ ho hr ih =>
      exact ⟨(PWhole.kept env).act _ _ op ih.1 ho hr, ih.2.trans (ProcOp.run_inv libCall_reports hr ih.1.inv ih.1.evi).2.2⟩
    | @step p p1 p2 d b r i _ h1 h2 ih =>
      have k0 := ProcOp.run_inv libCall_reports h1 ih.1.inv ih.1.evi
      have kb : ∀ (b : List (List Nat)) (q : Proc), ProcInv q → (∀ o ∈ q.ops, 1 ≤ o.eviCnt) →
          ProcInv (b.foldl workerStep q) ∧ (b.foldl workerStep q).ops = q.ops ∧
          HeapGrown q.mem.heap (b.foldl workerStep q).mem.heap := by
        intro b
        induction b with
        | nil => intro q hq _; exact ⟨hq, rfl, .refl _⟩
        | cons x xs ihx =>
          intro q hq ho
          obtain ⟨w1, w2, w3⟩ := ProcOp.run_inv libCall_reports (decay := env.goalDecay) (op := .worker x) rfl hq ho
          obtain ⟨v1, v2, v3⟩ := ihx _ w1 (by rw [w2]; exact ho)
          exact ⟨v1, v2.trans w2, w3.trans v3⟩
      obtain ⟨v1, v2, v3⟩ := kb b p1 k0.1 (by rw [k0.2.1]; exact ih.1.evi)
      have k1 := ProcOp.run_inv libCall_reports h2 v1 (by rw [v2, k0.2.1]; exact ih.1.evi)
      exact ⟨(PWhole.kept env).step _ _ _ d b r i ih.1 h1 h2, ih.2.trans (k0.2.2.trans (v3.trans k1.2.2))⟩
    | register op _ he ih => exact ⟨(PWhole.kept env).register _ op ih.1 he, ih.2⟩
    | babbling b _ ih => exact ⟨(PWhole.kept env).babbling _ b ih.1, ih.2⟩
  exact key.2

/-! ## a told rule cuts the tables it is put in -/

/-- the concept named `t`, if there is one, has at most `n` rules in each table -/
def Short (n : Nat) (t : Term) (m : PMem) : Prop :=
  ∀ c ∈ m.concepts, c.name = t → c.byExp.length ≤ n ∧ c.byUsage.length ≤ n

/-- the concept named `t` has no rule with the statement of `s` -/
def Unknown (s : Sentence) (t : Term) (m : PMem) : Prop :=
  ∀ c ∈ m.concepts, c.name = t → ∀ r, r ∈ c.byExp ∨ r ∈ c.byUsage → ∃ b, m.heap[r]? = some b ∧ b.term ≠ s.term

theorem storeTableP_cut {key : Sentence → R Rat} {heap heap' : List Sentence} {table table' : List Nat}
    {s : Sentence} {n : Nat} (h : storeTableP key heap table s n = .ok (heap', table'))
    (hu : ∀ r ∈ table, ∃ b, heap[r]? = some b ∧ b.term ≠ s.term) : table'.length ≤ n := by
  unfold storeTableP at h
  obtain ⟨cells, hc, h⟩ := R.bind_ok.1 h
  split at h
  · rename_i hd
    obtain ⟨b, hb, he, _⟩ := (dependentBelief_iff _ _).1 hd
    have hf := mapM_ok_iff.1 hc
    obtain ⟨r, hr, hrb⟩ := forall₂_right_mem hf hb
    obtain ⟨b', hb', hne⟩ := hu r hr
    rw [indexAt_ok.1 hrb] at hb'
    cases hb'
    exact absurd he hne
  · obtain ⟨temp, ht, h⟩ := R.bind_ok.1 h
    obtain ⟨rfl, rfl⟩ := Prod.mk.inj (Except.ok.inj h)
    rw [List.length_take]; omega

theorem storeAtP_short {s : Sentence} {n : Nat} {now : Int} {m m' : PMem} {t t' : Term} (hn : 1 ≤ n)
    (h : storeAtP s n now m t' = .ok m') :
    (Short n t m → Short n t m') ∧ (Unknown s t m → (t' = t → Short n t m') ∧ (t' ≠ t → Unknown s t m')) := by
  unfold storeAtP at h
  split at h
  · rename_i c hc
    obtain ⟨⟨h1, e⟩, he, h⟩ := R.bind_ok.1 h
    obtain ⟨⟨h2, u⟩, hu, h⟩ := R.bind_ok.1 h
    cases h
    obtain ⟨hcm, hcn⟩ := PMem.get_some hc
    obtain ⟨⟨k1, rfl⟩, _⟩ := storeTableP_spec he
    obtain ⟨⟨k2, rfl⟩, _⟩ := storeTableP_spec hu
    have hget : ∀ {r : Nat} {b : Sentence} (l : List Sentence), m.heap[r]? = some b → (m.heap ++ l)[r]? = some b := by
      intro r b l hb
      rw [List.getElem?_append_left (List.getElem?_eq_some_iff.1 hb).1, hb]
    refine ⟨?_, ?_⟩
    · intro hs d hd hdn
      simp only [PMem.setC, List.mem_map] at hd
      obtain ⟨d0, hd0, rfl⟩ := hd
      split at hdn
      · rename_i heq
        rw [if_pos heq]
        have := hs c hcm hdn
        exact ⟨storeTableP_length he (le_refl _) this.1, storeTableP_length hu (le_refl _) this.2⟩
      · rename_i heq
        rw [if_neg heq]
        exact hs d0 hd0 hdn
    · intro hk
      refine ⟨?_, ?_⟩
      · intro htt d hd hdn
        subst htt
        simp only [PMem.setC, List.mem_map] at hd
        obtain ⟨d0, hd0, rfl⟩ := hd
        split at hdn
        · rename_i heq
          rw [if_pos heq]
          have := hk c hcm hcn
          refine ⟨storeTableP_cut he (fun r hr => this r (.inl hr)), storeTableP_cut hu ?_⟩
          intro r hr
          obtain ⟨b, hb, hne⟩ := this r (.inr hr)
          exact ⟨b, hget _ hb, hne⟩
        · rename_i heq
          exact absurd ((checkEqTerm_iff _ _).2 (hdn.trans hcn.symm)) heq
      · intro htt d hd hdn
        simp only [PMem.setC, List.mem_map] at hd
        obtain ⟨d0, hd0, rfl⟩ := hd
        split at hdn
        · exact absurd (hcn.symm.trans hdn) htt
        · rename_i heq
          rw [if_neg heq]
          intro r hr
          obtain ⟨b, hb, hne⟩ := hk d0 hd0 hdn r hr
          exact ⟨b, by simp only [List.append_assoc]; exact hget _ hb, hne⟩
  · cases h
    refine ⟨?_, ?_⟩
    · intro hs d hd hdn
      rcases List.mem_append.1 hd with hd | hd
      · exact hs d hd hdn
      · rw [List.mem_singleton] at hd; subst hd; exact ⟨hn, hn⟩
    · intro hk
      rename_i hnone
      refine ⟨?_, ?_⟩
      · intro htt d hd hdn
        subst htt
        rcases List.mem_append.1 hd with hd | hd
        · unfold PMem.get at hnone
          exact absurd ((checkEqTerm_iff _ _).2 hdn) (List.find?_eq_none.1 hnone d hd)
        · rw [List.mem_singleton] at hd; subst hd; exact ⟨hn, hn⟩
      · intro htt d hd hdn
        rcases List.mem_append.1 hd with hd | hd
        · intro r hr
          obtain ⟨b, hb, hne⟩ := hk d hd hdn r hr
          exact ⟨b, by rw [List.getElem?_append_left (List.getElem?_eq_some_iff.1 hb).1, hb], hne⟩
        · rw [List.mem_singleton] at hd; subst hd
          exact absurd hdn htt

theorem storeAll_short {s : Sentence} {n : Nat} {now : Int} {t : Term} (hn : 1 ≤ n) (ts : List Term) :
    ∀ {m m' : PMem}, ts.foldlM (storeAtP s n now) m = .ok m' →
      (Short n t m → Short n t m') ∧ (Unknown s t m → t ∈ ts → Short n t m') := by
  induction ts with
  | nil => intro m m' h; cases h; exact ⟨id, fun _ h => by cases h⟩
  | cons x xs ih =>
    intro m m' h
    obtain ⟨m1, h1, h2⟩ := foldlM_cons_ok.1 h
    obtain ⟨a1, a2⟩ := storeAtP_short (t := t) hn h1
    obtain ⟨b1, b2⟩ := ih h2
    refine ⟨fun hs => b1 (a1 hs), ?_⟩
    intro hk hm
    by_cases hx : x = t
    · exact b1 ((a2 hk).1 hx)
    · rcases List.mem_cons.1 hm with rfl | hm
      · exact absurd rfl hx
      · exact b2 ((a2 hk).2 hx) hm

theorem memAddEvidenceInternal_short {s : Sentence} {n : Nat} {now : Int} {m m' : PMem} {t : Term} (hn : 1 ≤ n)
    (h : memAddEvidenceInternal m s n now = .ok m') :
    (Short n t m → Short n t m') ∧ (∀ cond acts effect, s.term = rule cond acts effect → s.punct = .JUGEMENT →
      IsSubterm t cond ∨ IsSubterm t effect → Unknown s t m → Short n t m') := by
  unfold memAddEvidenceInternal at h
  obtain ⟨cond, hc, h⟩ := R.bind_ok.1 h
  obtain ⟨pred, hp, h⟩ := R.bind_ok.1 h
  unfold storeInConcepts2P at h
  split at h
  · rename_i hj
    cases h
    exact ⟨id, fun _ _ _ _ hj' => absurd hj' hj⟩
  · obtain ⟨a1, a2⟩ := storeAll_short (t := t) hn _ h
    refine ⟨a1, ?_⟩
    intro cond' acts effect he _ hsub hk
    have e1 : cond = cond' := by rw [he] at hc; exact (Except.ok.inj hc).symm
    have e2 : pred = effect := by rw [he] at hp; exact (Except.ok.inj hp).symm
    subst e1 e2
    refine a2 hk ?_
    rw [List.mem_append, mem_retSubterms, mem_retSubterms]
    exact hsub

theorem memAddEvidence_short {s : Sentence} {n : Nat} {now : Int} {m m' : PMem} {t : Term} {rng : List Nat} (hn : 1 ≤ n)
    (h : memAddEvidence m s n now rng = .ok m') {cond effect : Term} {acts : List Term} (he : s.term = rule cond acts effect)
    (hj : s.punct = .JUGEMENT) (ht : IsSubterm t cond ∨ IsSubterm t effect) (hk : Unknown s t m) : Short n t m' := by
  unfold memAddEvidence at h
  obtain ⟨m1, h1, h⟩ := R.bind_ok.1 h
  obtain ⟨⟨out, rng'⟩, h2, h⟩ := R.bind_ok.1 h
  exact foldlM_inv (Short n t) h ((memAddEvidenceInternal_short hn h1).2 _ _ _ he hj ht hk)
    (fun _ _ _ _ hx hs => (memAddEvidenceInternal_short hn hs).1 hx)

end Nar
