import Verif.Spec.Programs
import Verif.Lemmas.Proc8
import Verif.Lemmas.Pong
import Verif.Lemmas.Nar
/-! # Lemmas about the programs with an environment: the steps of the reasoner -/
namespace Nar
open Term

/-- the event can be printed and ascribes no property -/
def NoProp (t : Term) : Prop := Printable t ∧ ∀ x ps, t ≠ Stmt .INH x (SetInt ps)

theorem noProp_name (n : String) : NoProp (Name n) := ⟨printable_name n, fun _ _ h => by cases h⟩

theorem noProp_call {t : Term} {args : List Term} {name : String} (h : IsCall t args name) (ht : Printable t) : NoProp t := by
  obtain ⟨_, rfl⟩ := h
  refine ⟨ht, ?_⟩
  intro x ps h
  cases h

theorem NoProp.plain {t : Term} (h : NoProp t) (ops : List Op) : PlainEvent ops t :=
  ⟨h.1, fun x ps e => absurd e (h.2 x ps)⟩

theorem matchandintro_noProp {c e : Term} {acts : List Term} (h : NoProp c) (rng : List Nat) :
    matchandintroVar1 (rule c acts e) rng = .ok ([], rng) := by
  unfold matchandintroVar1
  split
  · rename_i h'
    unfold rule at h'
    cases h'
    exact absurd rfl (h.2 _ _)
  · rfl

/-- what safety needs of the reasoner in a program with an environment -/
structure EnvSafe (p : Proc) : Prop where
  safe : PSafe p
  trace : ∀ e ∈ p.trace, NoProp e.name
  queue : ∀ m ∈ p.queue, ∀ rng, matchandintroVar1 m.1.term rng = .ok ([], rng)

theorem workerStore_noVar {m : PMem} {s : Sentence} {now : Int} {n : Nat} {rng : List Nat}
    (h : ∀ rng, matchandintroVar1 s.term rng = .ok ([], rng)) : workerStore m s now n rng = workerStore m s now n [] := by
  have : ∀ m', workerAdd m' s n now rng = workerAdd m' s n now [] := by
    intro m'
    unfold workerAdd matchandintroVar1Sentence
    rw [h, h]
    rfl
  unfold workerStore
  simp only [this]

theorem workerStep_noVar {p : Proc} {rng : List Nat} (h : EnvSafe p) : workerStep p rng = workerStep p [] := by
  unfold workerStep
  split
  · split
    · rfl
    · rename_i s time rest hq
      rw [workerStore_noVar (h.queue (s, time) (by rw [hq]; simp))]
  · rfl

theorem workerStep_rest (p : Proc) (rng : List Nat) : (workerStep p rng).trace = p.trace ∧ (workerStep p rng).t = p.t ∧
    (workerStep p rng).ops = p.ops ∧ (workerStep p rng).nOpsMax = p.nOpsMax ∧ ∀ m ∈ (workerStep p rng).queue, m ∈ p.queue := by
  unfold workerStep
  split
  · split
    · exact ⟨rfl, rfl, rfl, rfl, fun _ h => h⟩
    · rename_i s time rest hq
      exact ⟨rfl, rfl, rfl, rfl, fun m h => by rw [hq]; exact List.mem_cons_of_mem _ h⟩
  · exact ⟨rfl, rfl, rfl, rfl, fun _ h => h⟩

theorem workerSteps_frame (l : List (List Nat)) (p : Proc) : (l.foldl workerStep p).trace = p.trace ∧ (l.foldl workerStep p).t = p.t ∧
    (l.foldl workerStep p).ops = p.ops ∧ (l.foldl workerStep p).nOpsMax = p.nOpsMax := by
  induction l generalizing p with
  | nil => exact ⟨rfl, rfl, rfl, rfl⟩
  | cons a l ih =>
    obtain ⟨h1, h2, h3, h4⟩ := ih (workerStep p a)
    obtain ⟨k1, k2, k3, k4, _⟩ := workerStep_rest p a
    exact ⟨h1.trans k1, h2.trans k2, h3.trans k3, h4.trans k4⟩

theorem EnvSafe.worker {p : Proc} (h : EnvSafe p) (rng : List Nat) : EnvSafe (workerStep p rng) := by
  rw [workerStep_noVar h]
  obtain ⟨h1, h2, h3, h4, h5⟩ := workerStep_rest p []
  exact ⟨workerStep_safe h.safe (fun _ h => by cases h), by rw [h1]; exact h.trace, fun m hm => h.queue m (h5 m hm)⟩

theorem EnvSafe.workers {p : Proc} (h : EnvSafe p) (l : List (List Nat)) : EnvSafe (l.foldl workerStep p) := by
  induction l generalizing p with
  | nil => exact h
  | cons a l ih => exact ih (h.worker a)

theorem EnvSafe.step0 {p : Proc} (h : EnvSafe p) {draws : Nat → SampleDraws} (hd : ∀ i, (draws i).ops ≠ []) (hn : p.nOpsMax = 1) :
    ∃ p', narStep0 p draws = .ok p' ∧ EnvSafe p' ∧ p'.ops = p.ops ∧ p'.nOpsMax = p.nOpsMax ∧ p'.trace = p.trace ∧ p'.t = p.t := by
  rcases narStep0_safe h.safe draws with ⟨p', h1, h2, h3, h4⟩ | ⟨_, h2⟩
  · obtain ⟨heap, new, e, k1, _⟩ := narStep0_spec h1
    have ht : p'.trace = p.trace := by rw [e]
    refine ⟨p', h1, ⟨h2, by rw [ht]; exact h.trace, ?_⟩, h3, h4, ht, by rw [e]⟩
    intro m hm
    rw [e] at hm
    rcases List.mem_append.1 hm with hm | hm
    · exact h.queue m hm
    · obtain ⟨_, first, acts, act, last, n, args, name, hsub, _, _, _, _, hterm, _⟩ := k1 m hm
      rw [hterm]
      exact matchandintro_noProp (h.trace first (hsub.subset (by simp)))
  · obtain ⟨i, hi⟩ := h2 hn
    exact absurd hi (hd i)

theorem envCall_reports : OnlyReports envCall := fun _ _ p p' h => by
  cases h
  exact ⟨[], by simp⟩

theorem envCall_wellBehaved (ops : List Op) : WellBehaved ops envCall := fun _ _ p =>
  ⟨[], by simp [envCall], fun _ h => by cases h⟩

/-- the second part of a step with operators which do nothing to the reasoner -/
theorem narStep1_env {decay : Int → Rat} {p p' : Proc} {rng : List Nat} {infs : List (Rat × Rat × List Nat)}
    {act : Option Term} (h : narStep1 envCall decay p rng infs = .ok (p', act)) :
    p'.trace = newest 20 (p.trace ++ actionEvent p.t act) ∧ p'.t = p.t + 1 ∧ p'.ops = p.ops ∧ p'.queue = p.queue ∧
      p'.nOpsMax = p.nOpsMax ∧ p'.mem.heap = p.mem.heap ∧ (∀ c ∈ p'.mem.concepts, c ∈ p.mem.concepts) ∧
      p'.enBabbling = p.enBabbling ∧
      (∀ t, act = some t → RegisteredCall p.ops t) := by
  have h0 := h
  unfold narStep1 at h
  obtain ⟨⟨p1, picked, rng1⟩, h1, h⟩ := R.bind_ok.1 h
  obtain ⟨⟨p2, executed⟩, h2, h⟩ := R.bind_ok.1 h
  obtain ⟨p3, h3, h⟩ := R.bind_ok.1 h
  obtain ⟨p4, h4, h⟩ := R.bind_ok.1 h
  cases h
  have hp1 : ∃ g an, p1 = { p with goals := g, anticipated := an } := by
    obtain ⟨g, hg, hd⟩ := decideAction_spec h1
    rcases hd with ⟨e, i, r, b, iv, k1, k2, k3, k4, k5, k6, k7, k8⟩ | ⟨k1, k2, k3⟩
    · exact ⟨_, _, k8⟩
    · exact ⟨_, _, k2⟩
  obtain ⟨g, an, rfl⟩ := hp1
  have hex : p2 = { p with goals := g, anticipated := an, trace := p.trace ++ actionEvent p.t act } ∧
      ∀ t, act = some t → RegisteredCall p.ops t := by
    rcases execute_spec envCall_reports h2 with ⟨rfl, rfl, k1⟩ | ⟨t, args, name, q1, evs, rfl, rfl, k1, k2, k3, k4, rfl⟩
    · exact ⟨by simp [actionEvent], fun t ht => by cases ht⟩
    · cases k3
      have : evs = [] := by
        have := congrArg Proc.trace k4
        simpa using this
      subst this
      refine ⟨by simp [actionEvent], ?_⟩
      intro t' ht'
      cases ht'
      exact k2
  obtain ⟨rfl, hreg⟩ := hex
  obtain ⟨concepts, goals, rfl, c1, c2, c3, c4⟩ := limitAll_spec h3
  obtain ⟨goals', rfl, hinf⟩ := inferGoals_spec (decay := decay) h4
  exact ⟨rfl, rfl, rfl, rfl, rfl, rfl, c2, rfl, hreg⟩

theorem registered_noProp {ops : List Op} {t : Term} (h : RegisteredCall ops t) (ht : Printable t) : NoProp t := by
  obtain ⟨args, name, h, _⟩ := h
  exact noProp_call h ht

theorem mem_newest {α} {n : Nat} {l : List α} {x : α} (h : x ∈ newest n l) : x ∈ l := List.mem_of_mem_drop h

theorem EnvSafe.step1 {p : Proc} (h : EnvSafe p) {decay : Int → Rat} (rng : List Nat) {infs : List (Rat × Rat × List Nat)}
    (hi : ∀ d ∈ infs, 0 ≤ d.2.1) :
    ∃ p' act, narStep1 envCall decay p rng infs = .ok (p', act) ∧ EnvSafe p' := by
  obtain ⟨p', act, h1, h2, _, _⟩ := narStep1_safe (decay := decay) (envCall_wellBehaved p.ops) h.safe rng hi
  obtain ⟨k1, k2, k3, k4, _, _, _, _, k5⟩ := narStep1_env h1
  refine ⟨p', act, h1, h2, ?_, by rw [k4]; exact h.queue⟩
  intro e he
  have htx := (h2.trace e he).2.1
  rw [k1] at he
  rcases List.mem_append.1 (mem_newest he) with he | he
  · exact h.trace e he
  · cases act with
    | none => cases he
    | some t =>
      rw [List.mem_singleton.1 he] at htx ⊢
      exact registered_noProp (k5 t rfl) htx

theorem EnvSafe.event {p : Proc} (h : EnvSafe p) {t : Term} (ht : NoProp t) : EnvSafe (eventHappened p ⟨t, p.t, p.t⟩) := by
  refine ⟨⟨h.safe.heap, h.safe.queue, h.safe.refs, h.safe.antic, h.safe.goals, ?_, h.safe.time, h.safe.table, h.safe.alive,
    h.safe.weights⟩, ?_, h.queue⟩
  · intro e he
    rcases List.mem_append.1 he with he | he
    · exact h.safe.trace e he
    · rw [List.mem_singleton.1 he]
      exact ⟨h.safe.time, ht.plain _⟩
  · intro e he
    rcases List.mem_append.1 he with he | he
    · exact h.trace e he
    · rw [List.mem_singleton.1 he]
      exact ht

/-- what is perceived in a step -/
def perceived (t : Int) : Option Term → List Event
  | some e => [⟨e, t, t⟩]
  | none => []

/-- a whole step -/
theorem envStep_spec {env : Env} {p p' : Proc} {event : Option Term} {d : RoundDraws} {act : Option Term}
    (h : envStep env p event d = .ok (p', act)) :
    p'.trace = newest 20 (p.trace ++ perceived p.t event ++ actionEvent p.t act) ∧ p'.t = p.t + 1 ∧ p'.ops = p.ops ∧
      p'.nOpsMax = p.nOpsMax ∧ (∀ t, act = some t → RegisteredCall p.ops t) := by
  unfold envStep at h
  obtain ⟨p1, h1, h⟩ := R.bind_ok.1 h
  obtain ⟨heap, new, rfl, _⟩ := narStep0_spec h1
  obtain ⟨k1, k2, k3, _, k5, _, _, _, k4⟩ := narStep1_env h
  cases event with
  | none =>
    simp only [workerSteps_frame] at k1 k2 k3 k4 k5
    exact ⟨by rw [k1]; simp [perceived], k2, k3, k5, k4⟩
  | some e =>
    simp only [workerSteps_frame, eventHappened] at k1 k2 k3 k4 k5
    exact ⟨by rw [k1]; rfl, k2, k3, k5, k4⟩

theorem EnvSafe.envStep {env : Env} {p : Proc} (h : EnvSafe p) (hn : p.nOpsMax = 1) {event : Option Term}
    (he : ∀ t, event = some t → NoProp t) {d : RoundDraws} (hd : d.Fair) :
    ∃ p' act, Nar.envStep env p event d = .ok (p', act) ∧ EnvSafe p' := by
  obtain ⟨p1, h1, s1, _⟩ := h.step0 hd.ops hn
  unfold Nar.envStep
  rw [h1]
  have s2 := s1.workers d.before
  cases event with
  | none => exact (s2.workers d.between).step1 d.decide hd.infs
  | some t => exact ((s2.event (he t rfl)).workers d.between).step1 d.decide hd.infs

theorem runProc_workers (call : Call) (decay : Int → Rat) (p : Proc) (l : List (List Nat)) :
    runProc call decay p (l.map .worker) = .ok (l.foldl workerStep p) := by
  induction l generalizing p with
  | nil => rfl
  | cons a l ih => exact ih (workerStep p a)

theorem runProc_app (call : Call) (decay : Int → Rat) (p : Proc) (a b : List ProcOp) :
    runProc call decay p (a ++ b) = (runProc call decay p a).bind fun p => runProc call decay p b := List.foldlM_append

theorem runProc_one (call : Call) (decay : Int → Rat) (p : Proc) (op : ProcOp) : runProc call decay p [op] = op.run call decay p := by
  show (op.run call decay p).bind _ = _
  cases op.run call decay p <;> rfl

theorem runProc_bind {call : Call} {decay : Int → Rat} {p p1 : Proc} {a : List ProcOp} (h : runProc call decay p a = .ok p1)
    (b : List ProcOp) : runProc call decay p (a ++ b) = runProc call decay p1 b := by
  rw [runProc_app, h]
  rfl

theorem runProc_error {call : Call} {decay : Int → Rat} {p : Proc} {e : Err} {a : List ProcOp} (h : runProc call decay p a = .error e)
    (b : List ProcOp) : runProc call decay p (a ++ b) = .error e := by
  rw [runProc_app, h]
  rfl

theorem envStep_history (env : Env) (p : Proc) (event : Option Term) (d : RoundDraws) :
    (envStep env p event d).map (·.1) = runProc envCall env.goalDecay p (stepOps event d) := by
  unfold stepOps envStep
  rw [List.append_assoc, List.append_assoc, List.append_assoc]
  cases h : narStep0 p d.perceive with
  | error e =>
    rw [runProc_error (e := e) (by rw [runProc_one]; exact h)]
    rfl
  | ok p1 =>
    rw [runProc_bind (p1 := p1) (by rw [runProc_one]; exact h), runProc_bind (runProc_workers _ _ _ _)]
    cases event with
    | none =>
      rw [runProc_bind (p1 := d.before.foldl workerStep p1) rfl, runProc_bind (runProc_workers _ _ _ _), runProc_one]
      rfl
    | some t =>
      rw [runProc_bind (p1 := inputEvent (d.before.foldl workerStep p1) t) rfl, runProc_bind (runProc_workers _ _ _ _), runProc_one]
      rfl

end Nar
