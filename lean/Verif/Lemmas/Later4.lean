import Verif.Lemmas.Later3
/-! # Later: histories -/
namespace Nar
open Term

theorem Oblivious.reports {call : Call} (h : Oblivious call) : OnlyReports call := by
  obtain ⟨reported, h⟩ := h
  intro name args p p' hp
  rw [h] at hp
  obtain ⟨ts, -, h2⟩ := R.map_ok.1 hp
  exact ⟨_, h2.symm⟩

namespace Delay
variable (δ : Delay)

theorem call {c : Call} (h : Oblivious c) {p : Proc} (hp : δ.id p.t = p.t + δ.shift) (n : String) (args : List Term) :
    c n args (δ.proc p) = (c n args p).map δ.proc := by
  obtain ⟨reported, h⟩ := h
  rw [h, h, show (δ.proc p).ops = p.ops from rfl]
  cases reported p.ops n args with
  | error e => rfl
  | ok ts =>
    simp only [Except.map, proc, List.map_append, List.map_map]
    congr 3
    refine List.map_congr_left fun t _ => ?_
    simp only [Function.comp, event, hp]

theorem narStep1 {start : Int} (hδ : δ.Regular start) {c : Call} (hc : Oblivious c) (decay : Int → Rat) {p : Proc} (ht : start ≤ p.t)
    (rng : List Nat) (infs : List (Rat × Rat × List Nat)) :
    Nar.narStep1 c decay (δ.proc p) rng infs = (Nar.narStep1 c decay p rng infs).map δ.acted := by
  unfold Nar.narStep1
  rw [decideAction δ hδ.nothing, R.bind_of_map, R.map_of_bind]
  refine R.bind_when fun d hd => ?_
  have h1 : d.1.t = p.t := by
    obtain ⟨p1, pk, r1⟩ := d
    obtain ⟨g, -, h⟩ := decideAction_spec hd
    rcases h with ⟨_, _, _, _, _, -, -, -, -, -, -, -, h⟩ | ⟨-, h, -⟩ <;> (show p1.t = p.t; rw [h])
  have he := δ.execute (call := c) (p := d.1) (fun n args => δ.call hc (hδ.now _ (h1 ▸ ht)) n args)
    (fun n args p1 hp1 => by
      obtain ⟨evs, rfl⟩ := hc.reports n args _ p1 hp1
      exact hδ.now _ (h1 ▸ ht)) d.2.1
  show (Nar.execute c (δ.proc d.1) d.2.1 >>= _) = _
  rw [he, R.bind_of_map, R.map_of_bind]
  refine R.bind_when fun e hx => ?_
  have h2 : e.1.t = p.t := by
    obtain ⟨p2, ex⟩ := e
    rcases execute_spec hc.reports hx with ⟨-, h, -⟩ | ⟨_, _, _, _, _, -, -, -, -, -, -, h⟩ <;> (show p2.t = p.t; rw [h]; exact h1)
  show (Nar.limitAll decay (δ.proc e.1) >>= _) = _
  rw [δ.limitAll hδ decay e.1 (h2 ▸ ht), R.bind_of_map, R.map_of_bind]
  refine R.bind_same fun p3 => ?_
  refine R.bind_rel (δ.inferGoals p3 infs) fun p4 => ?_
  simp only [Except.map, acted, proc]
  congr 3
  omega

theorem inputEvent {p : Proc} (hp : δ.id p.t = p.t + δ.shift) (t : Term) : Nar.inputEvent (δ.proc p) t = δ.proc (Nar.inputEvent p t) := by
  simp only [Nar.inputEvent, eventHappened, proc, List.map_append, List.map_cons, List.map_nil, event, hp]

theorem inputGoal (p : Proc) (t : Term) (tv : Tv) (id : Int) : Nar.inputGoal (δ.proc p) t tv (δ.id id) = (Nar.inputGoal p t tv id).map δ.proc := by
  unfold Nar.inputGoal
  exact R.bind_rel (δ.addEntry p.goals p.t (newEternalSentenceByTv t .GOAL tv ⟨[id]⟩) none 0) fun g => rfl

end Delay

/-- no procedural belief was ever used in an inference of the declarative reasoner: they are kept apart -/
structure PUnused (p : Proc) : Prop where
  heap : ∀ b ∈ p.mem.heap, Unused b
  queue : ∀ m ∈ p.queue, Unused m.1

theorem unused_later (δ : Delay) {l : List Sentence} (h : ∀ b ∈ l, Unused b) : ∀ b ∈ l.map δ.sentence, Unused b := by
  intro b hb
  obtain ⟨a, ha, rfl⟩ := List.mem_map.1 hb
  exact h a ha

namespace Delay
variable (δ : Delay)

theorem inputRule {p : Proc} (hu : PUnused p) (t : Term) (tv : Tv) (id : Int) (n : Nat) (rng : List Nat) :
    Nar.inputRule (δ.proc p) t tv (δ.id id) n rng = (Nar.inputRule p t tv id n rng).map δ.proc := by
  unfold Nar.inputRule
  refine R.bind_rel (f := δ.pmem) ?_ fun m => rfl
  rw [← δ.addEvidence]
  exact addEvidence_when (s := δ.sentence { newEternalSentenceByTv t .JUGEMENT tv ⟨[id]⟩ with evi := some (.CNT 10 10) }) rfl n _ _
    (m := δ.pmem p.mem) (unused_later δ hu.heap) rng

theorem workerStep {p : Proc} (hu : PUnused p) (rng : List Nat) : Nar.workerStep (δ.proc p) rng = δ.proc (Nar.workerStep p rng) := by
  unfold Nar.workerStep
  rw [show (δ.proc p).workerAlive = p.workerAlive from rfl]
  split
  · rw [show (δ.proc p).queue = p.queue.map fun m => (δ.sentence m.1, m.2 + (δ.shift : Int)) from rfl]
    cases hq : p.queue with
    | nil => simp only [List.map_nil]
    | cons m rest =>
      simp only [List.map_cons]
      have hs : Unused m.1 := hu.queue m (by rw [hq]; exact .head _)
      rw [show (δ.proc p).mem = δ.pmem p.mem from rfl, show (δ.proc p).nConceptBeliefs = p.nConceptBeliefs from rfl,
        workerStore_when (s := δ.sentence m.1) hs p.nConceptBeliefs (m.2 + (δ.shift : Int)) m.2 (m := δ.pmem p.mem) (unused_later δ hu.heap) rng,
        δ.workerStore]
      rfl
  · rfl

theorem procStepOp {start : Int} (hδ : δ.Regular start) {c : Call} (hc : Oblivious c) (decay : Int → Rat) {p : Proc} (ht : start ≤ p.t)
    (hu : PUnused p) (o : ProcOp) : (δ.procOp o).run c decay (δ.proc p) = (o.run c decay p).map δ.proc := by
  cases o with
  | event t => exact congrArg Except.ok (δ.inputEvent (hδ.now _ ht) t)
  | goal t tv id => exact δ.inputGoal p t tv id
  | rule t tv id n rng => exact δ.inputRule hu t tv id n rng
  | step0 draws => exact δ.narStep0 p draws
  | step1 rng infs =>
    simp only [procOp, ProcOp.run]
    rw [δ.narStep1 hδ hc decay ht]
    cases Nar.narStep1 c decay p rng infs <;> rfl
  | worker rng => exact congrArg Except.ok (δ.workerStep hu rng)
  | flush => rfl

end Delay

theorem perceive_unused {p p' : Proc} {d : SampleDraws} (hu : PUnused p) (h : perceiveSample p d = .ok p') : PUnused p' := by
  unfold perceiveSample at h
  obtain ⟨items, -, h⟩ := R.bind_ok.1 h
  cases items with
  | none => rw [← Except.ok.inj h]; exact hu
  | some items =>
    obtain ⟨s, hs, h⟩ := R.bind_ok.1 h
    cases s with
    | none => rw [← Except.ok.inj h]; exact hu
    | some s =>
      unfold sendToWorker at h
      simp only at h
      split at h
      · rw [← Except.ok.inj h]
        refine ⟨hu.heap, fun m hm => ?_⟩
        rcases List.mem_append.1 hm with h | h
        · exact hu.queue m h
        · rw [List.mem_singleton.1 h]
          unfold evidenceOf at hs
          obtain ⟨c, -, hs⟩ := R.bind_ok.1 hs
          cases c with
          | none => cases hs
          | some c =>
            obtain ⟨_, -, hs⟩ := R.bind_ok.1 hs
            obtain ⟨_, -, hs⟩ := R.bind_ok.1 hs
            obtain ⟨_, -, hs⟩ := R.bind_ok.1 hs
            rw [← Option.some.inj (Except.ok.inj hs)]
            rfl
      · cases h

theorem trace_unused {p p' : Proc} {draws : Nat → SampleDraws} (hu : PUnused p) (h : traceStep p draws = .ok p') : PUnused p' := by
  unfold traceStep at h
  split at h
  · exact foldlM_inv PUnused h ⟨hu.heap, hu.queue⟩ (fun i _ _ _ hx hs => perceive_unused hx hs)
  · rw [← Except.ok.inj h]; exact ⟨hu.heap, hu.queue⟩

theorem neg_unused {l : List Anticipation} {heap heap' : List Sentence} (hu : ∀ b ∈ heap, Unused b)
    (h : l.foldlM negConfirm heap = .ok heap') : ∀ b ∈ heap', Unused b := by
  refine foldlM_inv (fun x : List Sentence => ∀ b ∈ x, Unused b) h hu (fun a _ x x' hx hs => ?_)
  unfold negConfirm at hs
  obtain ⟨b, hb, hs⟩ := R.bind_ok.1 hs
  obtain ⟨_, -, hs⟩ := R.bind_ok.1 hs
  rw [← Except.ok.inj hs]
  intro y hy
  rcases List.mem_or_eq_of_mem_set hy with h | h
  · exact hx y h
  · rw [h]; exact hx b (List.mem_of_getElem? (indexAt_ok.1 hb))

theorem run_unused {c : Call} (hc : OnlyReports c) {decay : Int → Rat} {p p' : Proc} {o : ProcOp} (hu : PUnused p)
    (h : o.run c decay p = .ok p') : PUnused p' ∧ p.t ≤ p'.t := by
  cases o with
  | event t => rw [← Except.ok.inj h]; exact ⟨⟨hu.heap, hu.queue⟩, le_refl _⟩
  | goal t tv id =>
    simp only [ProcOp.run, inputGoal] at h
    obtain ⟨g, -, h⟩ := R.bind_ok.1 h
    rw [← Except.ok.inj h]
    exact ⟨⟨hu.heap, hu.queue⟩, le_refl _⟩
  | rule t tv id n rng =>
    simp only [ProcOp.run, inputRule] at h
    obtain ⟨m, hm, h⟩ := R.bind_ok.1 h
    rw [← Except.ok.inj h]
    exact ⟨⟨addEvidence_unused (s := { newEternalSentenceByTv t .JUGEMENT tv ⟨[id]⟩ with evi := some (.CNT 10 10) }) rfl hu.heap hm, hu.queue⟩,
      le_refl _⟩
  | step0 draws =>
    simp only [ProcOp.run] at h
    obtain ⟨heap, new, e, -⟩ := narStep0_spec h
    refine ⟨?_, le_of_eq (by rw [e])⟩
    unfold narStep0 at h
    obtain ⟨as, -, h⟩ := R.bind_ok.1 h
    obtain ⟨heap, hh, h⟩ := R.bind_ok.1 h
    exact trace_unused (p := { p with
      mem := { p.mem with heap := heap }
      anticipated := as.filter fun a => decide (a.deadline > p.t) }) ⟨neg_unused hu.heap hh, hu.queue⟩ h
  | step1 rng infs =>
    simp only [ProcOp.run] at h
    obtain ⟨⟨p2, act⟩, h1, h2⟩ := R.map_ok.1 h
    obtain ⟨g, g2, a, evs, cs, gs, -, -, -, e, -⟩ := narStep1_spec hc h1
    rw [← h2, e]
    exact ⟨⟨hu.heap, hu.queue⟩, by show p.t ≤ p.t + 1; omega⟩
  | worker rng =>
    rw [← Except.ok.inj h]
    unfold workerStep
    split
    · cases hq : p.queue with
      | nil => exact ⟨hu, le_refl _⟩
      | cons m rest =>
        simp only
        have hs : Unused m.1 := hu.queue m (by rw [hq]; exact .head _)
        exact ⟨⟨workerStore_unused hs _ _ hu.heap _, fun x hx => hu.queue x (by rw [hq]; exact .tail _ hx)⟩, le_refl _⟩
    · exact ⟨hu, le_refl _⟩
  | flush =>
    simp only [ProcOp.run] at h
    rw [← Except.ok.inj h]
    exact ⟨⟨hu.heap, hu.queue⟩, le_refl _⟩

theorem Delay.runProc (δ : Delay) {start : Int} (hδ : δ.Regular start) {c : Call} (hc : Oblivious c) (decay : Int → Rat) (ops : List ProcOp)
    {p : Proc} (ht : start ≤ p.t) (hu : PUnused p) :
    Nar.runProc c decay (δ.proc p) (ops.map δ.procOp) = (Nar.runProc c decay p ops).map δ.proc := by
  unfold Nar.runProc
  induction ops generalizing p with
  | nil => rfl
  | cons o ops ih =>
    rw [List.map_cons, List.foldlM_cons, List.foldlM_cons, δ.procStepOp hδ hc decay ht hu, R.bind_of_map, R.map_of_bind]
    refine R.bind_when fun p1 h1 => ?_
    obtain ⟨hu1, ht1⟩ := run_unused hc.reports hu h1
    exact ih (le_trans ht ht1) hu1

theorem runProc_unused {c : Call} (hc : OnlyReports c) {decay : Int → Rat} {ops : List ProcOp} {p p' : Proc} (hu : PUnused p)
    (h : runProc c decay p ops = .ok p') : PUnused p' ∧ p.t ≤ p'.t :=
  foldlM_inv (fun q => PUnused q ∧ p.t ≤ q.t) h ⟨hu, le_refl _⟩ (fun o _ _ _ hx hs => by
    obtain ⟨h1, h2⟩ := run_unused hc hx.1 hs
    exact ⟨h1, le_trans hx.2 h2⟩)

end Nar
