import Verif.Lemmas.Later5
import Verif.Props.Ways
/-! # Properties about the same life, later (C118) -/
namespace Nar.Props
open Nar Nar.Term

/-- C118, what holds: Take any history after which the reasoner is in state `p`.  If the clock is put ahead by a whole number of rounds of
clearing (1313 steps), and the evidence is numbered accordingly, then every further history goes on just the same, moved by the same time:
the same beliefs, the same goals, the same events, or the same failure. -/
theorem C118_only_distances_matter_partial (call : Call) (hcall : Oblivious call) (decay : Int → Rat) (p0 p : Proc) (hp : Fresh p0)
    (past : List ProcOp) (hrun : runProc call decay p0 past = .ok p) (start : Int) (hs : start ≤ p.t) (δ : Delay) (hδ : δ.Regular start)
    (ops : List ProcOp) :
    runProc call decay (δ.proc p) (ops.map δ.procOp) = (runProc call decay p ops).map δ.proc :=
  δ.runProc hδ hcall decay ops hs (runProc_unused hcall.reports hp.unused hrun).1

/-- C118, what holds: so the same is done in every step, or nothing in both. -/
theorem C118_same_deeds_later_partial (call : Call) (hcall : Oblivious call) (decay : Int → Rat) (p0 p : Proc) (hp : Fresh p0)
    (past : List ProcOp) (hrun : runProc call decay p0 past = .ok p) (start : Int) (hs : start ≤ p.t) (δ : Delay) (hδ : δ.Regular start)
    (ops : List ProcOp) (p1 : Proc) (h1 : runProc call decay p ops = .ok p1) (rng : List Nat) (infs : List (Rat × Rat × List Nat)) :
    ∃ p2, runProc call decay (δ.proc p) (ops.map δ.procOp) = .ok p2 ∧ p2.trace.map (·.name) = p1.trace.map (·.name) ∧
      (narStep1 call decay p2 rng infs).map (·.2) = (narStep1 call decay p1 rng infs).map (·.2) := by
  have hu := (runProc_unused hcall.reports hp.unused hrun).1
  refine ⟨δ.proc p1, by rw [δ.runProc hδ hcall decay ops hs hu, h1]; rfl, ?_, ?_⟩
  · simp only [Delay.proc, List.map_map]
    rfl
  · have ht := (runProc_unused hcall.reports hu h1).2
    rw [δ.narStep1 hδ hcall decay (le_trans hs ht)]
    cases narStep1 call decay p1 rng infs <;> rfl

/-- C118, what holds: A reasoner which does not babble is started and nothing happens for some steps; then it lives.  If nothing happens for
1313 steps more (or a multiple), whatever is drawn meanwhile, then it lives the same life, later, provided that the goals and rules it is
told then have numbers below the number of steps waited at least. -/
theorem C118_waiting_changes_nothing_partial (call : Call) (hcall : Oblivious call) (decay : Int → Rat) (p0 : Proc) (hp : Started p0)
    (hb : p0.enBabbling = false) (short long : List ProcOp) (hshort : ∀ op ∈ short, op.Waits) (hlong : ∀ op ∈ long, op.Waits) (k : Nat)
    (hk : stepsTaken long = stepsTaken short + 1313 * k) (ops : List ProcOp)
    (hops : ∀ op ∈ ops, op.ToldBefore (p0.t + stepsTaken short)) :
    runProc call decay p0 (long ++ ops) =
      (runProc call decay p0 (short ++ ops)).map (waitingMore (p0.t + stepsTaken short) (1313 * k)).proc := by
  obtain ⟨δ, hδ⟩ : ∃ δ, δ = waitingMore (p0.t + stepsTaken short) (1313 * k) := ⟨_, rfl⟩
  have h0 : 0 ≤ p0.t + (stepsTaken short : Int) := by have := hp.time; omega
  have hreg : δ.Regular (p0.t + stepsTaken short) := hδ ▸ waitingMore_regular h0 k
  obtain ⟨p, hpd⟩ : ∃ p, p = { p0 with t := p0.t + (stepsTaken short : Int) } := ⟨_, rfl⟩
  have hps : Started p := hpd ▸ hp.later _
  have e1 : runProc call decay p0 (short ++ ops) = runProc call decay p ops := by
    unfold runProc
    rw [List.foldlM_append]
    have := hp.waits hb call decay hshort
    unfold runProc at this
    rw [this, hpd]
    rfl
  have e2 : runProc call decay p0 (long ++ ops) = runProc call decay (δ.proc p) ops := by
    unfold runProc
    rw [List.foldlM_append]
    have := hp.waits hb call decay hlong
    unfold runProc at this
    rw [this, hps.delayed, hpd, hδ, hk]
    show ops.foldlM _ _ = ops.foldlM _ _
    congr 1
    simp only [waitingMore, Nat.cast_add]
    congr 1
    omega
  have e3 : ops.map δ.procOp = ops := by
    conv_rhs => rw [← List.map_id ops]
    refine List.map_congr_left fun o ho => ?_
    rw [hδ]
    exact waitingMore_told _ (hops o ho)
  rw [e1, e2, ← hδ, ← δ.runProc hreg hcall decay ops (by rw [hpd]) hps.fresh.unused, e3]

/-! ## examples -/

theorem noEffect_oblivious : Oblivious noEffect := ⟨fun _ _ _ => .ok [], fun name args p => by simp [noEffect, Except.map]⟩

/-- a step in which nothing happens -/
def pause : List ProcOp := [.step0 firstDraws, .step1 [] []]

/-- so many steps in which nothing happens -/
def pauses (n : Nat) : List ProcOp := (List.replicate n pause).flatten

theorem pauses_wait (n : Nat) : ∀ op ∈ pauses n, op.Waits := by
  intro op h
  obtain ⟨l, hl, h⟩ := List.mem_flatten.1 h
  rw [(List.mem_replicate.1 hl).2] at h
  simp only [pause, List.mem_cons, List.not_mem_nil, or_false] at h
  rcases h with rfl | rfl <;> trivial

theorem pauses_steps (n : Nat) : stepsTaken (pauses n) = n := by
  induction n with
  | zero => rfl
  | succ n ih =>
    show stepsTaken (.step0 firstDraws :: .step1 [] [] :: pauses n) = n + 1
    simp only [stepsTaken, ih]

/-- learn that `^l` leads from `a` to `b`, want `b`, think about it; then see `a`, and after that `c`; act -/
def career (id : Int) : List ProcOp :=
  learnLB ++ [.goal (.Name "b") ⟨1, 9/10⟩ id, .step1 [] [(1/4, 1/4, [])], .flush, .event (.Name "a"), .event (.Name "c"), .step1 [] []]

/-- what happened lately -/
def names (p : Proc) : List Term := p.trace.map (·.name)

/-- After two steps of waiting, the goal with the number 1 leads to a deed; and so it does after 1315 steps. -/
example : ∃ p, runProc noEffect (fun _ => 1) calm (pauses 1315 ++ career 1) = .ok p ∧ names p = [.Name "a", .Name "c", opL] := by
  have h : (runProc noEffect (fun _ => 1) calm (pauses 2 ++ career 1)).map names = .ok [.Name "a", .Name "c", opL] := by decide +kernel
  obtain ⟨p, hp, hn⟩ := R.map_ok.1 h
  have := C118_waiting_changes_nothing_partial noEffect noEffect_oblivious (fun _ => 1) calm calm_started rfl (pauses 2) (pauses 1315)
    (pauses_wait _) (pauses_wait _) 1 (by rw [pauses_steps, pauses_steps]) (career 1) (by
      rw [pauses_steps]
      intro op h
      simp only [career, learnLB, List.cons_append, List.nil_append, List.mem_cons, List.not_mem_nil, or_false] at h
      casesm* _ ∨ _
      all_goals subst op
      all_goals first | trivial | exact (by decide : (1 : Int) < calm.t + ((2 : Nat) : Int)))
  rw [this, hp]
  refine ⟨_, rfl, ?_⟩
  rw [← hn]
  simp only [names, Delay.proc, List.map_map]
  rfl

example : Oblivious libCall := libCall_oblivious

/-! ## where it fails -/

/-- C118, negation: A goal with the number 0 is thought about in vain if what was learned was observed at time 0, since both seem to rest on
the same evidence; after 1313 steps of waiting the same life leads to a deed. -/
theorem C118_waiting_brings_about_deed : ∃ p p', runProc noEffect (fun _ => 1) calm (career 0) = .ok p ∧
    runProc noEffect (fun _ => 1) calm (pauses 1313 ++ career 0) = .ok p' ∧
    names p = [.Name "a", .Name "c"] ∧ names p' = [.Name "a", .Name "c", opL] := by
  have h : (runProc noEffect (fun _ => 1) calm (career 0)).map names = .ok [.Name "a", .Name "c"] := by decide +kernel
  have h' : (runProc noEffect (fun _ => 1) { calm with t := calm.t + ((1313 : Nat) : Int) } (career 0)).map names =
      .ok [.Name "a", .Name "c", opL] := by decide +kernel
  obtain ⟨p, hp, hn⟩ := R.map_ok.1 h
  obtain ⟨p', hp', hn'⟩ := R.map_ok.1 h'
  refine ⟨p, p', hp, ?_, hn, hn'⟩
  have hw := calm_started.waits rfl noEffect (fun _ => 1) (pauses_wait 1313)
  rw [pauses_steps] at hw
  unfold runProc at hw hp' ⊢
  rw [List.foldlM_append, hw]
  exact hp'

/-- `a`, then `^r` leads to `d` -/
def leadsAD : Term := rule (.Name "a") [opR] (.Name "d")

/-- the younger a goal is, the more useful -/
def youth : Int → Rat := fun age => 1 / (age + 1)

/-- be told how to bring about `b` and `d`, want `b` and think about it, want `d` and think about it, wait; see `a`, and act -/
def dilemma : List ProcOp :=
  [.rule leadsAB ⟨1, 9/10⟩ (-2) 20 [], .rule leadsAD ⟨1, 9/10⟩ (-3) 20 [], .goal (.Name "b") ⟨1, 9/10⟩ (-4), .step1 [] [(1/4, 1/4, [])],
    .goal (.Name "d") ⟨1, 9/10⟩ (-5), .step1 [] [(1/4, 1/4, []), (1/4, 3/4, [])], .step1 [] [], .event (.Name "a"), .step1 [] []]

/-- C118, negation: The clearing of goals puts the younger of two equally good plans before the older.  When it takes place depends on the
clock alone: the same life leads to the one deed, and after twelve steps of waiting to the other. -/
theorem C118_waiting_changes_deed : ∃ p p', runProc noEffect youth calm dilemma = .ok p ∧
    runProc noEffect youth calm (pauses 12 ++ dilemma) = .ok p' ∧ names p = [.Name "a", opL] ∧ names p' = [.Name "a", opR] := by
  have h : (runProc noEffect youth calm dilemma).map names = .ok [.Name "a", opL] := by decide +kernel
  have h' : (runProc noEffect youth { calm with t := calm.t + ((12 : Nat) : Int) } dilemma).map names = .ok [.Name "a", opR] := by
    decide +kernel
  obtain ⟨p, hp, hn⟩ := R.map_ok.1 h
  obtain ⟨p', hp', hn'⟩ := R.map_ok.1 h'
  refine ⟨p, p', hp, ?_, hn, hn'⟩
  have hw := calm_started.waits rfl noEffect youth (pauses_wait 12)
  rw [pauses_steps] at hw
  unfold runProc at hw hp' ⊢
  rw [List.foldlM_append, hw]
  exact hp'

end Nar.Props
