import Verif.Lemmas.Bounded4
import Verif.Props.Task2
import Verif.Props.Nar
/-! # C97: the reasoner gets by with limited resources -/
namespace Nar.Props
open Nar Term

theorem runSys_limited {cfg : Cfg} {ops : List SysOp} {s : Sys} (hs : ∀ op ∈ ops, op.Sane) (h : runSys cfg ops = .ok s) :
    Limited cfg s := (light_limited (Limited.start cfg) hs h).1

/-- Whatever message is waiting, the worker draws a limited number of conclusions from it. -/
theorem C97_conclusions_per_message (cfg : Cfg) (ops : List SysOp) (s : Sys) (hs : ∀ op ∈ ops, op.Sane)
    (h : runSys cfg ops = .ok s) (m : Msg) (hm : m ∈ s.queue) (concl : List (Sentence × Rat))
    (hc : workConclusions s.sh m = .ok concl) : concl.length ≤ roundLimit cfg :=
  have hl := runSys_limited hs h
  workConclusions_length hl.inv (hl.partners m hm) hl.tables hc

/-- with the settings of the reasoner -/
example : roundLimit cfg1 = 15757 := by decide

/-- two statements, then a cycle: the message for the worker leads to conclusions -/
def pairTold : List SysOp :=
  [.input (jdg "a" "b" 1 (9/10) 0) true 1 0, .input (jdg "b" "c" 1 (9/10) 1) true 1 0, .cycle (1/2) 0]

theorem pairTold_sane : ∀ op ∈ pairTold, op.Sane := by
  have key : ∀ (x y : String) (i : Int), (SysOp.input (jdg x y 1 (9/10) i) true 1 0).Sane := by
    intro x y i _
    refine ⟨⟨1, 9/10⟩, rfl, ?_, by unfold Tv.Sane; decide +kernel⟩
    refine wf_stmt.2 ⟨wf_iff.2 ⟨trivial, by simp [parts]⟩, wf_iff.2 ⟨trivial, by simp [parts]⟩⟩
  intro op hop
  simp only [pairTold, List.mem_cons, List.not_mem_nil, or_false] at hop
  rcases hop with rfl | rfl | rfl
  · exact key _ _ _
  · exact key _ _ _
  · trivial

example : (runSys cfg1 pairTold).map (fun s => s.queue.map (fun m => (workConclusions s.sh m).map (·.length))) =
    .ok [.ok 1] := by decide +kernel

/-- The tasks which are pending or found by the lookup are at most 30, plus what 111 spans between cycles can bring.
Here `k` limits what each span brings: two for each sentence put in, and twice the conclusions for each message the worker
works on. -/
theorem C97_tasks_kept (cfg : Cfg) (k : Nat) (spans : List Span) (rest : List SysOp) (s : Sys)
    (hl : ∀ d ∈ spans, Light cfg k d.before) (hr : Light cfg k rest)
    (hs : ∀ d ∈ spans, ∀ op ∈ d.before, op.Sane) (hs' : ∀ op ∈ rest, op.Sane)
    (h : runSys cfg (spans.flatMap Span.ops ++ rest) = .ok s) :
    KeepsAtMost s.sh (30 + 111 * k) ∧ s.sh.judgementTasks.length ≤ 30 + 111 * k := by
  unfold runSys at h
  rw [List.foldlM_append] at h
  obtain ⟨s1, h1, h2⟩ := R.bind_ok.1 h
  have h0 : KeepsAtMost createShared (30 + (0 % 111) * k) := ⟨[], by simp, by
    rintro r (hr | ⟨p, hp, _⟩)
    · cases hr
    · cases hp⟩
  obtain ⟨a1, _, a3⟩ := spans_limited spans hl hs (Limited.start cfg) 0 rfl h0 h1
  obtain ⟨b1, b2⟩ := light_limited a1 hs' h2
  have b3 := (b2 _ a3).1
  have hk : KeepsAtMost s.sh (30 + 111 * k) := by
    refine b3.mono ?_
    have h110 : (0 + spans.length) % 111 * k ≤ 110 * k := Nat.mul_le_mul_right _ (by omega)
    have := hr.2
    omega
  refine ⟨hk, ?_⟩
  obtain ⟨l, hl1, hl2⟩ := hk
  exact le_trans (b1.inv.inv.nodup.subperm (fun r hr => hl2 r (.inl hr))).length_le hl1

example : Light cfg1 4 [.input (jdg "a" "b" 1 (9/10) 0) true 1 0, .input (jdg "b" "c" 1 (9/10) 1) true 1 0] ∧
    pairTold = Span.ops ⟨[.input (jdg "a" "b" 1 (9/10) 0) true 1 0, .input (jdg "b" "c" 1 (9/10) 1) true 1 0], 1/2, 0⟩ := by
  refine ⟨⟨?_, by decide⟩, rfl⟩
  intro op hop
  simp only [List.mem_cons, List.not_mem_nil, or_false] at hop
  rcases hop with rfl | rfl <;> intro v now h <;> cases h

/-- Every 111th cycle leaves at most 30 tasks, pending or in the lookup; every 173rd cycle leaves at most 3000 concepts. -/
theorem C97_regular_trimming (env : Env) (r r' : Reasoner) (v : Rat) (h : cycle env r v = .ok r') :
    (r'.sh.cycleCounter % 111 = 0 → KeepsAtMost r'.sh 30) ∧ (r'.sh.cycleCounter % 173 = 0 → r'.sh.mem.length ≤ 3000) ∧
      r'.sh.cycleCounter = r.sh.cycleCounter + 1 := by
  unfold cycle at h
  obtain ⟨⟨sh, msg, calls⟩, h1, h2⟩ := R.bind_ok.1 h
  have hk : KeepsAtMost r.look (r.look.judgementTasks ++ r.look.judgementTasksByTerm.flatMap (·.2)).length :=
    ⟨_, le_refl _, fun x hx => by
      rcases hx with hx | ⟨p, hp, hx⟩
      · exact List.mem_append_left _ hx
      · exact List.mem_append_right _ (List.mem_flatMap.2 ⟨p, hp, hx⟩)⟩
  obtain ⟨a1, _, a3, a4⟩ := reasonCycle_keeps h1 hk
  have hlook : r.look.cycleCounter = r.sh.cycleCounter := by unfold Reasoner.look; split <;> rfl
  have hsh : r'.sh = { sh with procMem := r.sh.procMem } := by
    cases msg with
    | none => rw [← Except.ok.inj h2]
    | some m =>
      simp only [sendMsg] at h2
      split at h2
      · rw [← Except.ok.inj h2]
      · cases h2
  rw [hsh]
  exact ⟨fun hz => (a3 hz).same rfl rfl, a4, a1.trans (by rw [hlook])⟩

/-- a task of too little priority is dropped in the 111th cycle, a second one is kept, a third was selected -/
def nearTrimming : Reasoner :=
  let t (i : Int) (factor : Rat) : Task := { sentence := jdg "a" "b" 1 (9/10) i, credit := 1, qaCredit := 0, mulCredit := factor, id := i, derivTime := 0 }
  { createNar with sh := { createShared with
      cycleCounter := 110
      heap := [t 0 1, t 1 (1/2), t 2 0]
      judgementTasks := [0, 1, 2]
      judgementTasksByTerm := [(.Name "a", [0, 1, 2])] } }

example : (cycle env0 nearTrimming (1/2)).map (fun r => (r.sh.cycleCounter, r.sh.judgementTasks,
    lookupRefs r.sh.judgementTasksByTerm (.Name "a"))) = .ok (111, [1], some [1]) := by decide +kernel

/-- Every table of beliefs is limited, at any time. -/
theorem C97_tables (cfg : Cfg) (ops : List SysOp) (s : Sys) (hs : ∀ op ∈ ops, op.Sane) (h : runSys cfg ops = .ok s) :
    ∀ c ∈ s.sh.mem, c.beliefsByExp.length ≤ max 1 cfg.nBeliefs ∧ c.beliefsByUsage.length ≤ max 1 cfg.nBeliefs :=
  (runSys_limited hs h).tables

/-- Violated by questions: they are never given up, so their number is not limited, however slowly they come in. -/
theorem C97_questions_are_kept (cfg : Cfg) (ops : List SysOp) (s : Sys) (h : runSys cfg ops = .ok s) :
    ops.countP (SysOp.asks cfg) ≤ s.sh.questionTasks.length := by
  have := moreSys_asks (s := { sh := createShared, queue := [], log := [] }) h
  simpa [createShared] using this

/-- a question before every cycle -/
def curious (n : Nat) : List Span := List.replicate n ⟨[.input (ask "q" "y") true 1 0], 1/2, 0⟩

theorem C97_questions_without_limit (n : Nat) : ∃ s, (∀ d ∈ curious n, Light cfg1 2 d.before ∧ ∀ op ∈ d.before, op.Sane) ∧
    runSys cfg1 ((curious n).flatMap Span.ops) = .ok s ∧ n ≤ s.sh.questionTasks.length := by
  have hd : ∀ d ∈ curious n, d = ⟨[.input (ask "q" "y") true 1 0], 1/2, 0⟩ := fun d hd => List.eq_of_mem_replicate hd
  have hsane : ∀ op ∈ (curious n).flatMap Span.ops, op.Sane := by
    intro op hop
    obtain ⟨d, h1, h2⟩ := List.mem_flatMap.1 hop
    rw [hd d h1] at h2
    simp only [Span.ops, List.cons_append, List.nil_append, List.mem_cons, List.not_mem_nil, or_false] at h2
    rcases h2 with rfl | rfl
    · intro hj; cases hj
    · trivial
  obtain ⟨s, hs, _⟩ := runSys_total (cfg := cfg1) hsane
  refine ⟨s, ?_, hs, ?_⟩
  · intro d h1
    rw [hd d h1]
    refine ⟨⟨?_, by decide⟩, ?_⟩
    · intro op hop v now h
      simp only [List.mem_cons, List.not_mem_nil, or_false] at hop
      rw [hop] at h; cases h
    · intro op hop
      simp only [List.mem_cons, List.not_mem_nil, or_false] at hop
      rw [hop]; intro hj; cases hj
  · refine le_trans ?_ (C97_questions_are_kept cfg1 _ s hs)
    have key : ∀ n : Nat, n ≤ List.countP (SysOp.asks cfg1) ((curious n).flatMap Span.ops) := ?_
    · exact key n
    clear hd hsane
    intro n
    induction n with
    | zero => simp
    | succ n ih =>
      unfold curious at *
      rw [List.replicate_succ, List.flatMap_cons, List.countP_append]
      have : List.countP (SysOp.asks cfg1) (Span.ops ⟨[.input (ask "q" "y") true 1 0], 1/2, 0⟩) = 1 := by decide
      omega

/-- Violated between two trimmings: the limit on the complexity of statements does not limit their size, and a single statement
can create any number of concepts. -/
theorem C97_concepts_without_limit (n : Nat) : ∃ (x : Sentence) (s : Sys), (SysOp.input x true 1 0).Sane ∧
    calcComplexity x.term = 3 ∧ runSys cfg1 [.input x true 1 0] = .ok s ∧ n ≤ s.sh.mem.length := by
  let x := newEternalSentenceByTv (.Stmt .INH (boxed n (.Name "a")) (.Name "b")) .JUGEMENT ⟨1, 9/10⟩ ⟨[0]⟩
  have hw : WellFormed x.term :=
    wf_stmt.2 ⟨boxed_wf (t := .Name "a") (wf_iff.2 ⟨trivial, by simp [parts]⟩) n, wf_iff.2 ⟨trivial, by simp [parts]⟩⟩
  have hx : (SysOp.input x true 1 0).Sane := fun _ => ⟨⟨1, 9/10⟩, rfl, hw, by unfold Tv.Sane; decide +kernel⟩
  have hc : calcComplexity x.term = 3 := by
    show calcComplexity (.Stmt .INH (boxed n (.Name "a")) (.Name "b")) = 3
    simp [calcComplexity, boxed_complexity]
  obtain ⟨s, hs, _⟩ := runSys_total (cfg := cfg1) (ops := [.input x true 1 0]) (fun op hop => by
    rw [List.mem_singleton.1 hop]; exact hx)
  refine ⟨x, s, hx, hc, hs, ?_⟩
  obtain ⟨s1, h1, h2⟩ := foldlM_cons_ok.1 hs
  cases h2
  obtain ⟨sh, g1, g⟩ := R.bind_ok.1 h1
  have e : s.sh = sh := by rw [← Except.ok.inj g]
  rw [e]
  have hn := told_names rfl (by rw [hc]; decide) g1
  have hnd : ((List.range n).map (fun (i : Nat) => boxed i (.Name "a"))).Nodup :=
    List.Nodup.map (fun i j => boxed_inj "a" i j) List.nodup_range
  have hsub : ((List.range n).map (fun (i : Nat) => boxed i (.Name "a"))).Subperm (sh.mem.map (·.name)) := by
    refine hnd.subperm ?_
    intro t ht
    obtain ⟨i, hi, rfl⟩ := List.mem_map.1 ht
    refine hn _ (.inside (c := boxed n (.Name "a")) (by simp [x, newEternalSentenceByTv, parts]) (boxed_sub n _ i (by have := List.mem_range.1 hi; omega)))
  simpa using hsub.length_le

end Nar.Props
