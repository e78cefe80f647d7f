import Verif.Lemmas.Race3
import Verif.Props.Task
/-! # Property theorems about additions which run at the same time (C80)

Any number of threads add sentences; between any two locked sections of an addition the others, and the worker's other
actions, may come in. -/
namespace Nar.Props
open Nar Term

/-! ## concrete histories for the examples -/

/-- `n` sections of thread `k` -/
def go (k n : Nat) : List RaceOp := List.replicate n (.next k)

/-- two threads add a judgement each, both look before either of them writes; meanwhile the worker selects, trims and rebuilds -/
def raceOps (s s' : Sentence) : List RaceOp :=
  [.begin 0 s true 1 0, .begin 1 s' true 1 0] ++ go 0 3 ++ go 1 3 ++ go 0 1 ++ go 1 1 ++ go 0 1 ++ go 1 1 ++ [.other .tick] ++
    go 0 1 ++ go 1 1

/-- both finish -/
def finishOps : List RaceOp := [.other .baseCredit] ++ go 1 2 ++ [.other .rebuild] ++ go 0 2

/-! ## C80 -/

/-- An addition whose sections are not interrupted does exactly what `memAddTask` does, whatever the other threads are busy
with: it ends in the same state or crashes in the same way. -/
theorem C80_alone (cfg : Cfg) (st : Race) (k : Nat) (hk : st.adding k = none) (s : Sentence) (cc : Bool) (mc : Rat) (now : Int) :
    ∃ n, moreRace cfg st (.begin k s cc mc now :: go k n) =
      (memAddTask cfg st.sh s cc mc now).map fun sh => { st with sh := sh } := by
  obtain ⟨n, hn⟩ := solo_add (cfg := cfg) hk s cc mc now
  refine ⟨n, hn.trans ?_⟩
  cases memAddTask cfg st.sh s cc mc now with
  | error e => rfl
  | ok sh => exact congrArg Except.ok (put_idle hk sh)

/-- The working list can always be read, the identifiers in it are pairwise different and no task in it is more complex than
configured: for every schedule. -/
theorem C80_working_list (cfg : Cfg) (ops : List RaceOp) (st : Race) (h : runRace cfg ops = .ok st) :
    ∃ ws, Working st.sh ws ∧ (ws.map (·.id)).Nodup ∧
      ∀ t ∈ ws, (calcComplexity t.sentence.term : Int) ≤ cfg.maxComplexity := by
  have hi := runRace_inv h
  obtain ⟨ws, hw⟩ := derefs_total hi.valid
  refine ⟨ws, hw, unique_ids_of hi.ids hi.nodup hw, ?_⟩
  intro t ht
  obtain ⟨r, _, hr⟩ := forall₂_right_mem (derefs_iff.1 hw) ht
  exact hi.complexity t (List.mem_of_getElem? hr)

/-- The lookup by term lists, under a term, only tasks whose statement contains the term. -/
theorem C80_lookup_sound (cfg : Cfg) (ops : List RaceOp) (st : Race) (h : runRace cfg ops = .ok st) :
    ∀ s refs, lookupRefs st.sh.judgementTasksByTerm s = some refs → ∀ r ∈ refs,
      ∃ t, st.sh.heap[r]? = some t ∧ IsSubterm s t.sentence.term :=
  lookup_sound_of (runRace_inv h).sound

/-- A task in the working list is listed under all its terms, or the thread which added it is about to do so. -/
theorem C80_lookup_complete (cfg : Cfg) (ops : List RaceOp) (st : Race) (h : runRace cfg ops = .ok st) :
    ∀ r ∈ st.sh.judgementTasks, ∀ t, st.sh.heap[r]? = some t → Filed st.sh r t ∨ AboutToFile st r :=
  (runRace_inv h).complete

/-- So once no addition is in progress everything is listed. -/
theorem C80_quiet (cfg : Cfg) (ops : List RaceOp) (st : Race) (h : runRace cfg ops = .ok st) (hq : ∀ k, st.adding k = none) :
    ∀ r ∈ st.sh.judgementTasks, ∀ t, st.sh.heap[r]? = some t → Filed st.sh r t := by
  intro r hr t ht
  rcases C80_lookup_complete cfg ops st h r hr t ht with h1 | ⟨k, a, _, _, ha, _⟩
  · exact h1
  · rw [hq k] at ha; cases ha

/-- Memory keeps one concept per term, and its tables stay within the configured size. -/
theorem C80_memory (cfg : Cfg) (ops : List RaceOp) (st : Race) (h : runRace cfg ops = .ok st) :
    (st.sh.mem.map (·.name)).Nodup ∧
      ∀ c ∈ st.sh.mem, c.beliefsByExp.length ≤ max 1 cfg.nBeliefs ∧ c.beliefsByUsage.length ≤ max 1 cfg.nBeliefs := by
  refine runRace_tables (P := fun e u => e.length ≤ max 1 cfg.nBeliefs ∧ u.length ≤ max 1 cfg.nBeliefs) ⟨?_, ?_, ?_, ?_⟩ h
  · intro s; simp
  · intro s now e u e' u' hP he hu
    exact ⟨storeTable_length he (le_max_right _ _) hP.1, storeTable_length hu (le_max_right _ _) hP.2⟩
  · intro e u f1 f2 hP; simpa using hP
  · intro _ _ s e u r1 r2 hP h1 h2
    rw [reviseTable_length h1, reviseTable_length h2]; exact hP

/-- No schedule crashes as long as what is added is sane, and then every task and every belief is a judgement whose truth
value is in range and not axiomatic. -/
theorem C80_never_crashes (cfg : Cfg) (ops : List RaceOp) (hs : ∀ op ∈ ops, op.Sane) :
    ∃ st, runRace cfg ops = .ok st ∧ (∀ t ∈ st.sh.heap, SaneJudgement t.sentence) ∧
      ∀ c ∈ st.sh.mem, (∀ b ∈ c.beliefsByExp, SaneJudgement b) ∧ ∀ b ∈ c.beliefsByUsage, SaneJudgement b := by
  obtain ⟨st, h, ho⟩ := runRace_ok (cfg := cfg) hs
  have hg : ∀ s, Good s → SaneJudgement s := fun s ⟨h1, ⟨tv, h2, h3⟩, h4⟩ => ⟨h1, tv, h2, h4, h3⟩
  exact ⟨st, h, fun t ht => hg _ (ho.good.all.1 t ht),
    fun c hc => ⟨fun b hb => hg b ((ho.good.all.2.1 c hc).1 b hb), fun b hb => hg b ((ho.good.all.2.1 c hc).2 b hb)⟩⟩

/-- The full claim is that a simultaneous addition leaves what one after the other would leave.  What holds of it for every
schedule and every sane input: nothing crashes, identifiers stay unique, the lists and the memory stay consistent and
bounded.  Missing: no task twice, one belief per statement (see below). -/
theorem C80_consistent_partial (cfg : Cfg) (ops : List RaceOp) (hs : ∀ op ∈ ops, op.Sane) :
    ∃ st ws, runRace cfg ops = .ok st ∧ Working st.sh ws ∧ (ws.map (·.id)).Nodup ∧
      (∀ t ∈ ws, (calcComplexity t.sentence.term : Int) ≤ cfg.maxComplexity ∧ SaneJudgement t.sentence) ∧
      (∀ r ∈ st.sh.judgementTasks, ∀ t, st.sh.heap[r]? = some t → Filed st.sh r t ∨ AboutToFile st r) ∧
      (st.sh.mem.map (·.name)).Nodup := by
  obtain ⟨st, h, h1, h2⟩ := C80_never_crashes cfg ops hs
  obtain ⟨ws, w1, w2, w3⟩ := C80_working_list cfg ops st h
  refine ⟨st, ws, h, w1, w2, ?_, C80_lookup_complete cfg ops st h, (C80_memory cfg ops st h).1⟩
  intro t ht
  obtain ⟨r, _, hr⟩ := forall₂_right_mem (derefs_iff.1 w1) ht
  exact ⟨w3 t ht, h1 t (List.mem_of_getElem? hr)⟩

/-- two additions in progress: both tasks are in the working list, neither is listed by its terms yet -/
example : (runRace cfg1 (raceOps (jdg "a" "b" 1 (1/2) 1) (jdg "b" "c" 1 (1/2) 2))).map (fun st =>
    (st.sh.judgementTasks, st.sh.heap.map (·.id), st.sh.judgementTasksByTerm.length, (st.adding 0).isSome, (st.adding 1).isSome)) =
    .ok ([0, 1], [1000, 1001], 0, true, true) := by decide +kernel

/-- and after both finished everything is listed and no thread is busy -/
example : (runRace cfg1 (raceOps (jdg "a" "b" 1 (1/2) 1) (jdg "b" "c" 1 (1/2) 2) ++ finishOps)).map (fun st =>
    (st.sh.judgementTasks, lookupRefs st.sh.judgementTasksByTerm (.Name "b"), (st.adding 0).isSome, (st.adding 1).isSome)) =
    .ok ([0, 1], some [0, 1, 0], false, false) := by decide +kernel

/-- the same additions one after the other list the task once -/
example : (runTasks cfg1 [.add (jdg "a" "b" 1 (1/2) 1) true 1 0, .add (jdg "b" "c" 1 (1/2) 2) true 1 0]).map (fun st =>
    (st.1.judgementTasks, lookupRefs st.1.judgementTasksByTerm (.Name "b"))) =
    .ok ([0, 1], some [0, 1]) := by decide +kernel

/-- the sentences of the history are sane -/
example (id : Int) : SaneJudgement (jdg "a" "b" 1 (1/2) id) :=
  ⟨rfl, ⟨1, 1/2⟩, rfl, wf_stmt.2 ⟨wf_iff.2 ⟨trivial, by simp [parts]⟩, wf_iff.2 ⟨trivial, by simp [parts]⟩⟩, by
    unfold Tv.Sane; norm_num⟩

/-- VIOLATION of "no two working tasks have the same statement and the same evidence" (C20): two threads which add the same
judgement at the same time both find that it does not exist yet, and it is listed twice. -/
theorem C80_duplicate_by_race : ∃ st t u, runRace cfg1 (raceOps (jdg "a" "b" 1 (1/2) 1) (jdg "a" "b" 1 (1/2) 1)) = .ok st ∧
    Working st.sh [t, u] ∧ SameTask t u := by
  have key : ∀ o : R Race, (o.bind fun st => (st.sh.derefs st.sh.judgementTasks).map fun ws =>
      ws.map fun t => (t.sentence.term, t.sentence.stamp.ids)) =
        .ok [((jdg "a" "b" 1 (1/2) 1).term, [1]), ((jdg "a" "b" 1 (1/2) 1).term, [1])] →
      ∃ st t u, o = .ok st ∧ Working st.sh [t, u] ∧ SameTask t u := by
    intro o h
    obtain ⟨st, h1, h⟩ := R.bind_ok.1 h
    obtain ⟨ws, h2, h⟩ := R.map_ok.1 h
    have hl : ws.length = 2 := by have := congrArg List.length h; simpa using this
    obtain ⟨t, u, rfl⟩ := List.length_eq_two.1 hl
    simp only [List.map_cons, List.map_nil, List.cons.injEq, Prod.mk.injEq, and_true] at h
    exact ⟨st, t, u, h1, h2, h.1.1.trans h.2.1.symm, h.1.2.trans h.2.2.symm⟩
  exact key _ (by decide +kernel)

/-- one after the other they are listed once -/
example : (runTasks cfg1 [.add (jdg "a" "b" 1 (1/2) 1) true 1 0, .add (jdg "a" "b" 1 (1/2) 1) true 1 0]).map (fun st =>
    st.1.judgementTasks) = .ok [0] := by decide +kernel

/-- VIOLATION of "one belief per statement" (C15): two threads which add independent evidence for one statement at the same
time both find nothing to pool it with, and memory lists two beliefs about the statement in one table. -/
theorem C80_two_beliefs_by_race : ∃ st, runRace cfg1 (raceOps (jdg "a" "b" 1 (1/2) 1) (jdg "a" "b" 1 (1/2) 2)) = .ok st ∧
    ∃ c ∈ st.sh.mem, ¬ (c.beliefsByExp.map (·.term)).Nodup ∧ ¬ (c.beliefsByUsage.map (·.term)).Nodup := by
  have key : ∀ o : R Race, (o.map fun st => decide (∃ c ∈ st.sh.mem, ¬ (c.beliefsByExp.map (·.term)).Nodup ∧
      ¬ (c.beliefsByUsage.map (·.term)).Nodup)) = .ok true →
      ∃ st, o = .ok st ∧ ∃ c ∈ st.sh.mem, ¬ (c.beliefsByExp.map (·.term)).Nodup ∧ ¬ (c.beliefsByUsage.map (·.term)).Nodup := by
    intro o h
    obtain ⟨st, h1, h⟩ := R.map_ok.1 h
    exact ⟨st, h1, of_decide_eq_true h⟩
  exact key _ (by decide +kernel)

/-- one after the other the evidence is pooled: one belief, resting on both -/
example : (runTasks cfg1 [.add (jdg "a" "b" 1 (1/2) 1) true 1 0, .add (jdg "a" "b" 1 (1/2) 2) true 1 0]).map (fun st =>
    st.1.mem.map fun c => c.beliefsByExp.map fun b => b.stamp.ids) = .ok [[[1, 2]], [[1, 2]], [[1, 2]]] := by decide +kernel

end Nar.Props
