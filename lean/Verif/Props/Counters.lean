import Verif.Lemmas.Counters
import Verif.Lemmas.Whole2
import Verif.Props.Mem
import Verif.Props.Nar
import Verif.Props.Programs2
/-! # Property theorems about the counters of use (C89, C90) -/
namespace Nar.Props
open Nar Term

/-! ## C89 -/

/-- C89: in a cycle which hands a message to the worker, each task and each belief in memory is counted as used as many times
as tasks of the message share its counters, and the time of the cycle is noted; in a cycle which hands out no message nothing
is counted. -/
theorem C89_cycle_counts_uses (env : Env) (r r' : Reasoner) (v : Rat) (h : cycle env r v = .ok r') :
    (r'.queue = r.queue ∧ UsesCounted (fun _ => 0) r'.currentTime r.sh r'.sh) ∨
    ∃ m, r'.queue = r.queue ++ [m] ∧ UsesCounted (usesOf r.sh m) r'.currentTime r.sh r'.sh := cycle_counted h

/-- C89: in every history, a task and a belief in memory (or two of either) which share their counters show the same count and
the same time of the last use, and no count is negative. -/
theorem C89_copies_agree (env : Env) (ops : List NarOp) (r : Reasoner) (h : runNar env ops = .ok r) :
    (∀ u v, HoldsCounters r.sh u → HoldsCounters r.sh v → u.cell = v.cell → u = v) ∧
    ∀ u, HoldsCounters r.sh u → 0 ≤ u.useCount :=
  ⟨(runNar_CellInv h).counters.agree, (runNar_CellInv h).counters.nonneg⟩

/-- C89: a statement told for the first time becomes a new task, and is filed under all its sub-terms with the counters of the
task. -/
theorem C89_told_statement_is_shared (env : Env) (ops : List NarOp) (r r' : Reasoner) (h : runNar env ops = .ok r)
    (term : Term) (tv : Tv) (rng : List Nat) (hn : ¬ IsTemporal term) (hc : calcComplexity term ≤ 64)
    (hnew : ∀ s, Holds r s → s.term ≠ term) (ht : inputT2 env r term .JUGEMENT tv false rng = .ok r') :
    ∃ t, r'.sh.heap = r.sh.heap ++ [t] ∧ r'.sh.judgementTasks = r.sh.judgementTasks ++ [r.sh.heap.length] ∧
      t.sentence = newEternalSentenceByTv term .JUGEMENT tv ⟨[idsGiven r]⟩ ∧
      ∀ x, IsSubterm x term → FiledUnder r'.sh.mem t.sentence 20 r.proc.t x := by
  have hw := runNar_WDecl h
  have hadd := inputT2_told hn ht
  rcases memAddTask_cases hadd with ⟨hx, _⟩ | ⟨_, mem, rev, h1, h2⟩
  · exfalso
    have : (r.cfg env).maxComplexity = 64 := hw.complexity
    rw [this] at hx
    simp only [newEternalSentenceByTv] at hx
    omega
  · have hcfg : (r.cfg env).nBeliefs = 20 := hw.beliefs
    rw [hcfg] at h1
    have hwf := (hw.hist.reach.memOk ⟨by simp [createShared, Mem.WF], by simp [createShared], by simp [createShared]⟩).wf
    obtain ⟨hrev, hfile⟩ := C17_added_belief_is_in_memory _ mem _ _ _ rev rfl h1 (by
      intro c hcm
      constructor
      · intro b hb he
        exact absurd he (hnew b (.inr ⟨c.name, c, Mem.get_of_mem hwf hcm, .inl hb⟩))
      · intro b hb he
        exact absurd he (hnew b (.inr ⟨c.name, c, Mem.get_of_mem hwf hcm, .inr hb⟩)))
    subst hrev
    simp only [Option.toList_none] at h2
    have hmem := addTasks_memory _ h2
    rcases addTasks_one h2 rfl with ⟨t, ht, he⟩ | ⟨t, g1, g2, g3⟩
    · exact absurd he (hnew _ (.inl ⟨t, ht, rfl⟩))
    · refine ⟨t, g2, g3, g1, ?_⟩
      rw [hmem, g1]
      exact hfile

/-- two statements are told, and a cycle is made -/
def toldThenUsed : List NarOp :=
  [.tell (.Stmt .INH (.Name "a") (.Name "b")) .JUGEMENT ⟨1, 9/10⟩ false [],
   .tell (.Stmt .INH (.Name "b") (.Name "c")) .JUGEMENT ⟨1, 9/10⟩ false [], .cycle (1/2)]

/-- the first task was used twice by the cycle, and so show all copies of its sentence in memory -/
example : (runNar env0 toldThenUsed).map (fun r => (r.sh.heap.map (fun t => (t.sentence.usage.useCount, t.sentence.usage.lastUsed)),
    r.sh.mem.map (fun c => c.beliefsByUsage.map (fun b => (b.stamp.ids, b.usage.useCount))))) =
    .ok ([(2, 1), (1, 1)], [[([0], 2)], [([0], 2)], [([0], 2), ([1], 1)], [([1], 1)], [([1], 1)]]) := by decide +kernel

/-- the same statement is told twice, and a cycle is made -/
def pooledThenUsed : List NarOp :=
  [.tell (.Stmt .INH (.Name "a") (.Name "b")) .JUGEMENT ⟨1, 9/10⟩ false [],
   .tell (.Stmt .INH (.Name "a") (.Name "b")) .JUGEMENT ⟨1, 9/10⟩ false [], .cycle (1/2)]

/-- C89, violation: a pooled belief is made anew for each table, and the task gets the copy made last.  After the task of the
pooled belief was used, the belief in the tables of the concepts of the statement and of its subject still shows no use. -/
theorem C89_use_of_pooled_belief_is_lost : ∃ r t c b, runNar env0 pooledThenUsed = .ok r ∧ t ∈ r.sh.heap ∧ c ∈ r.sh.mem ∧
    b ∈ c.beliefsByUsage ∧ c.name = t.sentence.term ∧ b.term = t.sentence.term ∧ b.stamp = t.sentence.stamp ∧
    t.sentence.usage.useCount = 1 ∧ b.usage.useCount = 0 := by
  have key : ∀ o : R Reasoner, (o.map fun r => match r.sh.heap[2]?, r.sh.mem[0]? with
      | some t, some c => (match c.beliefsByUsage[0]? with
        | some b => decide (c.name = t.sentence.term ∧ b.term = t.sentence.term ∧ b.stamp = t.sentence.stamp ∧
            t.sentence.usage.useCount = 1 ∧ b.usage.useCount = 0)
        | none => false)
      | _, _ => false) = .ok true →
      ∃ r t c b, o = .ok r ∧ t ∈ r.sh.heap ∧ c ∈ r.sh.mem ∧ b ∈ c.beliefsByUsage ∧ c.name = t.sentence.term ∧
        b.term = t.sentence.term ∧ b.stamp = t.sentence.stamp ∧ t.sentence.usage.useCount = 1 ∧ b.usage.useCount = 0 := by
    intro o ho
    obtain ⟨r, rfl, hr⟩ := R.map_ok.1 ho
    split at hr
    · rename_i t c ht hc
      split at hr
      · rename_i b hb
        have := of_decide_eq_true hr
        exact ⟨r, t, c, b, rfl, List.mem_of_getElem? ht, List.mem_of_getElem? hc, List.mem_of_getElem? hb, this⟩
      · cases hr
    · cases hr
  exact key _ (by decide +kernel)

/-! ## C90 -/

/-- C90, violation: once a concept lists 20 beliefs by use, no new statement gets into this list: not by being told, not by the
conclusions of the worker, and not in a cycle, unless the concept is forgotten.  (A new belief was never used and is sorted to
the end, where the list is cut.) -/
theorem C90_full_list_takes_no_statement (env : Env) (ops : List NarOp) (r : Reasoner) (h : runNar env ops = .ok r)
    (name : Term) (l : List Term) (hl : ListedByUse r.sh.mem name 20 l) :
    (∀ term punct tv isEvent rng r', inputT2 env r term punct tv isEvent rng = .ok r' → ListedByUse r'.sh.mem name 20 l) ∧
    ListedByUse (declWork env r).sh.mem name 20 l ∧
    ∀ v r', cycle env r v = .ok r' → r'.sh.mem.get name = none ∨ ListedByUse r'.sh.mem name 20 l := by
  have hi := runNar_CellInv h
  have hw := runNar_WDecl h
  have hcfg : (r.cfg env).nBeliefs = 20 := hw.beliefs
  refine ⟨?_, ?_, ?_⟩
  · intro term punct tv isEvent rng r' ht
    obtain ⟨_, _, _, _, _, _, _, hsh | ⟨hadd, _, _⟩⟩ := inputT2_cases ht
    · rw [hsh]; exact hl
    · have := memAddTask_listed hadd rfl hi.counters.memP (by rw [hcfg]; exact hl)
      rw [hcfg] at this; exact this
  · unfold declWork
    split
    · split
      · exact hl
      · rename_i m rest hq
        split
        · rename_i sh calls hwk
          show ListedByUse sh.mem name 20 l
          unfold work at hwk
          obtain ⟨concl, hc, hwk⟩ := R.bind_ok.1 hwk
          obtain ⟨p, hp, hwk⟩ := R.bind_ok.1 hwk
          obtain ⟨⟨sh1, c1⟩, h1, hwk⟩ := R.bind_ok.1 hwk
          obtain ⟨sh2, h2, hwk⟩ := R.bind_ok.1 hwk
          cases hwk
          obtain ⟨qs, rfl⟩ := offerAll_frame h1
          obtain ⟨drawn, rfl, _⟩ := workConclusions_iff hc
          refine (foldlM_inv (fun x : Shared => AllP (fun b => 0 ≤ b.usage.useCount) (fun _ => True) x ∧
            ListedByUse x.mem name 20 l) h2 ⟨hi.counters.allP, hl⟩ ?_).2
          intro c hcm a b ha hstep
          obtain ⟨i, hi', rfl⟩ := List.mem_mapIdx.1 hcm
          refine ⟨memAddTask_fresh (ρ := rootOf [m.cycleCounter, (i : Int)]) (fun s hs => by rw [hs.2.1]) hstep ha.1
            ⟨rfl, rfl, by simp, rfl⟩, ?_⟩
          have := memAddTask_listed hstep rfl ha.1.2.1 (by rw [hcfg]; exact ha.2)
          rw [hcfg] at this; exact this
        · exact hl
    · exact hl
  · intro v r' hc
    cases hg : r'.sh.mem.get name with
    | none => exact .inl rfl
    | some c' =>
      right
      obtain ⟨hm, hn⟩ := Mem.get_some hg
      have hwf := (hw.hist.reach.memOk ⟨by simp [createShared, Mem.WF], by simp [createShared], by simp [createShared]⟩).wf
      have key : ∀ n, UsesCounted n r'.currentTime r.sh r'.sh → ListedByUse r'.sh.mem name 20 l := by
        intro n hu
        obtain ⟨c, hcm, rfl⟩ := hu.2 c' hm
        have hg' := Mem.get_of_mem hwf hcm
        obtain ⟨d, hd, h1, h2⟩ := hl
        simp only at hn
        rw [hn, hd] at hg'
        cases hg'
        refine ⟨_, hg, by simpa using h1, ?_⟩
        intro b hb
        obtain ⟨x, hx, rfl⟩ := List.mem_map.1 hb
        exact h2 x hx
      rcases cycle_counted hc with ⟨_, hu⟩ | ⟨m, _, hu⟩
      · exact key _ hu
      · exact key _ hu

/-- C90: a new statement which is told gets into the list by expectation of a concept with at most 20 beliefs, when one of
these beliefs has a lower expectation.  (What is missing: the same for the list by use.) -/
theorem C90_list_by_expectation_takes_better_partial (env : Env) (ops : List NarOp) (r r' : Reasoner) (h : runNar env ops = .ok r)
    (term : Term) (tv : Tv) (rng : List Nat) (hn : ¬ IsTemporal term) (hc : calcComplexity term ≤ 64)
    (hnew : ∀ s, Holds r s → s.term ≠ term) (ht : inputT2 env r term .JUGEMENT tv false rng = .ok r')
    (x : Term) (hx : IsSubterm x term) (c : Concept) (hg : r.sh.mem.get x = some c) (hlen : c.beliefsByExp.length ≤ 20)
    (b : Sentence) (hb : b ∈ c.beliefsByExp) (eb es : Rat) (heb : Expectation b eb)
    (hes : Expectation (newEternalSentenceByTv term .JUGEMENT tv ⟨[idsGiven r]⟩) es) (hlt : eb < es) :
    ∃ c', r'.sh.mem.get x = some c' ∧ newEternalSentenceByTv term .JUGEMENT tv ⟨[idsGiven r]⟩ ∈ c'.beliefsByExp := by
  have hw := runNar_WDecl h
  have hadd := inputT2_told hn ht
  rcases memAddTask_cases hadd with ⟨hx, _⟩ | ⟨_, mem, rev, h1, h2⟩
  · exfalso
    have : (r.cfg env).maxComplexity = 64 := hw.complexity
    rw [this] at hx
    simp only [newEternalSentenceByTv] at hx
    omega
  · have hcfg : (r.cfg env).nBeliefs = 20 := hw.beliefs
    rw [hcfg] at h1
    have hwf := (hw.hist.reach.memOk ⟨by simp [createShared, Mem.WF], by simp [createShared], by simp [createShared]⟩).wf
    rw [addTasks_memory _ h2]
    rcases addBelief_cases h1 with ⟨y, rfl, _⟩ | ⟨_, m1, g1, g2⟩
    · have := (C17_added_belief_is_in_memory _ mem _ _ _ _ rfl h1 (by
        intro c hcm
        constructor
        · intro b hb he
          exact absurd he (hnew b (.inr ⟨c.name, c, Mem.get_of_mem hwf hcm, .inl hb⟩))
        · intro b hb he
          exact absurd he (hnew b (.inr ⟨c.name, c, Mem.get_of_mem hwf hcm, .inr hb⟩)))).1
      cases this
    · refine storeInConcepts_better g2 rfl ⟨idsGiven r, List.mem_singleton.2 rfl, List.mem_singleton.2 rfl⟩
        hx ((memReviseBelief_none g1 x).trans hg) ?_ hlen hb ((expOf_iff _ _).2 heb) ((expOf_iff _ _).2 hes) hlt
      cases hdep : dependentBelief c.beliefsByExp (newEternalSentenceByTv term .JUGEMENT tv ⟨[idsGiven r]⟩) with
      | false => rfl
      | true =>
        obtain ⟨b', hb', he, _⟩ := (dependentBelief_iff _ _).1 hdep
        exact absurd he (hnew b' (.inr ⟨x, c, hg, .inl hb'⟩))

/-- the statements that `a` is a `p₀`, …, `p₁₉`; then, that `a` is a `b`, with more confidence -/
def manyThings : List NarOp :=
  (List.range 20).map (fun i => .tell (.Stmt .INH (.Name "a") (.Name ("p" ++ toString i))) .JUGEMENT ⟨1, 1/2⟩ false [])

/-- after 20 statements about `a`, the next is listed by expectation, but not by use -/
example : (runNar env0 (manyThings ++ [.tell (.Stmt .INH (.Name "a") (.Name "b")) .JUGEMENT ⟨1, 9/10⟩ false []])).map (fun r =>
    (r.sh.mem.get (.Name "a")).map fun c => [c.beliefsByUsage.map (fun b => b.stamp.ids), c.beliefsByExp.map (fun b => b.stamp.ids)]) =
    .ok (some [(List.range 20).map (fun i => [(i : Int)]), [20] :: (List.range 19).map (fun i => [(i : Int)])]) := by decide +kernel

/-- the hypothesis of `C90_full_list_takes_no_statement` is met after the 20 statements -/
example : ∃ r, runNar env0 manyThings = .ok r ∧ ListedByUse r.sh.mem (.Name "a") 20
    ((List.range 20).map (fun i => .Stmt .INH (.Name "a") (.Name ("p" ++ toString i)))) := by
  have key : ∀ o : R Reasoner, (o.map fun r => match r.sh.mem.get (.Name "a") with
      | some c => decide (20 ≤ c.beliefsByUsage.length) && c.beliefsByUsage.all (fun b =>
          ((List.range 20).map (fun i => Term.Stmt .INH (.Name "a") (.Name ("p" ++ toString i)))).any (checkEqTerm b.term))
      | none => false) = .ok true →
      ∃ r, o = .ok r ∧ ListedByUse r.sh.mem (.Name "a") 20
        ((List.range 20).map (fun i => .Stmt .INH (.Name "a") (.Name ("p" ++ toString i)))) := by
    intro o ho
    obtain ⟨r, rfl, hr⟩ := R.map_ok.1 ho
    split at hr
    · rename_i c hc
      rw [Bool.and_eq_true, List.all_eq_true] at hr
      refine ⟨r, rfl, c, hc, of_decide_eq_true hr.1, fun b hb => ?_⟩
      obtain ⟨t, ht, he⟩ := List.any_eq_true.1 (hr.2 b hb)
      rw [checkEqTerm_iff] at he
      rw [he]; exact ht
    · cases hr
  exact key _ (by decide +kernel)

end Nar.Props
