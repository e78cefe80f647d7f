import Verif.Lemmas.Goal5
import Mathlib.Tactic.Linarith
/-! # Properties of the goal system: C23 - C28, C61, C62 -/
namespace Nar.Props
open Nar

deriving instance DecidableEq for Sentence, Entry, Group

/-- a goal about `t` with the given evidence -/
def gl (t : Term) (ids : List Int) : Sentence := newEternalSentenceByTv t .GOAL ⟨1, 9/10⟩ ⟨ids⟩

/-- the call of an operator with one argument -/
def opTerm (name arg : String) : Term := encodeOp [.SetExt [.Name "SELF"], .Name arg] name

/-- the goal system after a history of operations, started with the given capacity and number of levels -/
def GoalsAfter (n d : Int) (g : GoalSystem) : Prop := ∃ decay ops, runGoals decay n d ops = .ok g

theorem GoalsAfter.inv {n d : Int} {g : GoalSystem} (h : GoalsAfter n d g) : GInv g ∧ g.nMaxDepth = d := by
  obtain ⟨decay, ops, h⟩ := h
  exact ⟨runGoals_inv h, runGoals_depth h⟩

/-! ## C23 -/

/-- After limiting, the number of stored goals is within the capacity. -/
theorem C23_capacity (decay : Int → Rat) (g g' : GoalSystem) (t : Int) (h : goalLimitMemory decay g t = .ok g') :
    (goalCount g' : Int) ≤ g.nMaxEntries := by
  obtain ⟨sorted, h0, -, -, -, -, h2⟩ := goalLimit_cases h
  obtain ⟨-, -, -, -, hc⟩ := foldAdd_spec h2
  rw [flushed_count, List.length_take] at hc
  omega

/-- Limiting only keeps goals which were stored before; it updates their utility and their position for
sampling and nothing else. -/
theorem C23_nothing_invented (decay : Int → Rat) (g g' : GoalSystem) (t : Int)
    (h : goalLimitMemory decay g t = .ok g') (x : Entry) (hx : Stored g' x) :
    ∃ e, Stored g e ∧ UtilityAt decay t e x.utility ∧ x.sentence = e.sentence ∧ x.evidence = e.evidence ∧
      x.createTime = e.createTime ∧ x.depth = e.depth ∧ x.desirability = e.desirability := by
  obtain ⟨sorted, -, -, -, h1, -, h2⟩ := goalLimit_cases h
  obtain ⟨-, -, -, h3, -⟩ := foldAdd_spec h2
  rcases h3 x hx with hx | ⟨e', he', a, rfl⟩
  · exact absurd hx (flushed_stored g x)
  · obtain ⟨e, u, he, hu, rfl⟩ := h1 e' (List.mem_of_mem_take he')
    exact ⟨e, he, hu, rfl, rfl, rfl, rfl, rfl⟩

/-- A dropped goal (no goal with the same statement and evidence is left) is never more useful than a kept
one. -/
theorem C23_best_kept (decay : Int → Rat) (g g' : GoalSystem) (t : Int) (h : goalLimitMemory decay g t = .ok g')
    (dropped : Entry) (hd : Stored g dropped) (hn : ∀ x, Stored g' x → ¬ SameGoal x.sentence dropped.sentence)
    (kept : Entry) (hk : Stored g' kept) : ∃ u, UtilityAt decay t dropped u ∧ u ≤ kept.utility := by
  obtain ⟨sorted, -, hs, -, -, h1, h2⟩ := goalLimit_cases h
  obtain ⟨-, -, h4, h3, -⟩ := foldAdd_spec h2
  obtain ⟨u, hu, hm⟩ := h1 dropped hd
  refine ⟨u, hu, ?_⟩
  rcases h3 kept hk with hk | ⟨e, he, a, rfl⟩
  · exact absurd hk (flushed_stored g kept)
  · rw [← List.take_append_drop g.nMaxEntries.toNat sorted] at hm
    rcases List.mem_append.1 hm with hm | hm
    · obtain ⟨x, hx, hxs⟩ := h4 _ hm
      exact absurd hxs (hn x hx)
    · rw [← List.take_append_drop g.nMaxEntries.toNat sorted, List.pairwise_append] at hs
      exact hs.2.2 e he _ hm

/-- Nothing is dropped while the capacity suffices, where executable goals count twice. -/
theorem C23_nothing_dropped_below_capacity (decay : Int → Rat) (g g' : GoalSystem) (t : Int)
    (h : goalLimitMemory decay g t = .ok g') (hc : (goalCount g + g.activeSet.length : Int) ≤ g.nMaxEntries)
    (e : Entry) (he : Stored g e) : ∃ x, Stored g' x ∧ SameGoal x.sentence e.sentence := by
  obtain ⟨sorted, -, hs, hl, -, h1, h2⟩ := goalLimit_cases h
  obtain ⟨-, -, h4, -, -⟩ := foldAdd_spec h2
  obtain ⟨u, hu, hm⟩ := h1 e he
  obtain ⟨x, hx, hxs⟩ := h4 { e with utility := u } (by rw [List.take_of_length_le (by omega)]; exact hm)
  exact ⟨x, hx, hxs⟩

/-- three executable goals of different age -/
def threeOps : List GoalOp :=
  [.add 0 (gl (opTerm "a" "x") [1]) none 0, .add 1 (gl (opTerm "b" "x") [2]) none 0,
   .add 2 (gl (opTerm "c" "x") [3]) none 0]

/-- Executable goals really count twice: three of them in a store for four goals, one is dropped. -/
theorem C23_executable_goals_count_twice : ∃ g g', runGoals (fun age => 1 / (age + 1)) 4 2 threeOps = .ok g ∧
    goalLimitMemory (fun age => 1 / (age + 1)) g 3 = .ok g' ∧ goalCount g = 3 ∧ g.nMaxEntries = 4 ∧
    goalCount g' = 2 := by
  have h1 : (runGoals (fun age => 1 / (age + 1)) 4 2 threeOps).map (fun g => (goalCount g, g.nMaxEntries)) =
      .ok (3, 4) := by decide +kernel
  have h2 : (runGoals (fun age => 1 / (age + 1)) 4 2 (threeOps ++ [.limit 3])).map goalCount = .ok 2 := by decide +kernel
  obtain ⟨g, hg, hc⟩ := R.map_ok.1 h1
  obtain ⟨g', hg', hc'⟩ := R.map_ok.1 h2
  simp only [Prod.mk.injEq] at hc
  refine ⟨g, g', hg, ?_, hc.1, hc.2, hc'⟩
  unfold runGoals at hg hg'
  rw [List.foldlM_append, hg] at hg'
  obtain ⟨x, hx, hx'⟩ := foldlM_cons_ok.1 hg'
  rw [foldlM_nil_ok] at hx'
  rw [← hx']; exact hx

/-- of the three goals the oldest is dropped, and the two kept ones are at least as useful -/
example : ∃ g g' dropped, runGoals (fun age => 1 / (age + 1)) 4 2 threeOps = .ok g ∧
    goalLimitMemory (fun age => 1 / (age + 1)) g 3 = .ok g' ∧ (goalCount g' : Int) ≤ g.nMaxEntries ∧
    Stored g dropped ∧ (∀ x, Stored g' x → ¬ SameGoal x.sentence dropped.sentence) ∧ (∃ kept, Stored g' kept) ∧
    ∀ kept, Stored g' kept → ∃ u, UtilityAt (fun age => 1 / (age + 1)) 3 dropped u ∧ u ≤ kept.utility := by
  have h1 : (runGoals (fun age => 1 / (age + 1)) 4 2 threeOps).map
      (fun g => (retEntries g).map (fun e => e.sentence.term)) =
      .ok [opTerm "a" "x", opTerm "b" "x", opTerm "c" "x"] := by decide +kernel
  have h2 : ((runGoals (fun age => 1 / (age + 1)) 4 2 threeOps).bind
      (fun g => goalLimitMemory (fun age => 1 / (age + 1)) g 3)).map
      (fun g => (retEntries g).map (fun e => e.sentence.term)) = .ok [opTerm "c" "x", opTerm "b" "x"] := by
    decide +kernel
  obtain ⟨g, hg, hv⟩ := R.map_ok.1 h1
  obtain ⟨g', hb, hv'⟩ := R.map_ok.1 h2
  obtain ⟨x, hx, hl⟩ := R.bind_ok.1 hb
  rw [hg] at hx
  cases hx
  have hm : opTerm "a" "x" ∈ (retEntries g).map (fun e => e.sentence.term) := by rw [hv]; simp
  obtain ⟨e, he, het⟩ := List.mem_map.1 hm
  have hm' : opTerm "b" "x" ∈ (retEntries g').map (fun e => e.sentence.term) := by rw [hv']; simp
  obtain ⟨k, hk, -⟩ := List.mem_map.1 hm'
  have hn : ∀ x, Stored g' x → ¬ SameGoal x.sentence e.sentence := by
    intro x hx hs
    have hxm := List.mem_map_of_mem (f := fun e => e.sentence.term) ((retEntries_mem g' x).2 hx)
    rw [hv'] at hxm
    have hst : x.sentence.term = opTerm "a" "x" := by rw [hs.1, het]
    simp only [hst] at hxm
    revert hxm
    decide
  exact ⟨g, g', e, hg, hl, C23_capacity _ g g' 3 hl, (retEntries_mem g e).1 he, hn,
    ⟨k, (retEntries_mem g' k).1 hk⟩,
    fun kept hkept => C23_best_kept _ g g' 3 hl e ((retEntries_mem g e).1 he) hn kept hkept⟩

/-- in a store for six goals all three stay -/
example : ∃ g g', runGoals (fun age => 1 / (age + 1)) 6 2 threeOps = .ok g ∧
    goalLimitMemory (fun age => 1 / (age + 1)) g 3 = .ok g' ∧ goalCount g = 3 ∧
    ∀ e, Stored g e → ∃ x, Stored g' x ∧ SameGoal x.sentence e.sentence := by
  have h1 : (runGoals (fun age => 1 / (age + 1)) 6 2 threeOps).map
      (fun g => (goalCount g, g.activeSet.length, g.nMaxEntries)) = .ok (3, 3, 6) := by decide +kernel
  have h2 : ((runGoals (fun age => 1 / (age + 1)) 6 2 threeOps).bind
      (fun g => goalLimitMemory (fun age => 1 / (age + 1)) g 3)).map (fun _ => ()) = .ok () := by decide +kernel
  obtain ⟨g, hg, hv⟩ := R.map_ok.1 h1
  obtain ⟨g', hb, -⟩ := R.map_ok.1 h2
  obtain ⟨x, hx, hl⟩ := R.bind_ok.1 hb
  rw [hg] at hx
  cases hx
  simp only [Prod.mk.injEq] at hv
  exact ⟨g, g', hg, hl, hv.1, fun e he =>
    C23_nothing_dropped_below_capacity _ g g' 3 hl (by rw [hv.1, hv.2.1, hv.2.2]; decide) e he⟩

/-! ## C24 -/

/-- No two executable goals with the same statement and evidence are ever stored. -/
theorem C24_executable_goals_once (n d : Int) (g : GoalSystem) (h : GoalsAfter n d g) :
    g.activeSet.Pairwise (fun a b => ¬ SameGoal a.sentence b.sentence) := h.inv.1.activeOnce

/-- Adding an executable goal with the statement and the evidence of a stored goal changes nothing. -/
theorem C24_executable_goal_again (n d : Int) (g : GoalSystem) (h : GoalsAfter n d g) (t : Int) (goal : Sentence)
    (ev : Option Nat) (dep : Int) (hp : goal.punct = .GOAL) (hx : Executable goal) (e : Entry) (he : Stored g e)
    (hs : SameGoal e.sentence goal) : addEntry g t goal ev dep = .ok g := by
  have ho := (executable_iff _).1 hx
  have hact : e ∈ g.activeSet := by
    rcases he with he | ⟨i, level, gr, hl, hgr, he⟩
    · exact he
    · have o := h.inv.1.groups i level hl gr hgr
      have := o.notOp
      rw [← o.term e he, hs.1, ho] at this
      cases this
  have hc := (checkSetContains_iff g.activeSet goal).2 ⟨e, hact, hs⟩
  unfold addEntry
  rw [if_neg (by simp [hp])]
  split
  · rfl
  · unfold addEntry2
    show (if (decodeOp goal.term).isSome = true then
      (if checkSetContains g.activeSet goal = true then _ else _) else _) = _
    rw [if_pos ho, if_pos hc]

/-- telling the first of the three executable goals again changes nothing -/
example : ∃ g, runGoals (fun _ => 1) 4 2 threeOps = .ok g ∧ goalCount g = 3 ∧
    addEntry g 9 (gl (opTerm "a" "x") [1]) none 0 = .ok g := by
  have h1 : (runGoals (fun _ => 1) 4 2 threeOps).map
      (fun g => (goalCount g, g.activeSet.map (fun e => (e.sentence.term, e.sentence.stamp)))) =
      .ok (3, [(opTerm "a" "x", ⟨[1]⟩), (opTerm "b" "x", ⟨[2]⟩), (opTerm "c" "x", ⟨[3]⟩)]) := by decide +kernel
  obtain ⟨g, hg, hv⟩ := R.map_ok.1 h1
  simp only [Prod.mk.injEq] at hv
  have hm : (opTerm "a" "x", (⟨[1]⟩ : Stamp)) ∈ g.activeSet.map (fun e => (e.sentence.term, e.sentence.stamp)) := by
    rw [hv.2]; simp
  obtain ⟨e, he, hee⟩ := List.mem_map.1 hm
  simp only [Prod.mk.injEq] at hee
  exact ⟨g, hg, hv.1, C24_executable_goal_again 4 2 g ⟨_, _, hg⟩ 9 _ none 0 rfl
    ((executable_iff _).2 rfl) e (.inl he) ⟨hee.1, hee.2⟩⟩

/-- A goal which is not stored yet gets stored as one new entry, in the active set if it is executable and
otherwise at the level of its depth; everything else stays. -/
theorem C24_new_goal_is_stored (n d : Int) (g g' : GoalSystem) (h : GoalsAfter n d g) (t : Int) (goal : Sentence)
    (ev : Option Nat) (dep : Int) (hadd : addEntry g t goal ev dep = .ok g')
    (hnew : ∀ e, Stored g e → ¬ SameGoal e.sentence goal) :
    goalCount g' = goalCount g + 1 ∧ ∃ x, (∀ y, Stored g' y ↔ Stored g y ∨ y = x) ∧
      x.sentence = goal ∧ x.evidence = ev ∧ x.createTime = t ∧ x.depth = dep ∧ x.desirability = 1 ∧
      (Executable goal → x ∈ g'.activeSet) ∧
      (¬ Executable goal → ∃ i : Nat, (i : Int) = min dep (d - 1) ∧ StoredAt g' i x) := by
  obtain ⟨hi, hd⟩ := h.inv
  rcases (addEntry_cases hadd).2 with ⟨hr, -⟩ | ⟨-, h2⟩
  · exfalso
    obtain ⟨arr, h1, s, h2, h3⟩ := (goalRegistered_iff hi goal).1 hr
    obtain ⟨-, i, e, he, rfl⟩ := hi.reg _ _ h1 s h2
    exact hnew e (.inr ⟨i, he⟩) h3
  · rcases addEntry2_cases h2 with ⟨ho, ⟨x, hx, hs⟩, rfl⟩ | ⟨ho, hn, rfl⟩ | ⟨ho, h2⟩
    · exact absurd hs (hnew x (.inl hx))
    · refine ⟨by simp [goalCount, levelCount]; omega, newEntry t goal ev dep, ?_, rfl, rfl, rfl, rfl, rfl, ?_, ?_⟩
      · intro y
        unfold Stored StoredAt
        simp only [List.mem_append, List.mem_singleton]
        constructor
        · rintro ((h | h) | h)
          · exact .inl (.inl h)
          · exact .inr h
          · exact .inl (.inr h)
        · rintro ((h | h) | h)
          · exact .inl (.inl h)
          · exact .inr h
          · exact .inl (.inr h)
      · intro _; simp
      · intro hnx; exact absurd ((executable_iff _).2 ho) hnx
    · obtain ⟨i, a, hi', hlt, hst, hact, -⟩ := addToLevel_spec h2
      have hcnt := addToLevel_count h2
      refine ⟨by simp [goalCount, hact]; omega, withAcc (newEntry t goal ev dep) a, ?_, rfl, rfl, rfl, rfl, rfl, ?_, ?_⟩
      · intro y
        unfold Stored
        rw [hact]
        simp only [hst]
        constructor
        · rintro (h | ⟨j, h | ⟨-, h⟩⟩)
          · exact .inl (.inl h)
          · exact .inl (.inr ⟨j, h⟩)
          · exact .inr h
        · rintro ((h | ⟨j, h⟩) | h)
          · exact .inl h
          · exact .inr ⟨j, .inl h⟩
          · exact .inr ⟨i, .inr ⟨rfl, h⟩⟩
      · intro hx
        have := (executable_iff _).1 hx
        have ho' : (decodeOp goal.term).isSome = false := ho
        rw [ho'] at this; cases this
      · intro _
        exact ⟨i, by rw [← hd]; exact hi', (hst _ _).2 (.inr ⟨rfl, rfl⟩)⟩

/-- a fourth goal, not executable, is stored as one new entry at level 1 of 2 although its depth is 5 -/
example : ∃ g g', runGoals (fun _ => 1) 4 2 threeOps = .ok g ∧
    addEntry g 9 (gl (.Name "a") [4]) none 5 = .ok g' ∧ goalCount g' = 4 ∧
    ∃ x, x.sentence = gl (.Name "a") [4] ∧ StoredAt g' 1 x := by
  have h1 : (runGoals (fun _ => 1) 4 2 threeOps).map
      (fun g => (goalCount g, (retEntries g).map (fun e => e.sentence.term))) =
      .ok (3, [opTerm "a" "x", opTerm "b" "x", opTerm "c" "x"]) := by decide +kernel
  have h2 : ((runGoals (fun _ => 1) 4 2 threeOps).bind
      (fun g => addEntry g 9 (gl (.Name "a") [4]) none 5)).map (fun _ => ()) = .ok () := by decide +kernel
  obtain ⟨g, hg, hv⟩ := R.map_ok.1 h1
  obtain ⟨g', hb, -⟩ := R.map_ok.1 h2
  obtain ⟨x, hx, hl⟩ := R.bind_ok.1 hb
  rw [hg] at hx
  cases hx
  simp only [Prod.mk.injEq] at hv
  have hx : ¬ Executable (gl (.Name "a") [4]) := by
    rw [executable_iff]; decide
  have hn : ∀ e, Stored g e → ¬ SameGoal e.sentence (gl (.Name "a") [4]) := by
    intro e he hs
    have hm := List.mem_map_of_mem (f := fun e => e.sentence.term) ((retEntries_mem g e).2 he)
    rw [hv.2] at hm
    have hst : e.sentence.term = .Name "a" := hs.1
    simp only [hst] at hm
    revert hm
    decide
  obtain ⟨hc, x, -, hxs, -, -, -, -, -, hlev⟩ := C24_new_goal_is_stored 4 2 g g' ⟨_, _, hg⟩ 9 _ none 5 hl hn
  obtain ⟨i, hi, hst⟩ := hlev hx
  have : i = 1 := by
    have : (i : Int) = 1 := by rw [hi]; decide
    omega
  subst this
  exact ⟨g, g', hg, hl, by rw [hc, hv.1], x, hxs, hst⟩

/-- The first goal of a statement is never stored again, whatever is added, perceived, derived or executed in
between, as long as the store is not limited.  Missing to the full claim: later goals of the same statement. -/
theorem C24_first_goal_once_partial (n d : Int) (g g1 g2 : GoalSystem) (h : GoalsAfter n d g) (t t' : Int)
    (goal : Sentence) (ev ev' : Option Nat) (dep dep' : Int) (hx : ¬ Executable goal)
    (hnew : ∀ e, Stored g e → e.sentence.term ≠ goal.term) (hadd : addEntry g t goal ev dep = .ok g1)
    (decay : Int → Rat) (ops : List GoalOp) (hops : ∀ op ∈ ops, ∀ t, op ≠ .limit t)
    (hrun : ops.foldlM (GoalOp.run decay) g1 = .ok g2) : addEntry g2 t' goal ev' dep' = .ok g2 := by
  obtain ⟨hi, hd⟩ := h.inv
  have hreg1 : InRegister g1 goal := by
    rcases (addEntry_cases hadd).2 with ⟨hr, -⟩ | ⟨-, h2⟩
    · exfalso
      obtain ⟨arr, h1, s, h2, h3⟩ := (goalRegistered_iff hi goal).1 hr
      obtain ⟨-, i, e, he, rfl⟩ := hi.reg _ _ h1 s h2
      exact hnew e (.inr ⟨i, he⟩) h3.1
    · rcases addEntry2_cases h2 with ⟨ho, -⟩ | ⟨ho, -⟩ | ⟨ho, h2⟩
      · exact absurd ((executable_iff _).2 ho) hx
      · exact absurd ((executable_iff _).2 ho) hx
      · obtain ⟨i, level, -, hl, hc⟩ := addToLevel_cases h2
        rcases hc with ⟨pre, gr, post, last, rfl, -, h3, h4, rfl⟩ | ⟨-, rfl⟩
        · exfalso
          have hm := List.mem_of_getLast? h4
          have o := hi.groups i _ hl gr (by simp)
          exact hnew last (.inr ⟨i, _, gr, hl, by simp, hm⟩) (by rw [o.term last hm, h3]; rfl)
        · obtain ⟨arr, h3, h4⟩ := registerByTerm_adds (s := goal) (m := g.entriesByTerm) (by
            intro arr harr
            rw [List.eq_nil_iff_forall_not_mem]
            intro s hs
            obtain ⟨h5, i, e, he, rfl⟩ := hi.reg _ _ harr s hs
            exact hnew e (.inr ⟨i, he⟩) h5)
          exact ⟨arr, h3, goal, h4, rfl, rfl⟩
  have hi1 := addEntry_inv hadd hi
  have h2 := foldlM_inv (fun g => GInv g ∧ InRegister g goal) hrun ⟨hi1, hreg1⟩
    (fun op hop b b' hb hr => ⟨GoalOp.run_inv hr hb.1, GoalOp.run_registered hr (hops op hop) hb.2⟩)
  have hp := (addEntry_cases hadd).1
  unfold addEntry
  rw [if_neg (by simp [hp]), if_pos ((goalRegistered_iff h2.1 goal).2 h2.2)]

/-- the goal `a!` is not stored again after another goal, an event and an execution -/
example : ∃ g1 g2, addEntry (makeGoalSystem 20 8) 0 (gl (.Name "a") [1]) none 0 = .ok g1 ∧
    ([.add 1 (gl (.Name "b") [2]) none 0, .event (.Name "a"), .executed 3] : List GoalOp).foldlM
      (GoalOp.run (fun _ => 1)) g1 = .ok g2 ∧ goalCount g2 = 2 ∧
    addEntry g2 5 (gl (.Name "a") [1]) none 3 = .ok g2 := by
  have h1 : ((addEntry (makeGoalSystem 20 8) 0 (gl (.Name "a") [1]) none 0).bind (fun g =>
      ([.add 1 (gl (.Name "b") [2]) none 0, .event (.Name "a"), .executed 3] : List GoalOp).foldlM
        (GoalOp.run (fun _ => 1)) g)).map goalCount = .ok 2 := by decide +kernel
  obtain ⟨g2, hb, hc⟩ := R.map_ok.1 h1
  obtain ⟨g1, h2, h3⟩ := R.bind_ok.1 hb
  refine ⟨g1, g2, h2, h3, hc, C24_first_goal_once_partial 20 8 (makeGoalSystem 20 8) g1 g2 ⟨fun _ => 1, [], rfl⟩ 0 5 _
    none none 0 3 (by rw [executable_iff]; decide) ?_ h2 _ _ ?_ h3⟩
  · intro e he
    have := (retEntries_mem _ e).2 he
    rw [show retEntries (makeGoalSystem 20 8) = [] from rfl] at this
    simp at this
  · intro op hop t
    simp only [List.mem_cons, List.not_mem_nil, or_false] at hop
    rcases hop with rfl | rfl | rfl <;> simp

/-- The full claim fails: the second goal of a statement is stored again with the same evidence. -/
theorem C24_second_goal_stored_twice : ∃ g, runGoals (fun _ => 1) 20 8
      [.add 0 (gl (.Name "a") [1]) none 0, .add 0 (gl (.Name "a") [2]) none 0,
       .add 0 (gl (.Name "a") [2]) none 0] = .ok g ∧
    goalCount g = 3 ∧ (retEntries g).map (·.sentence) = [gl (.Name "a") [1], gl (.Name "a") [2], gl (.Name "a") [2]] :=
  ⟨_, rfl, by decide +kernel, rfl⟩

/-! ## C25 -/

/-- Goals in levels are not executable and sit in the level given by their depth, capped by the number of
levels; goals in the active set are executable. -/
theorem C25_goals_at_their_depth (n d : Int) (g : GoalSystem) (h : GoalsAfter n d g) :
    (∀ i e, StoredAt g i e → (i : Int) = min e.depth (d - 1) ∧ (i : Int) < d ∧ ¬ Executable e.sentence) ∧
    ∀ e ∈ g.activeSet, Executable e.sentence := by
  obtain ⟨hi, hd⟩ := h.inv
  refine ⟨?_, fun e he => (executable_iff _).2 (hi.activeOp e he)⟩
  rintro i e ⟨level, gr, hl, hgr, he⟩
  have o := hi.groups i level hl gr hgr
  have hlev := o.level e he
  rw [hd] at hlev
  refine ⟨hlev, by omega, ?_⟩
  intro hx
  have := (executable_iff _).1 hx
  rw [o.term e he, o.notOp] at this
  cases this

/-- Within a level all goals of one statement are in one group, and a group has only goals of its statement. -/
theorem C25_goals_grouped_by_statement (n d : Int) (g : GoalSystem) (h : GoalsAfter n d g) (i : Nat)
    (level : List Group) (hl : g.batchesByDepth[i]? = some level) :
    (∀ gr ∈ level, gr.entries ≠ [] ∧ ∀ e ∈ gr.entries, e.sentence.term = gr.term) ∧
    ∀ gr ∈ level, ∀ gr' ∈ level, ∀ e ∈ gr.entries, ∀ e' ∈ gr'.entries,
      e.sentence.term = e'.sentence.term → gr = gr' := by
  obtain ⟨hi, -⟩ := h.inv
  refine ⟨fun gr hgr => ⟨(hi.groups i level hl gr hgr).nonempty, (hi.groups i level hl gr hgr).term⟩, ?_⟩
  intro gr hgr gr' hgr' e he e' he' heq
  rw [(hi.groups i level hl gr hgr).term e he, (hi.groups i level hl gr' hgr').term e' he'] at heq
  exact eq_of_nodup_map (hi.distinct i level hl) gr hgr gr' hgr' heq

/-- goals at depths 0, 1 and 99 with three levels, and an executable goal -/
example : (runGoals (fun _ => 1) 20 3 [.add 0 (gl (.Name "a") [1]) none 0, .add 0 (gl (.Name "b") [2]) none 99,
      .add 0 (gl (.Name "c") [3]) none 1, .add 0 (gl (.Name "a") [4]) none 0, .add 0 (gl (opTerm "op" "x") [5]) none 1]).map
    (fun g => (g.batchesByDepth.map (fun l => l.map (fun gr => (gr.term, gr.entries.length))), g.activeSet.length)) =
    .ok ([[(.Name "a", 2)], [(.Name "c", 1)], [(.Name "b", 1)]], 1) := by decide +kernel

/-! ## C26 -/

/-- Perceiving an event takes the desirability of exactly the goals with its statement, if satisfaction is
enabled; places and all other attributes stay. -/
theorem C26_event_satisfies_matching_goals (g : GoalSystem) (event : Term) :
    (∀ i x, StoredAt (eventOccurred g event) i x ↔ ∃ e, StoredAt g i e ∧
      ((g.enGoalSatisfaction = true ∧ e.sentence.term = event ∧ x = { e with desirability := 0 }) ∨
       (¬ (g.enGoalSatisfaction = true ∧ e.sentence.term = event) ∧ x = e))) ∧
    (∀ x, Stored (eventOccurred g event) x ↔ ∃ e, Stored g e ∧
      ((g.enGoalSatisfaction = true ∧ e.sentence.term = event ∧ x = { e with desirability := 0 }) ∨
       (¬ (g.enGoalSatisfaction = true ∧ e.sentence.term = event) ∧ x = e))) ∧
    goalCount (eventOccurred g event) = goalCount g ∧
    (g.enGoalSatisfaction = false → eventOccurred g event = g) := by
  have key : ∀ e x, x = satisfy g.enGoalSatisfaction event e ↔
      ((g.enGoalSatisfaction = true ∧ e.sentence.term = event ∧ x = { e with desirability := 0 }) ∨
       (¬ (g.enGoalSatisfaction = true ∧ e.sentence.term = event) ∧ x = e)) := by
    intro e x
    unfold satisfy
    by_cases h : g.enGoalSatisfaction = true ∧ e.sentence.term = event
    · have : (g.enGoalSatisfaction && Term.checkEqTerm e.sentence.term event) = true := by
        rw [h.1, h.2]; simp
      rw [if_pos this]
      simp [h]
    · have : (g.enGoalSatisfaction && Term.checkEqTerm e.sentence.term event) = false := by
        rw [Bool.eq_false_iff]
        intro hc
        rw [Bool.and_eq_true, Term.checkEqTerm_iff] at hc
        exact h hc
      rw [if_neg (by simp [this])]
      constructor
      · intro hx; exact .inr ⟨h, hx⟩
      · rintro (⟨h1, h2, -⟩ | ⟨-, hx⟩)
        · exact absurd ⟨h1, h2⟩ h
        · exact hx
  refine ⟨?_, ?_, ?_, ?_⟩
  · intro i x
    rw [eventOccurred_storedAt]
    exact exists_congr (fun e => and_congr_right (fun _ => key e x))
  · intro x
    rw [eventOccurred_stored]
    exact exists_congr (fun e => and_congr_right (fun _ => key e x))
  · unfold goalCount levelCount eventOccurred
    simp [Function.comp_def]
  · intro hen
    have hid : satisfy false event = id := by funext e; simp [satisfy]
    unfold eventOccurred
    cases g
    simp only at hen
    subst hen
    simp [hid]

/-- the goal about `a` is satisfied, the one about `b` is not -/
example : (runGoals (fun _ => 1) 20 3 [.add 0 (gl (.Name "a") [1]) none 0, .add 0 (gl (.Name "b") [2]) none 0,
      .event (.Name "a")]).map (fun g => (retEntries g).map (fun e => (e.sentence.term, e.desirability))) =
    .ok [(.Name "a", 0), (.Name "b", 1)] := by decide +kernel

/-! ## C27 -/

/-- Sampling yields nothing or a goal stored in a level, never an executable goal. -/
theorem C27_sample_is_stored (n d : Int) (g : GoalSystem) (h : GoalsAfter n d g) (d1 d2 : Rat) (s : Sentence)
    (dep : Int) (hs : goalSample g d1 d2 = .ok (some (s, dep))) :
    ∃ i e, StoredAt g i e ∧ s = e.sentence ∧ dep = e.depth ∧ ¬ Executable s := by
  obtain ⟨i, e, he, rfl, rfl⟩ := goalSample_stored hs
  exact ⟨i, e, he, rfl, rfl, ((C25_goals_at_their_depth n d g h).1 i e he).2.2⟩

/-- Sampling never crashes, for all draws. -/
theorem C27_sample_never_crashes (n d : Int) (g : GoalSystem) (h : GoalsAfter n d g) (hd : 0 < d) (d1 d2 : Rat)
    (h2 : 0 ≤ d2) : ∃ r, goalSample g d1 d2 = .ok r := by
  obtain ⟨hi, he⟩ := h.inv
  exact goalSample_total hi (by rw [he]; exact hd) d1 d2 h2

/-- Levels with goals are chosen with equal shares of the first draw, and within the level goals are chosen by
the second draw as specified by `SampledFrom`. -/
theorem C27_sample_distribution (n d : Int) (g : GoalSystem) (h : GoalsAfter n d g) (d1 d2 : Rat) (h0 : 0 < d1)
    (h1 : d1 ≤ 1) (h2 : 0 ≤ d2) (hne : nonEmptyLevels g ≠ []) :
    ∃ (k : Nat) (level : List Group) (W : Rat) (r : Option (Sentence × Int)), (nonEmptyLevels g)[k]? = some level ∧
      k < d1 * (nonEmptyLevels g).length ∧ d1 * (nonEmptyLevels g).length ≤ k + 1 ∧ TotalWeight level W ∧ 0 ≤ W ∧
      goalSample g d1 d2 = .ok r ∧ SampledFrom level (d2 * W) r := by
  obtain ⟨hi, -⟩ := h.inv
  have hlen : 0 < g.batchesByDepth.length := by
    rcases Nat.eq_zero_or_pos g.batchesByDepth.length with h | h
    · exfalso; apply hne; unfold nonEmptyLevels; rw [List.eq_nil_of_length_eq_zero h]; rfl
    · exact h
  have hb : ∃ first, selBatch g d1 = .ok (selBatchLoop (d1 * ((nonEmptyLevels g).length : Rat)) g.batchesByDepth 0 first) := by
    unfold selBatch
    rw [indexAt_ok.2 (List.getElem?_eq_getElem hlen), sum_indicator]
    exact ⟨_, rfl⟩
  obtain ⟨first, hb⟩ := hb
  have hnpos : (0 : Rat) < ((nonEmptyLevels g).length : Rat) := by
    have := List.length_pos_iff.2 hne
    exact_mod_cast this
  obtain ⟨k, hk1, hk2, hk3⟩ := selBatchLoop_spec (d1 * ((nonEmptyLevels g).length : Rat)) g.batchesByDepth 0 first
    (mul_pos h0 hnpos) (by rw [zero_add]; exact mul_le_of_le_one_left hnpos.le h1)
  obtain ⟨r, W, hr, hW, hW0, hs⟩ := goalSample_level hi h2 hb (selBatch_mem hb)
  exact ⟨k, _, W, r, hk1, by linarith, by linarith, hW, hW0, hr, hs⟩

/-- Sampling a level comes back empty only if no group of the level has any weight. -/
theorem C27_nothing_only_without_weight (n d : Int) (g : GoalSystem) (h : GoalsAfter n d g) (d1 d2 : Rat) (h0 : 0 < d1)
    (h1 : d1 ≤ 1) (h2 : 0 ≤ d2) (h3 : d2 < 1) (hne : nonEmptyLevels g ≠ []) (hs : goalSample g d1 d2 = .ok none) :
    ∃ level ∈ nonEmptyLevels g, TotalWeight level 0 := by
  obtain ⟨k, level, W, r, hk, -, -, hW, hW0, hr, hf⟩ := C27_sample_distribution n d g h d1 d2 h0 h1 h2 hne
  rw [hs] at hr
  have := Except.ok.inj hr
  subst this
  have hle : W ≤ d2 * W := hf W hW
  have : W = 0 := by
    rcases eq_or_lt_of_le hW0 with h | h
    · exact h.symm
    · exfalso; nlinarith
  subst this
  exact ⟨level, List.mem_of_getElem? hk, hW⟩

/-- The draw 0 takes the first level even if it is empty, and then nothing is sampled. -/
theorem C27_draw_zero (g : GoalSystem) (d2 : Rat) (rest : List (List Group)) (h : g.batchesByDepth = [] :: rest) :
    goalSample g 0 d2 = .ok none := by
  unfold goalSample selBatch
  rw [h]
  simp only [indexAt, bind, Except.bind, List.getElem?_cons_zero, zero_mul]
  rw [selBatchLoop_zero _ _ _ _ (le_refl _)]
  rfl

/-- `a` is sampled with the first half of the first draw, `b` with the other half -/
example : let run := runGoals (fun _ => 1) 20 8 [.add 0 (gl (.Name "a") [1]) none 1, .add 0 (gl (.Name "b") [2]) none 3]
    (run.bind (fun g => goalSample g (1/2) (1/2))) = .ok (some (gl (.Name "a") [1], 1)) ∧
    (run.bind (fun g => goalSample g (3/4) (1/2))) = .ok (some (gl (.Name "b") [2], 3)) ∧
    (run.bind (fun g => goalSample g 0 (1/2))) = .ok none := by decide +kernel

/-! ## C62 -/

/-- As long as no goal was satisfied and the store was not limited, every goal of the first group of a level can be
sampled, and in later groups the last goal and those whose number in the group is at least the number of goals
in the groups before it.  Missing to the full claim: the other goals of later groups, and stores with
satisfied goals or after limiting. -/
theorem C62_desired_goals_sampled_partial (decay : Int → Rat) (n d : Int) (ops : List GoalOp) (g : GoalSystem)
    (hrun : runGoals decay n d ops = .ok g) (hops : ∀ op ∈ ops, (∀ t, op ≠ .limit t) ∧ ∀ e, op ≠ .event e)
    (level pre post : List Group) (gr : Group) (hl : level ∈ g.batchesByDepth) (hlev : level = pre ++ gr :: post)
    (j : Nat) (e : Entry) (he : gr.entries[j]? = some e)
    (hj : (pre.map (fun x => x.entries.length)).sum ≤ j ∨ j + 1 = gr.entries.length) :
    ∃ d1 d2, 0 < d1 ∧ d1 < 1 ∧ 0 ≤ d2 ∧ d2 < 1 ∧ goalSample g d1 d2 = .ok (some (e.sentence, e.depth)) := by
  have hg : GoalsAfter n d g := ⟨decay, ops, hrun⟩
  have hc := runGoals_counted hrun hops level hl
  have hne : level ∈ nonEmptyLevels g := by
    unfold nonEmptyLevels
    rw [List.mem_filter]
    exact ⟨hl, by rw [hlev]; simp⟩
  obtain ⟨k, hk⟩ := List.mem_iff_getElem?.1 hne
  have hkl := (List.getElem?_eq_some_iff.1 hk).1
  have hn : (0 : Rat) < ((nonEmptyLevels g).length : Rat) := by exact_mod_cast Nat.lt_of_le_of_lt (Nat.zero_le k) hkl
  have hkn : (k : Rat) + 1 ≤ ((nonEmptyLevels g).length : Rat) := by exact_mod_cast hkl
  have hk0 : (0 : Rat) ≤ k := Nat.cast_nonneg k
  obtain ⟨W, hW⟩ : ∃ W, TotalWeight level W := by
    obtain ⟨ws, hws, -⟩ := (hg.inv.1.levelOk hl).total
    exact ⟨_, weights_iff _ _ hws⟩
  have hjl := (List.getElem?_eq_some_iff.1 he).1
  have hWc := counted_total hc hW
  have hcount : max (entryCount pre) j < entryCount level := by
    have : entryCount level = entryCount pre + (gr.entries.length + entryCount post) := by
      rw [hlev]; simp [entryCount]
    omega
  have hpW : ((max (entryCount pre) j : Nat) : Rat) < W := by rw [hWc]; exact_mod_cast hcount
  have hp0 : (0 : Rat) ≤ ((max (entryCount pre) j : Nat) : Rat) := Nat.cast_nonneg _
  have hW0 : 0 < W := lt_of_le_of_lt hp0 hpW
  have hd1 : ((k : Rat) + 1/2) / ((nonEmptyLevels g).length : Rat) < 1 := by
    rw [div_lt_one hn]; linarith
  have hd10 : 0 < ((k : Rat) + 1/2) / ((nonEmptyLevels g).length : Rat) := div_pos (by linarith) hn
  have hd2 : 0 ≤ ((max (entryCount pre) j : Nat) : Rat) / W := div_nonneg hp0 hW0.le
  refine ⟨((k : Rat) + 1/2) / ((nonEmptyLevels g).length : Rat), ((max (entryCount pre) j : Nat) : Rat) / W, hd10, hd1,
    hd2, by rw [div_lt_one hW0]; exact hpW, ?_⟩
  obtain ⟨k', level', W', r, h1, h2, h3, h4, -, h5, h6⟩ := C27_sample_distribution n d g hg _
    (((max (entryCount pre) j : Nat) : Rat) / W) hd10 hd1.le hd2 (List.ne_nil_of_mem hne)
  rw [div_mul_cancel₀ _ hn.ne'] at h2 h3
  have hkk : k' = k := by
    have a : (k' : Rat) < k + 1 := by linarith
    have b : (k : Rat) < k' + 1 := by linarith
    have a' : k' < k + 1 := by exact_mod_cast a
    have b' : k < k' + 1 := by exact_mod_cast b
    omega
  subst hkk
  rw [hk] at h1
  cases Option.some.inj h1
  have hWW := h4.unique hW
  subst hWW
  rw [div_mul_cancel₀ _ hW0.ne'] at h6
  rw [h5, sampled_counted hlev hc he hW rfl hj h6]

/-- the second of two goals about `b`, which is behind one goal about `a` in the same level, can be sampled -/
example : ∃ g, runGoals (fun _ => 1) 20 1 [.add 0 (gl (.Name "a") [1]) none 0, .add 0 (gl (.Name "b") [2]) none 0,
      .add 0 (gl (.Name "b") [3]) none 0] = .ok g ∧
    ∃ d1 d2, 0 < d1 ∧ d1 < 1 ∧ 0 ≤ d2 ∧ d2 < 1 ∧ goalSample g d1 d2 = .ok (some (gl (.Name "b") [3], 0)) := by
  have hrun : (runGoals (fun _ => 1) 20 1 [.add 0 (gl (.Name "a") [1]) none 0, .add 0 (gl (.Name "b") [2]) none 0,
      .add 0 (gl (.Name "b") [3]) none 0]).map (fun g => g.batchesByDepth) = .ok
      [[⟨.Name "a", [⟨gl (.Name "a") [1], none, 0, 0, 1, 1, 0⟩]⟩,
        ⟨.Name "b", [⟨gl (.Name "b") [2], none, 0, 0, 1, 1, 0⟩, ⟨gl (.Name "b") [3], none, 0, 0, 1, 1, 1⟩]⟩]] := by
    decide +kernel
  obtain ⟨g, hg, hb⟩ := R.map_ok.1 hrun
  refine ⟨g, hg, C62_desired_goals_sampled_partial _ 20 1 _ g hg ?_
    [⟨.Name "a", [⟨gl (.Name "a") [1], none, 0, 0, 1, 1, 0⟩]⟩,
      ⟨.Name "b", [⟨gl (.Name "b") [2], none, 0, 0, 1, 1, 0⟩, ⟨gl (.Name "b") [3], none, 0, 0, 1, 1, 1⟩]⟩]
    [⟨.Name "a", [⟨gl (.Name "a") [1], none, 0, 0, 1, 1, 0⟩]⟩] [] _ (by rw [hb]; exact List.mem_singleton.2 rfl) rfl 1
    ⟨gl (.Name "b") [3], none, 0, 0, 1, 1, 1⟩ rfl (.inr rfl)⟩
  intro op hop
  simp only [List.mem_cons, List.not_mem_nil, or_false] at hop
  rcases hop with rfl | rfl | rfl <;> simp

/-- two groups: the first one has three goals and weight 3, the second one two goals and weight 2 -/
def starving : List GoalOp :=
  [.add 0 (gl (.Name "a") [1]) none 0, .add 0 (gl (.Name "a") [2]) none 0, .add 0 (gl (.Name "a") [3]) none 0,
   .add 0 (gl (.Name "b") [4]) none 0, .add 0 (gl (.Name "b") [5]) none 0]

/-- A stored and fully desired goal which no draw ever samples: the search inside a group ignores where the
group starts. -/
theorem C62_goal_starves : ∃ g e, runGoals (fun _ => 1) 20 1 starving = .ok g ∧ StoredAt g 0 e ∧
    e.desirability = 1 ∧ ∀ d1 d2 dep, 0 ≤ d2 → goalSample g d1 d2 ≠ .ok (some (e.sentence, dep)) := by
  have hrun : (runGoals (fun _ => 1) 20 1 starving).map (fun g => g.batchesByDepth) = .ok
      [[⟨.Name "a", [⟨gl (.Name "a") [1], none, 0, 0, 1, 1, 0⟩, ⟨gl (.Name "a") [2], none, 0, 0, 1, 1, 1⟩,
          ⟨gl (.Name "a") [3], none, 0, 0, 1, 1, 2⟩]⟩,
        ⟨.Name "b", [⟨gl (.Name "b") [4], none, 0, 0, 1, 1, 0⟩, ⟨gl (.Name "b") [5], none, 0, 0, 1, 1, 1⟩]⟩]] := by
    decide +kernel
  obtain ⟨g, hg, hb⟩ := R.map_ok.1 hrun
  have hgo : GoalsAfter 20 1 g := ⟨_, _, hg⟩
  refine ⟨g, ⟨gl (.Name "b") [4], none, 0, 0, 1, 1, 0⟩, hg, ⟨_, _, by rw [hb]; rfl, List.mem_cons_of_mem _ List.mem_cons_self,
      List.mem_cons_self⟩, rfl, ?_⟩
  intro d1 d2 dep h0 hs
  obtain ⟨level, hl⟩ := goalSample_selBatch hs
  have hm := selBatch_mem hl
  obtain ⟨r, W, hr, hW, hW0, hf⟩ := goalSample_level hgo.inv.1 h0 hl hm
  rw [hs] at hr
  have := Except.ok.inj hr
  subst this
  rw [hb, List.mem_singleton] at hm
  subst hm
  obtain ⟨pre, gr, post, before, w, h1, h2, -, h3, -, first, e, later, h4, h5, -, -, h6⟩ := hf
  match pre, h1, h2 with
  | [], h1, _ =>
    simp only [List.nil_append, List.cons.injEq] at h1
    obtain ⟨rfl, -⟩ := h1
    have he : e ∈ first ++ e :: later := by simp
    rw [← h4] at he
    simp only [List.mem_cons, List.not_mem_nil, or_false] at he
    have ht := congrArg Sentence.term h5
    rcases he with rfl | rfl | rfl <;> simp [gl, newEternalSentenceByTv] at ht
  | [p], h1, h2 =>
    simp only [List.cons_append, List.nil_append, List.cons.injEq] at h1
    obtain ⟨rfl, rfl, -⟩ := h1
    have hbef : before = 3 := by
      refine h2.unique ?_
      have : (3 : Rat) = (2 + 1) + 0 := by norm_num
      rw [this]
      exact .cons ⟨[_, _], _, rfl, rfl⟩ .nil
    match first, h4 with
    | [], h4 =>
      simp only [List.nil_append, List.cons.injEq] at h4
      obtain ⟨-, rfl⟩ := h4
      have := h6 _ (List.mem_singleton.2 rfl)
      simp only at this
      linarith
    | [x], h4 =>
      simp only [List.cons_append, List.nil_append, List.cons.injEq] at h4
      obtain ⟨-, rfl, -⟩ := h4
      have := congrArg (fun s => s.stamp.ids) h5
      simp [gl, newEternalSentenceByTv] at this
    | x :: y :: l, h4 =>
      have := congrArg List.length h4
      simp at this
  | p :: q :: l, h1, _ =>
    have := congrArg List.length h1
    simp at this

/-- Goals without any desirability are still sampled: every draw gives a satisfied goal. -/
theorem C62_satisfied_goals_still_sampled : ∃ g, runGoals (fun _ => 1) 20 1
      [.add 0 (gl (.Name "a") [1]) none 0, .add 0 (gl (.Name "a") [2]) none 0, .event (.Name "a")] = .ok g ∧
    (∀ e, Stored g e → e.desirability = 0) ∧
    ∀ d1 d2, 0 ≤ d2 → d2 < 1 → ∃ s dep, goalSample g d1 d2 = .ok (some (s, dep)) := by
  have hrun : (runGoals (fun _ => 1) 20 1 [.add 0 (gl (.Name "a") [1]) none 0, .add 0 (gl (.Name "a") [2]) none 0,
      .event (.Name "a")]).map (fun g => (g.batchesByDepth, g.activeSet)) = .ok
      ([[⟨.Name "a", [⟨gl (.Name "a") [1], none, 0, 0, 0, 1, 0⟩, ⟨gl (.Name "a") [2], none, 0, 0, 0, 1, 1⟩]⟩]], []) := by
    decide +kernel
  obtain ⟨g, hg, hb⟩ := R.map_ok.1 hrun
  have hgo : GoalsAfter 20 1 g := ⟨_, _, hg⟩
  simp only [Prod.mk.injEq] at hb
  refine ⟨g, hg, ?_, ?_⟩
  · intro e he
    have := (retEntries_mem g e).2 he
    simp only [retEntries, hb.1, hb.2] at this
    simp at this
    rcases this with rfl | rfl <;> rfl
  · intro d1 d2 h0 h1
    obtain ⟨level, hl⟩ := selBatch_total hgo.inv.1 (by rw [hgo.inv.2]; norm_num) d1
    have hm := selBatch_mem hl
    obtain ⟨r, W, hr, hW, hW0, hf⟩ := goalSample_level hgo.inv.1 h0 hl hm
    rw [hb.1, List.mem_singleton] at hm
    subst hm
    cases r with
    | some p => exact ⟨p.1, p.2, hr⟩
    | none =>
      exfalso
      have h1' : W = (1 + 0) + 0 := hW.unique (.cons ⟨[_], _, rfl, rfl⟩ .nil)
      have := hf W hW
      rw [h1'] at this
      linarith

/-! ## C28 -/

/-- What is derived from a goal and a belief is the backward step over a predictive rule with independent
evidence; nothing is derived exactly if the belief is no such rule or shares evidence. -/
theorem C28_goal_and_rule (s b : Sentence) :
    (∀ c, infGoalBelief s b = .ok (some c) → BackwardOver s b c) ∧
    (infGoalBelief s b = .ok none → (∀ cond, b.term ≠ .Stmt .PREDIMPL cond s.term) ∨ SharesEvidence s b) ∧
    ((∃ tv, HasTruth s tv) → (∃ tv, HasTruth b tv) → ∃ r, infGoalBelief s b = .ok r) :=
  ⟨fun _ h => infGoalBelief_some h, fun h => infGoalBelief_none h, infGoalBelief_total⟩

/-- A wanted sequence detaches its first step, with the desire and the evidence of the sequence; nothing else
is detached. -/
theorem C28_first_step (s : Sentence) :
    (∀ c, infGoalDetach s = .ok (some c) → FirstStepOf s c) ∧
    (infGoalDetach s = .ok none → ∀ first rest, s.term ≠ .Seq (first :: rest)) ∧
    ((∃ tv, HasTruth s tv) → ∃ r, infGoalDetach s = .ok r) :=
  ⟨fun _ h => infGoalDetach_some h, fun h => infGoalDetach_none h, infGoalDetach_total⟩

/-- Every goal which inference adds to the store is grounded: it is derived from the sampled stored goal by a
chain of steps, its depth counts the steps, and it remembers the belief used by the last step. -/
theorem C28_derived_goals_are_grounded (g g' : GoalSystem) (t : Int) (m : PMem) (d1 d2 : Rat) (rng : List Nat)
    (h : sampleAndInference g t m d1 d2 rng = .ok g') :
    (∀ x, Stored g x → Stored g' x) ∧
    ∀ x, Stored g' x → Stored g x ∨ ∃ i e k, StoredAt g i e ∧ GoalChain m e.sentence k x.sentence x.evidence ∧
      x.depth = e.depth + k ∧ x.createTime = t ∧ x.desirability = 1 := by
  obtain ⟨-, h1, h2⟩ := sampleAndInference_spec h
  refine ⟨h1, fun x hx => ?_⟩
  rcases h2 x hx with hx | ⟨i, e, c, a, he, -, ⟨k, hc, hk⟩, rfl⟩
  · exact .inl hx
  · exact .inr ⟨i, e, k, he, hc, hk, rfl, rfl⟩

/-- a rule `<(&/, a, op) =/> b>` with independent evidence -/
def ruleAB : Sentence :=
  { newEternalSentenceByTv (.Stmt .PREDIMPL (.Seq [.Name "a", opTerm "op" "x"]) (.Name "b")) .JUGEMENT ⟨1, 9/10⟩ ⟨[7]⟩ with
    evi := some (.CNT 3 3) }

/-- the goal `b!` and the rule yield the goal `(&/, a, op)!` and from this the goal `a!` -/
example : (runGoals (fun _ => 1) 20 8 [.add 0 (gl (.Name "b") [1]) none 0,
      .infer 0 ⟨[ruleAB, ruleAB], [⟨.Name "b", [0], [1]⟩]⟩ (1/2) (1/2) []]).map
        (fun g => (retEntries g).map (fun e => (e.sentence.term, e.depth))) =
    .ok [(.Name "b", 0), (.Seq [.Name "a", opTerm "op" "x"], 1), (.Name "a", 2)] := by decide +kernel

/-! ## C61 -/

/-- The goal system never crashes: any history of additions of goals with a truth value and a depth of at
least 0, events, limiting, inference with valid memories, executions and reconfigurations succeeds. -/
theorem C61_goal_system_never_crashes (decay : Int → Rat) (n d : Int) (hn : 0 ≤ n) (hd : 0 < d)
    (ops : List GoalOp) (h : ∀ op ∈ ops, op.Sane) : ∃ g, runGoals decay n d ops = .ok g := by
  have key : ∀ (ops : List GoalOp) (g : GoalSystem), (∀ op ∈ ops, op.Sane) → GInv g → g.nMaxDepth = d →
      0 ≤ g.nMaxEntries → Usable g → ∃ g', ops.foldlM (GoalOp.run decay) g = .ok g' := by
    intro ops
    induction ops with
    | nil => intro g _ _ _ _ _; exact ⟨g, rfl⟩
    | cons op ops ih =>
      intro g hs hi hdd hnn hu
      obtain ⟨g1, h1, h2, h3⟩ := GoalOp.run_total (decay := decay) hi (by rw [hdd]; exact hd) hnn hu (hs op (by simp))
      obtain ⟨g', hg'⟩ := ih g1 (fun o ho => hs o (by simp [ho])) (GoalOp.run_inv h1 hi)
        (by rw [GoalOp.run_cfg h1, hdd]) h2 h3
      exact ⟨g', foldlM_cons_ok.2 ⟨g1, h1, hg'⟩⟩
  refine key ops (makeGoalSystem n d) h (makeGoalSystem_inv n d) rfl hn ?_
  rintro e (he | ⟨i, level, gr, hl, hgr, -⟩)
  · simp [makeGoalSystem] at he
  · simp [makeGoalSystem, List.getElem?_replicate] at hl
    rw [hl.2] at hgr; simp at hgr

/-- a sane history -/
example : ∀ op ∈ ([.add 0 (gl (.Name "b") [1]) none 0, .infer 0 ⟨[ruleAB], [⟨.Name "b", [0], [0]⟩]⟩ (1/2) (1/2) [],
    .event (.Name "a"), .limit 3, .configure 5 false, .executed 7] : List GoalOp), op.Sane := by
  have h : HasTruth ruleAB ⟨3/3, 3/4⟩ := by unfold HasTruth; decide +kernel
  intro op hop
  simp only [List.mem_cons, List.not_mem_nil, or_false] at hop
  rcases hop with rfl | rfl | rfl | rfl | rfl | rfl
  · exact ⟨rfl, ⟨_, rfl⟩, le_refl _⟩
  · refine ⟨⟨?_, ?_⟩, by norm_num⟩
    · simp
    · intro b hb
      simp only [List.mem_singleton] at hb
      subst hb
      exact ⟨_, h⟩
  · trivial
  · trivial
  · show (0 : Int) ≤ 5
    norm_num
  · trivial

/-- At the boundaries it does crash: goals without levels, a negative capacity, a question given as goal. -/
theorem C61_boundaries :
    runGoals (fun _ => 1) 20 0 [.add 0 (gl (.Name "a") [1]) none 0] = .error .index ∧
    runGoals (fun _ => 1) (-1) 8 [.limit 0] = .error .index ∧
    runGoals (fun _ => 1) 20 8 [.add 0 { gl (.Name "a") [1] with punct := .QUESTION } none 0] = .error .explicit :=
  ⟨rfl, rfl, rfl⟩

end Nar.Props
