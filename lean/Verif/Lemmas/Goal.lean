import Verif.Lemmas.Task2
import Verif.Spec.Goal
import Mathlib.Tactic.Ring
import Mathlib.Tactic.Linarith
/-! # Lemmas about the goal system -/
namespace Nar
open Term

theorem decodeOp_isSome_iff (t : Term) : (decodeOp t).isSome = true ↔
    ∃ args name, args ≠ [] ∧ t = .Stmt .INH (.SetExt [.Prod args]) (.Name name) := by
  constructor
  · intro h
    unfold decodeOp at h
    split at h
    · exact ⟨_, _, by simp, rfl⟩
    · simp at h
  · rintro ⟨args, name, hne, rfl⟩
    cases args with
    | nil => exact absurd rfl hne
    | cons a as => simp [decodeOp]

theorem executable_iff (s : Sentence) : Executable s ↔ (decodeOp s.term).isSome = true :=
  (decodeOp_isSome_iff _).symm

theorem sameGoal_iff (a b : Sentence) : sameGoal a b = true ↔ SameGoal a b := by
  simp [sameGoal, SameGoal, checkEqTerm_iff, Stamp.checkSame_iff]

theorem checkSetContains_iff (set : List Entry) (s : Sentence) :
    checkSetContains set s = true ↔ ∃ e ∈ set, SameGoal e.sentence s := by
  simp [checkSetContains, sameGoal_iff]

theorem joinGroup_some {e : Entry} {gs gs' : List Group} (h : joinGroup e gs = .ok (some gs')) :
    ∃ pre gr post last, gs = pre ++ gr :: post ∧ (∀ x ∈ pre, x.term ≠ e.sentence.term) ∧
      gr.term = e.sentence.term ∧ gr.entries.getLast? = some last ∧
      gs' = pre ++ { gr with entries := gr.entries ++
        [{ e with accDesirability := last.accDesirability + max last.desirability 0 }] } :: post := by
  induction gs generalizing gs' with
  | nil => simp [joinGroup] at h
  | cons g gs ih =>
    unfold joinGroup at h
    split at h
    · rename_i heq
      cases hl : g.entries.getLast? with
      | none => rw [hl] at h; simp at h
      | some last =>
        rw [hl] at h
        simp at h
        exact ⟨[], g, gs, last, rfl, by simp, (checkEqTerm_iff _ _).1 heq, hl, h.symm⟩
    · rename_i hne
      obtain ⟨r, hr, h2⟩ := R.bind_ok.1 h
      cases r with
      | none => simp at h2
      | some r =>
        simp at h2
        obtain ⟨pre, gr, post, last, h1, h3, h4, h5, h6⟩ := ih hr
        refine ⟨g :: pre, gr, post, last, by simp [h1], ?_, h4, h5, by simp [← h2, h6]⟩
        intro x hx
        simp at hx
        rcases hx with rfl | hx
        · intro hc; exact hne ((checkEqTerm_iff _ _).2 hc)
        · exact h3 x hx

theorem joinGroup_none {e : Entry} {gs : List Group} (h : joinGroup e gs = .ok none) :
    ∀ x ∈ gs, x.term ≠ e.sentence.term := by
  induction gs with
  | nil => simp
  | cons g gs ih =>
    unfold joinGroup at h
    split at h
    · cases hl : g.entries.getLast? with
      | none => rw [hl] at h; simp at h
      | some last => rw [hl] at h; simp at h
    · rename_i hne
      obtain ⟨r, hr, h2⟩ := R.bind_ok.1 h
      cases r with
      | some r => simp at h2
      | none =>
        intro x hx
        simp at hx
        rcases hx with rfl | hx
        · intro hc; exact hne ((checkEqTerm_iff _ _).2 hc)
        · exact ih hr x hx

theorem joinGroup_total {e : Entry} {gs : List Group} (h : ∀ gr ∈ gs, gr.entries ≠ []) :
    ∃ r, joinGroup e gs = .ok r := by
  induction gs with
  | nil => exact ⟨_, rfl⟩
  | cons g gs ih =>
    unfold joinGroup
    split
    · cases hl : g.entries.getLast? with
      | none => exact absurd (List.getLast?_eq_none_iff.1 hl) (h g (by simp))
      | some last => exact ⟨_, rfl⟩
    · obtain ⟨r, hr⟩ := ih (fun gr hgr => h gr (by simp [hgr]))
      exact ⟨_, by rw [hr]; rfl⟩

/-- a group of one statement -/
structure GroupOk (nMaxDepth : Int) (i : Nat) (gr : Group) : Prop where
  nonempty : gr.entries ≠ []
  term : ∀ e ∈ gr.entries, e.sentence.term = gr.term
  notOp : (decodeOp gr.term).isSome = false
  level : ∀ e ∈ gr.entries, (i : Int) = min e.depth (nMaxDepth - 1)
  accSorted : gr.entries.Pairwise (fun a b => a.accDesirability ≤ b.accDesirability)

/-- an entry with attributes in range -/
structure EntryOk (e : Entry) : Prop where
  goal : e.sentence.punct = .GOAL
  des0 : 0 ≤ e.desirability
  des1 : e.desirability ≤ 1
  acc0 : 0 ≤ e.accDesirability

/-- the invariant of the goal system -/
structure GInv (g : GoalSystem) : Prop where
  nlevels : g.batchesByDepth.length = g.nMaxDepth.toNat
  groups : ∀ (i : Nat) (level : List Group), g.batchesByDepth[i]? = some level → ∀ gr ∈ level, GroupOk g.nMaxDepth i gr
  distinct : ∀ (i : Nat) (level : List Group), g.batchesByDepth[i]? = some level → (level.map (·.term)).Nodup
  entries : ∀ e, Stored g e → EntryOk e
  activeOp : ∀ e ∈ g.activeSet, (decodeOp e.sentence.term).isSome = true
  activeOnce : g.activeSet.Pairwise (fun a b => ¬ SameGoal a.sentence b.sentence)
  keys : (g.entriesByTerm.map (·.1)).Nodup
  reg : ∀ k arr, (k, arr) ∈ g.entriesByTerm → ∀ s ∈ arr, s.term = k ∧ ∃ i e, StoredAt g i e ∧ e.sentence = s

theorem makeGoalSystem_inv (n d : Int) : GInv (makeGoalSystem n d) where
  nlevels := by simp [makeGoalSystem]
  groups := by
    intro i level h gr hgr
    simp [makeGoalSystem, List.getElem?_replicate] at h
    rw [h.2] at hgr; simp at hgr
  distinct := by
    intro i level h
    simp [makeGoalSystem, List.getElem?_replicate] at h
    rw [h.2]; simp
  entries := by
    intro e h
    rcases h with h | ⟨i, level, gr, h, hgr, he⟩
    · simp [makeGoalSystem] at h
    · simp [makeGoalSystem, List.getElem?_replicate] at h
      rw [h.2] at hgr; simp at hgr
  activeOp := by simp [makeGoalSystem]
  activeOnce := by simp [makeGoalSystem]
  keys := by simp [makeGoalSystem]
  reg := by simp [makeGoalSystem]

theorem registerByTerm_keys (s : Sentence) (m : List (Term × List Sentence)) (h : (m.map (·.1)).Nodup) :
    ((registerByTerm s m).map (·.1)).Nodup ∧
    ∀ k, k ∈ (registerByTerm s m).map (·.1) ↔ k = s.term ∨ k ∈ m.map (·.1) := by
  induction m with
  | nil => simp [registerByTerm]
  | cons p m ih =>
    obtain ⟨k, arr⟩ := p
    simp only [List.map_cons, List.nodup_cons] at h
    obtain ⟨ih1, ih2⟩ := ih h.2
    unfold registerByTerm
    split
    · rename_i heq
      have hk := (checkEqTerm_iff _ _).1 heq
      split <;> (simp only [List.map_cons, List.nodup_cons]; refine ⟨h, fun x => ?_⟩; simp [hk])
    · rename_i hne
      have hk : k ≠ s.term := fun hc => hne ((checkEqTerm_iff _ _).2 hc)
      simp only [List.map_cons, List.nodup_cons]
      refine ⟨⟨?_, ih1⟩, fun x => ?_⟩
      · rw [ih2]; rintro (hc | hc)
        · exact hk hc
        · exact h.1 hc
      · rw [List.mem_cons, ih2, List.mem_cons]; tauto

theorem registerByTerm_mem {s x : Sentence} {m : List (Term × List Sentence)} {k : Term} {arr : List Sentence}
    (h : (k, arr) ∈ registerByTerm s m) (hx : x ∈ arr) :
    (x = s ∧ k = s.term) ∨ ∃ arr', (k, arr') ∈ m ∧ x ∈ arr' := by
  induction m with
  | nil =>
    simp [registerByTerm] at h
    obtain ⟨rfl, rfl⟩ := h
    simp at hx; exact .inl ⟨hx, rfl⟩
  | cons p m ih =>
    obtain ⟨k', arr'⟩ := p
    unfold registerByTerm at h
    split at h
    · rename_i heq
      have hk := (checkEqTerm_iff _ _).1 heq
      split at h
      · exact .inr ⟨arr, h, hx⟩
      · simp only [List.mem_cons] at h
        rcases h with h | h
        · cases h
          simp at hx
          rcases hx with hx | rfl
          · exact .inr ⟨_, List.mem_cons_self, hx⟩
          · exact .inl ⟨rfl, hk⟩
        · exact .inr ⟨arr, by simp [h], hx⟩
    · simp only [List.mem_cons] at h
      rcases h with h | h
      · cases h; exact .inr ⟨_, List.mem_cons_self, hx⟩
      · rcases ih h with h | ⟨a, h1, h2⟩
        · exact .inl h
        · exact .inr ⟨a, by simp [h1], h2⟩

theorem lookupSents_mem {m : List (Term × List Sentence)} {t : Term} {arr : List Sentence}
    (h : lookupSents m t = some arr) : (t, arr) ∈ m := by
  unfold lookupSents at h
  rw [Option.map_eq_some_iff] at h
  obtain ⟨p, hp, rfl⟩ := h
  have h1 := List.mem_of_find?_eq_some hp
  have h2 := List.find?_some hp
  rw [checkEqTerm_iff] at h2
  rw [← h2]; exact h1

theorem lookupSents_of_mem {m : List (Term × List Sentence)} (hn : (m.map (·.1)).Nodup) {t : Term} {arr : List Sentence}
    (h : (t, arr) ∈ m) : lookupSents m t = some arr := by
  unfold lookupSents
  rw [Option.map_eq_some_iff]
  have : (m.find? (fun p => checkEqTerm p.1 t)).isSome := by
    rw [List.find?_isSome]; exact ⟨_, h, (checkEqTerm_iff _ _).2 rfl⟩
  obtain ⟨p, hp⟩ := Option.isSome_iff_exists.1 this
  refine ⟨p, hp, ?_⟩
  have h1 := List.mem_of_find?_eq_some hp
  have h2 := List.find?_some hp
  rw [checkEqTerm_iff] at h2
  have := eq_of_nodup_map hn p h1 (t, arr) h h2
  rw [this]

theorem goalRegistered_iff {g : GoalSystem} (hi : GInv g) (goal : Sentence) :
    goalRegistered g goal = true ↔ ∃ arr, (goal.term, arr) ∈ g.entriesByTerm ∧ ∃ s ∈ arr, SameGoal s goal := by
  unfold goalRegistered
  constructor
  · intro h
    cases hl : lookupSents g.entriesByTerm goal.term with
    | none => rw [hl] at h; simp at h
    | some arr =>
      rw [hl] at h
      simp [sameGoal_iff] at h
      exact ⟨arr, lookupSents_mem hl, h⟩
  · rintro ⟨arr, h1, s, h2, h3⟩
    rw [lookupSents_of_mem hi.keys h1]
    simp only [List.any_eq_true]
    exact ⟨s, h2, (sameGoal_iff _ _).2 h3⟩

/-- the entry as it is stored -/
def withAcc (e : Entry) (a : Rat) : Entry := { e with accDesirability := a }

theorem addToLevel_cases {g g' : GoalSystem} {e : Entry} (h : addToLevel g e = .ok g') :
    ∃ (i : Nat) (level : List Group), (i : Int) = min e.depth (g.nMaxDepth - 1) ∧ g.batchesByDepth[i]? = some level ∧
    ((∃ pre gr post last, level = pre ++ gr :: post ∧ (∀ x ∈ pre, x.term ≠ e.sentence.term) ∧
        gr.term = e.sentence.term ∧ gr.entries.getLast? = some last ∧
        g' = { g with batchesByDepth := g.batchesByDepth.set i (pre ++ { gr with entries := gr.entries ++
          [withAcc e (last.accDesirability + max last.desirability 0)] } :: post) }) ∨
     ((∀ x ∈ level, x.term ≠ e.sentence.term) ∧
        g' = { g with batchesByDepth := g.batchesByDepth.set i (level ++ [{ term := e.sentence.term, entries := [e] }])
                      entriesByTerm := registerByTerm e.sentence g.entriesByTerm })) := by
  unfold addToLevel at h
  simp only at h
  split at h
  · simp at h
  · rename_i hneg
    obtain ⟨level, hl, h⟩ := R.bind_ok.1 h
    obtain ⟨j, hj, h⟩ := R.bind_ok.1 h
    rw [indexAt_ok] at hl
    refine ⟨(min e.depth (g.nMaxDepth - 1)).toNat, level, Int.toNat_of_nonneg (by omega), hl, ?_⟩
    cases j with
    | some groups =>
      simp at h
      obtain ⟨pre, gr, post, last, h1, h2, h3, h4, h5⟩ := joinGroup_some hj
      exact .inl ⟨pre, gr, post, last, h1, h2, h3, h4, by rw [← h, h5]; rfl⟩
    | none =>
      simp at h
      exact .inr ⟨joinGroup_none hj, h.symm⟩

theorem StoredAt_set {g g' : GoalSystem} {i : Nat} {level level' : List Group}
    (hb : g'.batchesByDepth = g.batchesByDepth.set i level') (hl : g.batchesByDepth[i]? = some level)
    (j : Nat) (x : Entry) : StoredAt g' j x ↔ (j ≠ i ∧ StoredAt g j x) ∨ (j = i ∧ ∃ gr ∈ level', x ∈ gr.entries) := by
  have hlt : i < g.batchesByDepth.length := (List.getElem?_eq_some_iff.1 hl).1
  unfold StoredAt
  rw [hb]
  by_cases hj : j = i
  · subst hj
    simp [List.getElem?_set_self hlt]
  · rw [List.getElem?_set_ne (Ne.symm hj)]
    simp [hj]

theorem StoredAt_level {g : GoalSystem} {i : Nat} {level : List Group} (hl : g.batchesByDepth[i]? = some level)
    (x : Entry) : StoredAt g i x ↔ ∃ gr ∈ level, x ∈ gr.entries := by
  unfold StoredAt
  rw [hl]
  simp

/-- everything about adding to a level -/
theorem addToLevel_spec {g g' : GoalSystem} {e : Entry} (h : addToLevel g e = .ok g') :
    ∃ (i : Nat) (a : Rat), (i : Int) = min e.depth (g.nMaxDepth - 1) ∧ i < g.batchesByDepth.length ∧
      (∀ j x, StoredAt g' j x ↔ StoredAt g j x ∨ (j = i ∧ x = withAcc e a)) ∧
      g'.activeSet = g.activeSet ∧ g'.nMaxDepth = g.nMaxDepth ∧ g'.nMaxEntries = g.nMaxEntries ∧
      g'.enGoalSatisfaction = g.enGoalSatisfaction ∧ g'.rounds = g.rounds ∧
      g'.batchesByDepth.length = g.batchesByDepth.length ∧
      (a = e.accDesirability ∨ ∃ last, StoredAt g i last ∧ a = last.accDesirability + max last.desirability 0) := by
  obtain ⟨i, level, hi, hl, hc⟩ := addToLevel_cases h
  have hlt : i < g.batchesByDepth.length := (List.getElem?_eq_some_iff.1 hl).1
  rcases hc with ⟨pre, gr, post, last, h1, h2, h3, h4, rfl⟩ | ⟨h1, rfl⟩
  · refine ⟨i, last.accDesirability + max last.desirability 0, hi, hlt, ?_, rfl, rfl, rfl, rfl, rfl, by simp, ?_⟩
    · intro j x
      rw [StoredAt_set rfl hl]
      by_cases hj : j = i
      · subst hj
        rw [StoredAt_level hl, h1]
        simp only [ne_eq, not_true, false_and, true_and, false_or, List.mem_append, List.mem_cons]
        constructor
        · rintro ⟨gr', (hg | rfl | hg), hx⟩
          · exact .inl ⟨gr', .inl hg, hx⟩
          · simp only [List.mem_append, List.mem_singleton] at hx
            rcases hx with hx | hx
            · exact .inl ⟨gr, .inr (.inl rfl), hx⟩
            · exact .inr hx
          · exact .inl ⟨gr', .inr (.inr hg), hx⟩
        · rintro (⟨gr', (hg | rfl | hg), hx⟩ | hx)
          · exact ⟨gr', .inl hg, hx⟩
          · exact ⟨_, .inr (.inl rfl), by simp [hx]⟩
          · exact ⟨gr', .inr (.inr hg), hx⟩
          · exact ⟨_, .inr (.inl rfl), by simp [hx]⟩
      · simp [hj]
    · exact .inr ⟨last, (StoredAt_level hl _).2 ⟨gr, by simp [h1], List.mem_of_getLast? h4⟩, rfl⟩
  · refine ⟨i, e.accDesirability, hi, hlt, ?_, rfl, rfl, rfl, rfl, rfl, by simp, .inl rfl⟩
    intro j x
    rw [StoredAt_set rfl hl]
    by_cases hj : j = i
    · subst hj
      rw [StoredAt_level hl]
      simp only [ne_eq, not_true, false_and, true_and, false_or, List.mem_append, List.mem_singleton]
      constructor
      · rintro ⟨gr', (hg | rfl), hx⟩
        · exact .inl ⟨gr', hg, hx⟩
        · simp at hx; exact .inr hx
      · rintro (⟨gr', hg, hx⟩ | hx)
        · exact ⟨gr', .inl hg, hx⟩
        · exact ⟨_, .inr rfl, by simp [hx, withAcc]⟩
    · simp [hj]

theorem addToLevel_inv {g g' : GoalSystem} {e : Entry} (h : addToLevel g e = .ok g') (hi : GInv g)
    (ho : (decodeOp e.sentence.term).isSome = false) (he : EntryOk e) : GInv g' := by
  obtain ⟨i, a, hd, hlt, hst, hact, hnd, -, -, -, hlen, ha⟩ := addToLevel_spec h
  obtain ⟨i', level, hi', hl, hc⟩ := addToLevel_cases h
  have hii : i' = i := by omega
  subst hii
  have ha0 : 0 ≤ a := by
    rcases ha with rfl | ⟨last, hs, rfl⟩
    · exact he.acc0
    · have := hi.entries last (.inr ⟨_, hs⟩)
      have h1 := this.acc0
      have h2 : (0 : Rat) ≤ max last.desirability 0 := le_max_right _ _
      linarith
  have hreg : ∀ x, (∃ i e, StoredAt g i e ∧ e.sentence = x) → ∃ i e, StoredAt g' i e ∧ e.sentence = x := by
    rintro x ⟨j, y, hy, rfl⟩
    exact ⟨j, y, (hst j y).2 (.inl hy), rfl⟩
  have hgetlevel : ∀ (level' : List Group), g'.batchesByDepth = g.batchesByDepth.set i' level' →
      ∀ (j : Nat) (l : List Group), g'.batchesByDepth[j]? = some l →
        (j = i' ∧ l = level') ∨ g.batchesByDepth[j]? = some l := by
    intro level' hb j l hjl
    rw [hb] at hjl
    by_cases hj : j = i'
    · subst hj
      rw [List.getElem?_set_self hlt] at hjl
      exact .inl ⟨rfl, (Option.some.inj hjl).symm⟩
    · rw [List.getElem?_set_ne (Ne.symm hj)] at hjl
      exact .inr hjl
  refine ⟨by rw [hlen, hnd, hi.nlevels], ?_, ?_, ?_, by rw [hact]; exact hi.activeOp,
    by rw [hact]; exact hi.activeOnce, ?_, ?_⟩
  · -- groups
    intro j l hjl gr hgr
    rw [hnd]
    rcases hc with ⟨pre, gr0, post, last, h1, h2, h3, h4, hg'⟩ | ⟨h1, hg'⟩
    · rcases hgetlevel _ (by rw [hg']) j l hjl with ⟨rfl, rfl⟩ | hjl
      · simp only [List.mem_append, List.mem_cons] at hgr
        have old : ∀ x ∈ level, GroupOk g.nMaxDepth j x := hi.groups j level hl
        rcases hgr with hgr | rfl | hgr
        · exact old gr (by simp [h1, hgr])
        · have o := old gr0 (by simp [h1])
          refine ⟨by simp, ?_, o.notOp, ?_, ?_⟩
          · intro x hx
            simp only [List.mem_append, List.mem_singleton] at hx
            rcases hx with hx | rfl
            · exact o.term x hx
            · exact h3.symm
          · intro x hx
            simp only [List.mem_append, List.mem_singleton] at hx
            rcases hx with hx | rfl
            · exact o.level x hx
            · exact hi'
          · rw [List.pairwise_append]
            refine ⟨o.accSorted, by simp, ?_⟩
            intro x hx y hy
            simp at hy
            subst hy
            obtain ⟨ini, hini⟩ := List.getLast?_eq_some_iff.1 h4
            have hsort := o.accSorted
            rw [hini] at hsort hx
            rw [List.pairwise_append] at hsort
            have hm : (0 : Rat) ≤ max last.desirability 0 := le_max_right _ _
            simp only [List.mem_append, List.mem_singleton] at hx
            simp only [withAcc]
            rcases hx with hx | rfl
            · have := hsort.2.2 x hx last (by simp)
              linarith
            · linarith
        · exact old gr (by simp [h1, hgr])
      · exact hi.groups j l hjl gr hgr
    · rcases hgetlevel _ (by rw [hg']) j l hjl with ⟨rfl, rfl⟩ | hjl
      · simp only [List.mem_append, List.mem_singleton] at hgr
        rcases hgr with hgr | rfl
        · exact hi.groups j level hl gr hgr
        · exact ⟨by simp, by simp, ho, by simpa using hi', by simp⟩
      · exact hi.groups j l hjl gr hgr
  · -- distinct
    intro j l hjl
    rcases hc with ⟨pre, gr0, post, last, h1, h2, h3, h4, hg'⟩ | ⟨h1, hg'⟩
    · rcases hgetlevel _ (by rw [hg']) j l hjl with ⟨rfl, rfl⟩ | hjl
      · have := hi.distinct j level hl
        rw [h1] at this
        simpa using this
      · exact hi.distinct j l hjl
    · rcases hgetlevel _ (by rw [hg']) j l hjl with ⟨rfl, rfl⟩ | hjl
      · have := hi.distinct j level hl
        rw [List.map_append, List.nodup_append]
        refine ⟨this, by simp, ?_⟩
        intro x hx y hy
        simp at hy hx
        obtain ⟨gr, hgr, rfl⟩ := hx
        subst hy
        exact h1 gr hgr
      · exact hi.distinct j l hjl
  · -- entries
    intro x hx
    rcases hx with hx | ⟨j, hx⟩
    · rw [hact] at hx; exact hi.entries x (.inl hx)
    · rcases (hst j x).1 hx with hx | ⟨-, rfl⟩
      · exact hi.entries x (.inr ⟨j, hx⟩)
      · exact ⟨he.goal, he.des0, he.des1, ha0⟩
  · -- keys
    rcases hc with ⟨pre, gr0, post, last, h1, h2, h3, h4, hg'⟩ | ⟨h1, hg'⟩
    · rw [hg']; exact hi.keys
    · rw [hg']; exact (registerByTerm_keys _ _ hi.keys).1
  · -- reg
    intro k arr hk s hs
    rcases hc with ⟨pre, gr0, post, last, h1, h2, h3, h4, hg'⟩ | ⟨h1, hg'⟩
    · have hk' : (k, arr) ∈ g.entriesByTerm := by rw [hg'] at hk; exact hk
      exact ⟨(hi.reg k arr hk' s hs).1, hreg s (hi.reg k arr hk' s hs).2⟩
    · have hk' : (k, arr) ∈ registerByTerm e.sentence g.entriesByTerm := by rw [hg'] at hk; exact hk
      rcases registerByTerm_mem hk' hs with ⟨rfl, rfl⟩ | ⟨arr', h2, h3⟩
      · exact ⟨rfl, i', _, (hst i' _).2 (.inr ⟨rfl, rfl⟩), rfl⟩
      · exact ⟨(hi.reg k arr' h2 s h3).1, hreg s (hi.reg k arr' h2 s h3).2⟩

theorem addEntry2_inv {g g' : GoalSystem} {e : Entry} (h : addEntry2 g e = .ok g') (hi : GInv g)
    (he : EntryOk e) : GInv g' := by
  unfold addEntry2 at h
  split at h
  · rename_i ho
    split at h
    · rw [← Except.ok.inj h]; exact hi
    · rename_i hc
      have := Except.ok.inj h
      subst this
      have hnot : ∀ x ∈ g.activeSet, ¬ SameGoal x.sentence e.sentence := by
        intro x hx hs
        exact hc ((checkSetContains_iff _ _).2 ⟨x, hx, hs⟩)
      refine ⟨hi.nlevels, hi.groups, hi.distinct, ?_, ?_, ?_, hi.keys, hi.reg⟩
      · intro x hx
        rcases hx with hx | hx
        · simp at hx
          rcases hx with hx | rfl
          · exact hi.entries x (.inl hx)
          · exact he
        · exact hi.entries x (.inr hx)
      · intro x hx
        simp at hx
        rcases hx with hx | rfl
        · exact hi.activeOp x hx
        · exact ho
      · simp only [List.pairwise_append]
        refine ⟨hi.activeOnce, by simp, ?_⟩
        intro x hx y hy
        simp at hy; subst hy
        exact hnot x hx
  · rename_i ho
    exact addToLevel_inv h hi (by simpa using ho) he

theorem newEntry_ok {t : Int} {goal : Sentence} {ev : Option Nat} {d : Int} (h : goal.punct = .GOAL) :
    EntryOk (newEntry t goal ev d) := ⟨h, by simp [newEntry], by simp [newEntry], by simp [newEntry]⟩

theorem addEntry_inv {g g' : GoalSystem} {t : Int} {goal : Sentence} {ev : Option Nat} {d : Int}
    (h : addEntry g t goal ev d = .ok g') (hi : GInv g) : GInv g' := by
  unfold addEntry at h
  split at h
  · simp at h
  · rename_i hp
    split at h
    · rw [← Except.ok.inj h]; exact hi
    · exact addEntry2_inv h hi (newEntry_ok (by simpa using hp))

end Nar
