import Verif.Lemmas.Goal
/-! # Lemmas about forgetting, satisfying and deriving goals -/
namespace Nar
open Term

/-! ## counting -/

theorem sum_map_set {α} (f : α → Nat) (l : List α) (i : Nat) (x y : α) (k : Nat) (h : l[i]? = some x) (hf : f y = f x + k) :
    ((l.set i y).map f).sum = (l.map f).sum + k := by
  induction l generalizing i with
  | nil => simp at h
  | cons a l ih =>
    cases i with
    | zero => simp at h; subst h; simp [hf]; omega
    | succ i =>
      simp at h
      have := ih i h
      simp only [List.set_cons_succ, List.map_cons, List.sum_cons]; omega

theorem addToLevel_count {g g' : GoalSystem} {e : Entry} (h : addToLevel g e = .ok g') :
    levelCount g' = levelCount g + 1 := by
  obtain ⟨i, level, hi, hl, hc⟩ := addToLevel_cases h
  unfold levelCount
  rcases hc with ⟨pre, gr, post, last, h1, h2, h3, h4, rfl⟩ | ⟨h1, rfl⟩
  · refine sum_map_set _ _ _ level _ 1 hl ?_
    rw [h1]; simp; omega
  · refine sum_map_set _ _ _ level _ 1 hl ?_
    simp

theorem retEntries_mem (g : GoalSystem) (e : Entry) : e ∈ retEntries g ↔ Stored g e := by
  unfold retEntries Stored StoredAt
  simp only [List.mem_append, List.mem_flatMap]
  constructor
  · rintro (⟨b, hb, gr, hgr, he⟩ | h)
    · obtain ⟨i, hi⟩ := List.getElem?_of_mem hb
      exact .inr ⟨i, b, gr, hi, hgr, he⟩
    · exact .inl h
  · rintro (h | ⟨i, b, gr, hi, hgr, he⟩)
    · exact .inr h
    · exact .inl ⟨b, List.mem_of_getElem? hi, gr, hgr, he⟩

theorem retEntries_length (g : GoalSystem) : (retEntries g).length = goalCount g := by
  unfold retEntries goalCount levelCount
  simp [List.length_flatMap]

/-! ## adding an entry -/

theorem addEntry2_cases {g g' : GoalSystem} {e : Entry} (h : addEntry2 g e = .ok g') :
    ((decodeOp e.sentence.term).isSome = true ∧ (∃ x ∈ g.activeSet, SameGoal x.sentence e.sentence) ∧ g' = g) ∨
    ((decodeOp e.sentence.term).isSome = true ∧ (∀ x ∈ g.activeSet, ¬ SameGoal x.sentence e.sentence) ∧
      g' = { g with activeSet := g.activeSet ++ [e] }) ∨
    ((decodeOp e.sentence.term).isSome = false ∧ addToLevel g e = .ok g') := by
  unfold addEntry2 at h
  split at h
  · rename_i ho
    split at h
    · rename_i hc
      exact .inl ⟨ho, (checkSetContains_iff _ _).1 hc, (Except.ok.inj h).symm⟩
    · rename_i hc
      refine .inr (.inl ⟨ho, fun x hx hs => hc ((checkSetContains_iff _ _).2 ⟨x, hx, hs⟩), (Except.ok.inj h).symm⟩)
  · rename_i ho
    exact .inr (.inr ⟨by simpa using ho, h⟩)

/-- configuration fields are not changed -/
def SameCfg (g g' : GoalSystem) : Prop :=
  g'.nMaxEntries = g.nMaxEntries ∧ g'.nMaxDepth = g.nMaxDepth ∧ g'.enGoalSatisfaction = g.enGoalSatisfaction ∧
  g'.rounds = g.rounds ∧ g'.batchesByDepth.length = g.batchesByDepth.length

theorem SameCfg.refl (g : GoalSystem) : SameCfg g g := ⟨rfl, rfl, rfl, rfl, rfl⟩
theorem SameCfg.trans {a b c : GoalSystem} (h : SameCfg a b) (h' : SameCfg b c) : SameCfg a c :=
  ⟨h'.1.trans h.1, h'.2.1.trans h.2.1, h'.2.2.1.trans h.2.2.1, h'.2.2.2.1.trans h.2.2.2.1,
    h'.2.2.2.2.trans h.2.2.2.2⟩

theorem addEntry2_spec {g g' : GoalSystem} {e : Entry} (h : addEntry2 g e = .ok g') :
    SameCfg g g' ∧ (∀ x, Stored g x → Stored g' x) ∧
    (∃ x, Stored g' x ∧ SameGoal x.sentence e.sentence) ∧
    (∀ x, Stored g' x → Stored g x ∨ ∃ a, x = withAcc e a) ∧ goalCount g' ≤ goalCount g + 1 := by
  rcases addEntry2_cases h with ⟨ho, ⟨x, hx, hs⟩, rfl⟩ | ⟨ho, hn, rfl⟩ | ⟨ho, h⟩
  · exact ⟨.refl _, fun _ h => h, ⟨x, .inl hx, hs⟩, fun _ h => .inl h, by omega⟩
  · refine ⟨⟨rfl, rfl, rfl, rfl, rfl⟩, ?_, ⟨e, .inl (by simp), rfl, rfl⟩, ?_, ?_⟩
    · rintro x (hx | hx)
      · exact .inl (by simp [hx])
      · exact .inr hx
    · rintro x (hx | hx)
      · simp at hx
        rcases hx with hx | rfl
        · exact .inl (.inl hx)
        · exact .inr ⟨_, rfl⟩
      · exact .inl (.inr hx)
    · simp [goalCount, levelCount]; omega
  · obtain ⟨i, a, hd, hlt, hst, hact, hnd, hne, hen, hro, hlen, ha⟩ := addToLevel_spec h
    refine ⟨⟨hne, hnd, hen, hro, hlen⟩, ?_, ⟨withAcc e a, .inr ⟨i, (hst _ _).2 (.inr ⟨rfl, rfl⟩)⟩, rfl, rfl⟩, ?_, ?_⟩
    · rintro x (hx | ⟨j, hx⟩)
      · exact .inl (by rw [hact]; exact hx)
      · exact .inr ⟨j, (hst _ _).2 (.inl hx)⟩
    · rintro x (hx | ⟨j, hx⟩)
      · exact .inl (.inl (by rw [← hact]; exact hx))
      · rcases (hst _ _).1 hx with hx | ⟨-, rfl⟩
        · exact .inl (.inr ⟨j, hx⟩)
        · exact .inr ⟨a, rfl⟩
    · have := addToLevel_count h
      simp [goalCount, hact]; omega

theorem addEntry_cases {g g' : GoalSystem} {t : Int} {goal : Sentence} {ev : Option Nat} {d : Int}
    (h : addEntry g t goal ev d = .ok g') : goal.punct = .GOAL ∧
      ((goalRegistered g goal = true ∧ g' = g) ∨
       (goalRegistered g goal = false ∧ addEntry2 g (newEntry t goal ev d) = .ok g')) := by
  unfold addEntry at h
  split at h
  · simp at h
  · rename_i hp
    refine ⟨by simpa using hp, ?_⟩
    split at h
    · rename_i hr; exact .inl ⟨hr, (Except.ok.inj h).symm⟩
    · rename_i hr; exact .inr ⟨by simpa using hr, h⟩

theorem addEntry_spec {g g' : GoalSystem} {t : Int} {goal : Sentence} {ev : Option Nat} {d : Int}
    (h : addEntry g t goal ev d = .ok g') :
    SameCfg g g' ∧ (∀ x, Stored g x → Stored g' x) ∧
    (∀ x, Stored g' x → Stored g x ∨ ∃ a, x = withAcc (newEntry t goal ev d) a) := by
  rcases (addEntry_cases h).2 with ⟨-, rfl⟩ | ⟨-, h⟩
  · exact ⟨.refl _, fun _ h => h, fun _ h => .inl h⟩
  · obtain ⟨h1, h2, -, h3, -⟩ := addEntry2_spec h
    exact ⟨h1, h2, h3⟩

/-! ## forgetting -/

theorem foldAdd_spec {l : List Entry} {g g' : GoalSystem} (h : l.foldlM addEntry2 g = .ok g') :
    SameCfg g g' ∧ (∀ x, Stored g x → Stored g' x) ∧
    (∀ e ∈ l, ∃ x, Stored g' x ∧ SameGoal x.sentence e.sentence) ∧
    (∀ x, Stored g' x → Stored g x ∨ ∃ e ∈ l, ∃ a, x = withAcc e a) ∧ goalCount g' ≤ goalCount g + l.length := by
  induction l generalizing g with
  | nil =>
    rw [foldlM_nil_ok] at h
    subst h
    exact ⟨.refl _, fun _ h => h, by simp, fun _ h => .inl h, by simp⟩
  | cons e l ih =>
    obtain ⟨g1, h1, h2⟩ := foldlM_cons_ok.1 h
    obtain ⟨a1, a2, ⟨y, a3, a3'⟩, a4, a5⟩ := addEntry2_spec h1
    obtain ⟨b1, b2, b3, b4, b5⟩ := ih h2
    refine ⟨a1.trans b1, fun x hx => b2 x (a2 x hx), ?_, ?_, by simp; omega⟩
    · intro x hx
      simp at hx
      rcases hx with rfl | hx
      · exact ⟨y, b2 y a3, a3'⟩
      · exact b3 x hx
    · intro x hx
      rcases b4 x hx with hx | ⟨e', he', a, rfl⟩
      · rcases a4 x hx with hx | ⟨a, rfl⟩
        · exact .inl hx
        · exact .inr ⟨e, by simp, a, rfl⟩
      · exact .inr ⟨e', by simp [he'], a, rfl⟩

theorem recalc_ok {decay : Int → Rat} {t : Int} {e e' : Entry} (h : recalcUtility decay t e = .ok e') :
    ∃ u, UtilityAt decay t e u ∧ e' = { e with utility := u } := by
  unfold recalcUtility at h
  obtain ⟨o, h1, h⟩ := R.bind_ok.1 h
  obtain ⟨tv, h2, h⟩ := R.bind_ok.1 h
  have := Except.ok.inj h
  subst this
  refine ⟨_, ⟨Tv.calcExp tv, ?_, ?_⟩, rfl⟩
  · refine ⟨tv, ?_, by unfold Tv.calcExp; ring⟩
    cases o with
    | none => cases h2
    | some x => cases h2; exact h1
  · congr 2
    unfold Tv.fabs
    split
    · rename_i hlt; rw [max_eq_right (by linarith)]
    · rename_i hlt; rw [max_eq_left (by linarith)]

theorem UtilityAt.unique {decay : Int → Rat} {t : Int} {e : Entry} {u u' : Rat} (h : UtilityAt decay t e u)
    (h' : UtilityAt decay t e u') : u = u' := by
  obtain ⟨x, hx, rfl⟩ := h
  obtain ⟨x', hx', rfl⟩ := h'
  rw [hx.unique hx']

/-- the state from which the goal system is rebuilt -/
def flushed (g : GoalSystem) : GoalSystem :=
  { g with batchesByDepth := List.replicate g.nMaxDepth.toNat [], entriesByTerm := [], activeSet := [] }

theorem flushed_stored (g : GoalSystem) (x : Entry) : ¬ Stored (flushed g) x := by
  rintro (h | ⟨i, level, gr, h, hgr, -⟩)
  · simp [flushed] at h
  · simp [flushed, List.getElem?_replicate] at h
    rw [h.2] at hgr; simp at hgr

theorem flushed_count (g : GoalSystem) : goalCount (flushed g) = 0 := by
  simp [goalCount, levelCount, flushed]

theorem flushed_inv (g : GoalSystem) : GInv (flushed g) where
  nlevels := by simp [flushed]
  groups := by
    intro i level h gr hgr
    simp [flushed, List.getElem?_replicate] at h
    rw [h.2] at hgr; simp at hgr
  distinct := by
    intro i level h
    simp [flushed, List.getElem?_replicate] at h
    rw [h.2]; simp
  entries := fun e h => absurd h (flushed_stored g e)
  activeOp := by simp [flushed]
  activeOnce := by simp [flushed]
  keys := by simp [flushed]
  reg := by simp [flushed]

/-- forgetting rebuilds the system from the best entries -/
theorem goalLimit_cases {decay : Int → Rat} {g g' : GoalSystem} {t : Int} (h : goalLimitMemory decay g t = .ok g') :
    ∃ sorted : List Entry, 0 ≤ g.nMaxEntries ∧
      sorted.Pairwise (fun a b => b.utility ≤ a.utility) ∧ sorted.length = goalCount g + g.activeSet.length ∧
      (∀ e' ∈ sorted, ∃ e u, Stored g e ∧ UtilityAt decay t e u ∧ e' = { e with utility := u }) ∧
      (∀ e, Stored g e → ∃ u, UtilityAt decay t e u ∧ { e with utility := u } ∈ sorted) ∧
      (sorted.take g.nMaxEntries.toNat).foldlM addEntry2 (flushed g) = .ok g' := by
  unfold goalLimitMemory at h
  obtain ⟨arr, harr, h⟩ := R.bind_ok.1 h
  rw [mapM_ok_iff] at harr
  split at h
  · simp at h
  · rename_i hneg
    have hperm := sortDesc_perm (arr.map (fun e => (e.utility, e)))
    have hmem : ∀ x, x ∈ (sortDesc (arr.map (fun e => (e.utility, e)))).map (·.2) ↔ x ∈ arr := by
      intro x
      rw [(hperm.map (·.2)).mem_iff]
      simp
    have hst : ∀ x, x ∈ retEntries g ++ g.activeSet ↔ Stored g x := by
      intro x
      rw [List.mem_append, retEntries_mem]
      constructor
      · rintro (h | h)
        · exact h
        · exact .inl h
      · exact fun h => .inl h
    refine ⟨_, by omega, ?_, ?_, ?_, ?_, h⟩
    · rw [List.pairwise_map]
      have hs := sortDesc_sorted (arr.map (fun e => (e.utility, e)))
      have hf : ∀ p ∈ sortDesc (arr.map (fun e => (e.utility, e))), p.1 = p.2.utility := by
        intro p hp
        rw [hperm.mem_iff] at hp
        simp at hp
        obtain ⟨e, -, rfl⟩ := hp
        rfl
      refine hs.imp_of_mem ?_
      intro a b ha hb hab
      rw [← hf a ha, ← hf b hb]; exact hab
    · rw [List.length_map, hperm.length_eq, List.length_map, ← harr.length_eq, List.length_append, retEntries_length]
    · intro e' he'
      rw [hmem] at he'
      obtain ⟨e, he, hr⟩ := forall₂_right_mem harr he'
      obtain ⟨u, hu, rfl⟩ := recalc_ok hr
      exact ⟨e, u, (hst e).1 he, hu, rfl⟩
    · intro e he
      obtain ⟨e', he', hr⟩ := forall₂_left_mem harr ((hst e).2 he)
      obtain ⟨u, hu, rfl⟩ := recalc_ok hr
      exact ⟨u, hu, (hmem _).2 he'⟩

theorem goalLimit_inv {decay : Int → Rat} {g g' : GoalSystem} {t : Int} (h : goalLimitMemory decay g t = .ok g')
    (hi : GInv g) : GInv g' := by
  obtain ⟨sorted, -, -, -, h1, -, h2⟩ := goalLimit_cases h
  refine foldlM_inv GInv h2 (flushed_inv g) ?_
  intro e he b b' hb hadd
  obtain ⟨x, u, hx, -, rfl⟩ := h1 e (List.mem_of_mem_take he)
  have := hi.entries x hx
  exact addEntry2_inv hadd hb ⟨this.goal, this.des0, this.des1, this.acc0⟩

/-! ## events -/

theorem satisfy_twice (b : Bool) (t : Term) (e : Entry) : satisfy b t (satisfy b t e) = satisfy b t e := by
  unfold satisfy
  split
  · simp
  · simp

/-- the levels, mapped -/
theorem eventOccurred_storedAt (g : GoalSystem) (ev : Term) (i : Nat) (x : Entry) :
    StoredAt (eventOccurred g ev) i x ↔ ∃ e, StoredAt g i e ∧ x = satisfy g.enGoalSatisfaction ev e := by
  unfold StoredAt eventOccurred
  simp only [List.getElem?_map, Option.map_eq_some_iff]
  constructor
  · rintro ⟨level, gr, ⟨b, hb, rfl⟩, hgr, hx⟩
    simp only [List.mem_map] at hgr
    obtain ⟨gr0, hgr0, rfl⟩ := hgr
    simp only [List.mem_map] at hx
    obtain ⟨e, he, rfl⟩ := hx
    exact ⟨e, ⟨b, gr0, hb, hgr0, he⟩, rfl⟩
  · rintro ⟨e, ⟨b, gr0, hb, hgr0, he⟩, rfl⟩
    exact ⟨_, _, ⟨b, hb, rfl⟩, List.mem_map.2 ⟨gr0, hgr0, rfl⟩, List.mem_map.2 ⟨e, he, rfl⟩⟩

theorem eventOccurred_stored (g : GoalSystem) (ev : Term) (x : Entry) :
    Stored (eventOccurred g ev) x ↔ ∃ e, Stored g e ∧ x = satisfy g.enGoalSatisfaction ev e := by
  unfold Stored
  simp only [eventOccurred_storedAt]
  constructor
  · rintro (h | ⟨i, e, he, rfl⟩)
    · simp only [eventOccurred, List.mem_map] at h
      obtain ⟨e, he, rfl⟩ := h
      exact ⟨e, .inl he, satisfy_twice _ _ _⟩
    · exact ⟨e, .inr ⟨i, he⟩, rfl⟩
  · rintro ⟨e, (he | ⟨i, he⟩), rfl⟩
    · left
      simp only [eventOccurred, List.mem_map]
      exact ⟨e, he, satisfy_twice _ _ _⟩
    · exact .inr ⟨i, e, he, rfl⟩

theorem satisfy_fields (b : Bool) (t : Term) (e : Entry) : (satisfy b t e).sentence = e.sentence ∧
    (satisfy b t e).evidence = e.evidence ∧ (satisfy b t e).createTime = e.createTime ∧
    (satisfy b t e).depth = e.depth ∧ (satisfy b t e).utility = e.utility ∧
    (satisfy b t e).accDesirability = e.accDesirability := by
  unfold satisfy
  split <;> simp

theorem satisfy_ok {b : Bool} {t : Term} {e : Entry} (h : EntryOk e) : EntryOk (satisfy b t e) := by
  unfold satisfy
  split
  · exact ⟨h.goal, by simp, by simp, h.acc0⟩
  · exact h

theorem eventOccurred_inv {g : GoalSystem} (ev : Term) (hi : GInv g) : GInv (eventOccurred g ev) where
  nlevels := by simp [eventOccurred, hi.nlevels]
  groups := by
    intro i level h gr hgr
    simp only [eventOccurred, List.getElem?_map, Option.map_eq_some_iff] at h
    obtain ⟨b, hb, rfl⟩ := h
    simp only [List.mem_map] at hgr
    obtain ⟨gr0, hgr0, rfl⟩ := hgr
    have o := hi.groups i b hb gr0 hgr0
    refine ⟨by simpa using o.nonempty, ?_, o.notOp, ?_, ?_⟩
    · intro x hx
      simp only [List.mem_map] at hx
      obtain ⟨e, he, rfl⟩ := hx
      rw [(satisfy_fields _ _ _).1]; exact o.term e he
    · intro x hx
      simp only [List.mem_map] at hx
      obtain ⟨e, he, rfl⟩ := hx
      rw [(satisfy_fields _ _ _).2.2.2.1]; exact o.level e he
    · simp only [List.pairwise_map, (satisfy_fields _ _ _).2.2.2.2.2]
      exact o.accSorted
  distinct := by
    intro i level h
    simp only [eventOccurred, List.getElem?_map, Option.map_eq_some_iff] at h
    obtain ⟨b, hb, rfl⟩ := h
    have := hi.distinct i b hb
    rw [List.map_map]
    exact this
  entries := by
    intro x hx
    obtain ⟨e, he, rfl⟩ := (eventOccurred_stored g ev x).1 hx
    exact satisfy_ok (hi.entries e he)
  activeOp := by
    intro x hx
    simp only [eventOccurred, List.mem_map, satisfy_twice] at hx
    obtain ⟨e, he, rfl⟩ := hx
    rw [(satisfy_fields _ _ _).1]; exact hi.activeOp e he
  activeOnce := by
    simp only [eventOccurred, List.pairwise_map, (satisfy_fields _ _ _).1]
    exact hi.activeOnce
  keys := hi.keys
  reg := by
    intro k arr hk s hs
    obtain ⟨h1, i, e, he, h2⟩ := hi.reg k arr hk s hs
    exact ⟨h1, i, _, (eventOccurred_storedAt g ev i _).2 ⟨e, he, rfl⟩, by rw [(satisfy_fields _ _ _).1]; exact h2⟩

/-! ## histories -/

theorem sampleAndInference_cases {g g' : GoalSystem} {t : Int} {m : PMem} {d1 d2 : Rat} {rng : List Nat}
    (h : sampleAndInference g t m d1 d2 rng = .ok g') :
    (goalSample g d1 d2 = .ok none ∧ g' = g) ∨
    ∃ goal depth cs1 rng1 cs2 rng2, goalSample g d1 d2 = .ok (some (goal, depth)) ∧
      subWorkingCycle m g.rounds.toNat [(goal, depth)] rng = .ok (cs1, rng1) ∧
      deriveGoalsHelper m goal depth .ALL_BELIEFS rng1 = .ok (cs2, rng2) ∧
      (cs1 ++ cs2).foldlM (fun g c => addEntry g t c.goal c.evidence c.depth) g = .ok g' := by
  unfold sampleAndInference at h
  obtain ⟨s, hs, h⟩ := R.bind_ok.1 h
  cases s with
  | none => exact .inl ⟨hs, (Except.ok.inj h).symm⟩
  | some p =>
    obtain ⟨goal, depth⟩ := p
    obtain ⟨⟨cs1, rng1⟩, h1, h⟩ := R.bind_ok.1 h
    obtain ⟨⟨cs2, rng2⟩, h2, h⟩ := R.bind_ok.1 h
    exact .inr ⟨goal, depth, cs1, rng1, cs2, rng2, hs, h1, h2, h⟩

theorem eraseIdx_inv {g : GoalSystem} (i : Nat) (hi : GInv g) : GInv { g with activeSet := g.activeSet.eraseIdx i } where
  nlevels := hi.nlevels
  groups := hi.groups
  distinct := hi.distinct
  entries := by
    rintro x (h | h)
    · exact hi.entries x (.inl (List.mem_of_mem_eraseIdx h))
    · exact hi.entries x (.inr h)
  activeOp := fun e h => hi.activeOp e (List.mem_of_mem_eraseIdx h)
  activeOnce := hi.activeOnce.sublist (List.eraseIdx_sublist _ _)
  keys := hi.keys
  reg := hi.reg

theorem GoalOp.run_inv {decay : Int → Rat} {g g' : GoalSystem} {op : GoalOp} (h : op.run decay g = .ok g')
    (hi : GInv g) : GInv g' := by
  cases op with
  | add t goal ev d => exact addEntry_inv h hi
  | event term => rw [← Except.ok.inj h]; exact eventOccurred_inv term hi
  | limit t => exact goalLimit_inv h hi
  | infer t m d1 d2 rng =>
    rcases sampleAndInference_cases h with ⟨-, rfl⟩ | ⟨goal, depth, cs1, rng1, cs2, rng2, -, -, -, hf⟩
    · exact hi
    · exact foldlM_inv GInv hf hi (fun a _ b b' hb ha => addEntry_inv ha hb)
  | executed i => rw [← Except.ok.inj h]; exact eraseIdx_inv i hi
  | configure n en =>
    rw [← Except.ok.inj h]
    exact ⟨hi.nlevels, hi.groups, hi.distinct, hi.entries, hi.activeOp, hi.activeOnce, hi.keys, hi.reg⟩

theorem runGoals_inv {decay : Int → Rat} {n d : Int} {ops : List GoalOp} {g : GoalSystem}
    (h : runGoals decay n d ops = .ok g) : GInv g :=
  foldlM_inv GInv h (makeGoalSystem_inv n d) (fun _ _ _ _ hb ha => GoalOp.run_inv ha hb)

end Nar
