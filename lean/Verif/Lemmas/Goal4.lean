import Verif.Lemmas.Goal3
/-! # Lemmas about deriving goals, registration and totality -/
namespace Nar
open Term

theorem infGoalBelief_some {s b c : Sentence} (h : infGoalBelief s b = .ok (some c)) : BackwardOver s b c := by
  unfold infGoalBelief at h
  split at h
  · rename_i subj pred hb
    split at h
    · simp at h
    · rename_i he
      simp only [Bool.not_eq_true, Bool.not_eq_false'] at he
      rw [checkEqTerm_iff] at he
      split at h
      · simp at h
      · rename_i ho
        obtain ⟨o1, h1, h⟩ := R.bind_ok.1 h
        obtain ⟨tb, h2, h⟩ := R.bind_ok.1 h
        obtain ⟨o2, h3, h⟩ := R.bind_ok.1 h
        obtain ⟨ts, h4, h⟩ := R.bind_ok.1 h
        have hc := Option.some.inj (Except.ok.inj h)
        subst hc
        cases o1 with
        | none => cases h2
        | some x =>
          cases o2 with
          | none => cases h4
          | some y =>
            cases h2; cases h4
            refine ⟨subj, ts, tb, by rw [hb, he], ?_, h3, h1, rfl, rfl, rfl, rfl⟩
            intro hs
            exact ho ((Stamp.checkOverlap_iff _ _).2 hs)
  · simp at h

theorem infGoalBelief_none {s b : Sentence} (h : infGoalBelief s b = .ok none) :
    (∀ cond, b.term ≠ .Stmt .PREDIMPL cond s.term) ∨ SharesEvidence s b := by
  unfold infGoalBelief at h
  split at h
  · rename_i subj pred hb
    split at h
    · rename_i he
      left
      intro cond hc
      rw [hb] at hc
      injection hc with _ _ hp
      rw [hp] at he
      simp at he
    · split at h
      · rename_i ho
        exact .inr ((Stamp.checkOverlap_iff _ _).1 ho)
      · obtain ⟨o1, h1, h⟩ := R.bind_ok.1 h
        obtain ⟨tb, h2, h⟩ := R.bind_ok.1 h
        obtain ⟨o2, h3, h⟩ := R.bind_ok.1 h
        obtain ⟨ts, h4, h⟩ := R.bind_ok.1 h
        simp at h
  · rename_i hn
    exact .inl (fun cond hc => hn _ _ hc)

theorem infGoalBelief_total {s b : Sentence} (hs : ∃ tv, HasTruth s tv) (hb : ∃ tv, HasTruth b tv) :
    ∃ r, infGoalBelief s b = .ok r := by
  obtain ⟨ts, hs⟩ := hs
  obtain ⟨tb, hb⟩ := hb
  unfold HasTruth at hs hb
  unfold infGoalBelief
  split
  · split
    · exact ⟨_, rfl⟩
    · split
      · exact ⟨_, rfl⟩
      · exact ⟨_, by simp [hs, hb, unwrap, bind, Except.bind]; rfl⟩
  · exact ⟨_, rfl⟩

theorem infGoalDetach_some {s c : Sentence} (h : infGoalDetach s = .ok (some c)) : FirstStepOf s c := by
  unfold infGoalDetach at h
  split at h
  · rename_i s0 rest hs
    obtain ⟨o1, h1, h⟩ := R.bind_ok.1 h
    obtain ⟨tb, h2, h⟩ := R.bind_ok.1 h
    have hc := Option.some.inj (Except.ok.inj h)
    subst hc
    cases o1 with
    | none => cases h2
    | some x =>
      cases h2
      exact ⟨s0, rest, tb, hs, h1, rfl, rfl, rfl, rfl⟩
  · simp at h

theorem infGoalDetach_none {s : Sentence} (h : infGoalDetach s = .ok none) :
    ∀ first rest, s.term ≠ .Seq (first :: rest) := by
  unfold infGoalDetach at h
  split at h
  · obtain ⟨o1, h1, h⟩ := R.bind_ok.1 h
    obtain ⟨tb, h2, h⟩ := R.bind_ok.1 h
    simp at h
  · rename_i hn
    exact fun f r he => hn f r he

theorem infGoalDetach_total {s : Sentence} (hs : ∃ tv, HasTruth s tv) : ∃ r, infGoalDetach s = .ok r := by
  obtain ⟨ts, hs⟩ := hs
  unfold HasTruth at hs
  unfold infGoalDetach
  split
  · exact ⟨_, by simp [hs, unwrap, bind, Except.bind]; rfl⟩
  · exact ⟨_, rfl⟩

/-! ## derivation -/

/-- a derived goal comes from a step -/
def StepOf (m : PMem) (s : Sentence) (d : Int) (x : DerivedGoal) : Prop :=
  GoalStep m s x.goal x.evidence ∧ x.depth = d + 1

theorem deriveWith_spec {m : PMem} {s : Sentence} {d : Int} {r : Nat} {l : List DerivedGoal}
    (h : deriveWith m s d r = .ok l) : ∀ x ∈ l, StepOf m s d x := by
  unfold deriveWith at h
  obtain ⟨b, hb, h⟩ := R.bind_ok.1 h
  obtain ⟨o, ho, h⟩ := R.bind_ok.1 h
  cases o with
  | none => have := Except.ok.inj h; subst this; simp
  | some c =>
    have := Except.ok.inj h
    subst this
    intro x hx
    simp at hx
    subst hx
    exact ⟨.inr ⟨r, b, rfl, indexAt_ok.1 hb, infGoalBelief_some ho⟩, rfl⟩

theorem sampleBelief_spec {m : PMem} {s : Sentence} {d : Int} {cands rng rng' : List Nat} {l : List DerivedGoal}
    (h : sampleBelief m s d cands rng = .ok (l, rng')) : ∀ x ∈ l, StepOf m s d x := by
  unfold sampleBelief at h
  split at h
  · obtain ⟨⟨i, rng1⟩, h1, h⟩ := R.bind_ok.1 h
    obtain ⟨r, h2, h⟩ := R.bind_ok.1 h
    obtain ⟨c, h3, h⟩ := R.bind_ok.1 h
    have := Except.ok.inj h
    cases this
    exact deriveWith_spec h3
  · have := Except.ok.inj h
    cases this
    simp

theorem deriveGoalsHelper_spec {m : PMem} {s : Sentence} {d : Int} {st : Strategy} {rng rng' : List Nat}
    {l : List DerivedGoal} (h : deriveGoalsHelper m s d st rng = .ok (l, rng')) : ∀ x ∈ l, StepOf m s d x := by
  unfold deriveGoalsHelper at h
  obtain ⟨o, ho, h⟩ := R.bind_ok.1 h
  cases o with
  | some c =>
    have := Except.ok.inj h
    cases this
    intro x hx
    simp at hx
    subst hx
    exact ⟨.inl ⟨rfl, infGoalDetach_some ho⟩, rfl⟩
  | none =>
    obtain ⟨cands, hc, h⟩ := R.bind_ok.1 h
    cases st with
    | ALL_BELIEFS =>
      obtain ⟨cs, h1, h⟩ := R.bind_ok.1 h
      have := Except.ok.inj h
      cases this
      rw [mapM_ok_iff] at h1
      intro x hx
      obtain ⟨l, hl, hx⟩ := List.mem_flatten.1 hx
      obtain ⟨r, -, hr⟩ := forall₂_right_mem h1 hl
      exact deriveWith_spec hr x hx
    | SAMPLE_2 =>
      obtain ⟨⟨c1, rng1⟩, h1, h⟩ := R.bind_ok.1 h
      obtain ⟨⟨c2, rng2⟩, h2, h⟩ := R.bind_ok.1 h
      have := Except.ok.inj h
      cases this
      intro x hx
      rcases List.mem_append.1 hx with hx | hx
      · exact sampleBelief_spec h1 x hx
      · exact sampleBelief_spec h2 x hx

/-- reached from `s` at depth `d` by at least one step -/
def Chained (m : PMem) (s : Sentence) (d : Int) (x : DerivedGoal) : Prop :=
  ∃ n, GoalChain m s n x.goal x.evidence ∧ x.depth = d + n

theorem subWorkingCycle_spec {m : PMem} {s : Sentence} {d : Int} (n : Nat) {ws : List (Sentence × Int)}
    {rng rng' : List Nat} {l : List DerivedGoal} (h : subWorkingCycle m n ws rng = .ok (l, rng'))
    (hws : ∀ w ∈ ws, w = (s, d) ∨ ∃ x, Chained m s d x ∧ w = (x.goal, x.depth)) : ∀ x ∈ l, Chained m s d x := by
  induction n generalizing ws rng rng' l with
  | zero =>
    have := Except.ok.inj h
    cases this; simp
  | succ n ih =>
    unfold subWorkingCycle at h
    split at h
    · have := Except.ok.inj h
      cases this; simp
    · obtain ⟨⟨i, rng1⟩, h1, h⟩ := R.bind_ok.1 h
      obtain ⟨e, h2, h⟩ := R.bind_ok.1 h
      obtain ⟨⟨cs, rng2⟩, h3, h⟩ := R.bind_ok.1 h
      obtain ⟨⟨rest, rng3⟩, h4, h⟩ := R.bind_ok.1 h
      have := Except.ok.inj h
      cases this
      have hi := indexAt_ok.1 h2
      have hcs : ∀ x ∈ cs, Chained m s d x := by
        intro x hx
        obtain ⟨s1, s2⟩ := deriveGoalsHelper_spec h3 x hx
        rcases hws e (List.mem_of_getElem? hi) with rfl | ⟨y, ⟨k, hy, hyd⟩, rfl⟩
        · exact ⟨1, .one s1, by simpa using s2⟩
        · exact ⟨k + 1, .more hy s1, by push_cast; simp only at s2; omega⟩
      intro x hx
      rcases List.mem_append.1 hx with hx | hx
      · exact hcs x hx
      · refine ih h4 ?_ x hx
        intro w hw
        rcases List.mem_append.1 hw with hw | hw
        · have hlt : i < ws.length := (List.getElem?_eq_some_iff.1 hi).1
          exact hws w (List.mem_of_mem_eraseIdx ((swapRemove_perm ws i hlt).mem_iff.1 hw))
        · obtain ⟨y, hy, rfl⟩ := List.mem_map.1 hw
          exact .inr ⟨y, hcs y hy, rfl⟩

theorem foldAddEntry_spec {t : Int} {l : List DerivedGoal} {g g' : GoalSystem}
    (h : l.foldlM (fun g (c : DerivedGoal) => addEntry g t c.goal c.evidence c.depth) g = .ok g') :
    SameCfg g g' ∧ (∀ x, Stored g x → Stored g' x) ∧
    (∀ x, Stored g' x → Stored g x ∨ ∃ c ∈ l, ∃ a, x = withAcc (newEntry t c.goal c.evidence c.depth) a) := by
  induction l generalizing g with
  | nil =>
    rw [foldlM_nil_ok] at h
    subst h
    exact ⟨.refl _, fun _ h => h, fun _ h => .inl h⟩
  | cons e l ih =>
    obtain ⟨g1, h1, h2⟩ := foldlM_cons_ok.1 h
    obtain ⟨a1, a2, a3⟩ := addEntry_spec h1
    obtain ⟨b1, b2, b3⟩ := ih h2
    refine ⟨a1.trans b1, fun x hx => b2 x (a2 x hx), ?_⟩
    intro x hx
    rcases b3 x hx with hx | ⟨c, hc, a, rfl⟩
    · rcases a3 x hx with hx | ⟨a, rfl⟩
      · exact .inl hx
      · exact .inr ⟨e, by simp, a, rfl⟩
    · exact .inr ⟨c, by simp [hc], a, rfl⟩

/-- what is sampled is stored in a level -/
theorem selBatch_mem {g : GoalSystem} {d : Rat} {level : List Group} (h : selBatch g d = .ok level) :
    level ∈ g.batchesByDepth := by
  unfold selBatch at h
  obtain ⟨first, hf, h⟩ := R.bind_ok.1 h
  rw [← Except.ok.inj h]
  rcases selBatchLoop_mem _ g.batchesByDepth 0 first with h | h
  · rw [h]; exact List.mem_of_getElem? (indexAt_ok.1 hf)
  · exact h

theorem SampledFrom.stored {g : GoalSystem} {level : List Group} {p : Rat} {s : Sentence} {d : Int}
    (hm : level ∈ g.batchesByDepth) (h : SampledFrom level p (some (s, d))) :
    ∃ i e, StoredAt g i e ∧ s = e.sentence ∧ d = e.depth := by
  obtain ⟨pre, gr, post, b, w, h1, -, -, -, -, first, e, later, h2, h3, h4, -⟩ := h
  obtain ⟨i, hi⟩ := List.getElem?_of_mem hm
  exact ⟨i, e, ⟨level, gr, hi, by rw [h1]; simp, by rw [h2]; simp⟩, h3, h4⟩

theorem goalSample_selBatch {g : GoalSystem} {d1 d2 : Rat} {r : Option (Sentence × Int)}
    (h : goalSample g d1 d2 = .ok r) : ∃ level, selBatch g d1 = .ok level := by
  unfold goalSample at h
  obtain ⟨b, hb, -⟩ := R.bind_ok.1 h
  exact ⟨b, hb⟩

theorem binSearch_mem (val : Rat) : ∀ (n : Nat) (arr : List Entry) (e : Entry), arr.length = n →
    binSearch arr val = .ok e → e ∈ arr := by
  intro n
  induction n using Nat.strongRecOn with
  | _ n ih =>
    intro arr e hlen h
    match arr with
    | [] => simp [binSearch] at h
    | [x] => simp [binSearch] at h; simp [h]
    | e1 :: e2 :: rest =>
      rw [binSearch] at h
      set arr := e1 :: e2 :: rest with harr
      have hl : arr.length = rest.length + 2 := by simp [harr]
      have hmid : arr.length / 2 < arr.length := by omega
      simp only [List.getElem?_eq_getElem hmid] at h
      split at h
      · exact List.mem_of_mem_take (ih _ (by simp; omega) _ e rfl h)
      · exact List.mem_of_mem_drop (ih _ (by simp; omega) _ e rfl h)

theorem selGroupLoop_mem {total p : Rat} {gs : List Group} {sum : Rat} {s : Sentence} {d : Int}
    (h : selGroupLoop total p gs sum = .ok (some (s, d))) : ∃ gr ∈ gs, ∃ e ∈ gr.entries, s = e.sentence ∧ d = e.depth := by
  induction gs generalizing sum with
  | nil => simp [selGroupLoop] at h
  | cons gr gs ih =>
    unfold selGroupLoop at h
    split at h
    · obtain ⟨w, hw, h⟩ := R.bind_ok.1 h
      split at h
      · obtain ⟨e, he, h⟩ := R.bind_ok.1 h
        have := Option.some.inj (Except.ok.inj h)
        cases this
        exact ⟨gr, by simp, e, binSearch_mem _ _ _ _ rfl he, rfl, rfl⟩
      · obtain ⟨gr', h1, h2⟩ := ih h
        exact ⟨gr', by simp [h1], h2⟩
    · simp at h

theorem goalSample_stored {g : GoalSystem} {d1 d2 : Rat} {s : Sentence} {d : Int}
    (h : goalSample g d1 d2 = .ok (some (s, d))) : ∃ i e, StoredAt g i e ∧ s = e.sentence ∧ d = e.depth := by
  obtain ⟨level, hb⟩ := goalSample_selBatch h
  have hm := selBatch_mem hb
  unfold goalSample at h
  rw [hb] at h
  simp only [bind, Except.bind] at h
  split at h
  · simp at h
  · split at h
    · simp at h
    · obtain ⟨gr, h1, e, h2, h3⟩ := selGroupLoop_mem h
      obtain ⟨i, hi⟩ := List.getElem?_of_mem hm
      exact ⟨i, e, ⟨level, gr, hi, h1, h2⟩, h3⟩

theorem sampleAndInference_spec {g g' : GoalSystem} {t : Int} {m : PMem} {d1 d2 : Rat} {rng : List Nat}
    (h : sampleAndInference g t m d1 d2 rng = .ok g') :
    SameCfg g g' ∧ (∀ x, Stored g x → Stored g' x) ∧
    (∀ x, Stored g' x → Stored g x ∨ ∃ (i : Nat) (e : Entry) (c : DerivedGoal) (a : Rat), StoredAt g i e ∧
      goalSample g d1 d2 = .ok (some (e.sentence, e.depth)) ∧
      Chained m e.sentence e.depth c ∧ x = withAcc (newEntry t c.goal c.evidence c.depth) a) := by
  rcases sampleAndInference_cases h with ⟨-, rfl⟩ | ⟨goal, depth, cs1, rng1, cs2, rng2, h1, h2, h3, h4⟩
  · exact ⟨.refl _, fun _ h => h, fun _ h => .inl h⟩
  · obtain ⟨a1, a2, a3⟩ := foldAddEntry_spec h4
    refine ⟨a1, a2, fun x hx => ?_⟩
    rcases a3 x hx with hx | ⟨c, hc, a, rfl⟩
    · exact .inl hx
    · obtain ⟨i, e, he, rfl, rfl⟩ := goalSample_stored h1
      refine .inr ⟨i, e, c, a, he, h1, ?_, rfl⟩
      rcases List.mem_append.1 hc with hc | hc
      · exact subWorkingCycle_spec _ h2 (by simp) c hc
      · obtain ⟨s1, s2⟩ := deriveGoalsHelper_spec h3 c hc
        exact ⟨1, .one s1, by simpa using s2⟩

/-! ## totality -/

/-- every stored goal has a truth value and a depth -/
def Usable (g : GoalSystem) : Prop := ∀ e, Stored g e → (∃ tv, HasTruth e.sentence tv) ∧ 0 ≤ e.depth

theorem GoalStep.truth {m : PMem} {s c : Sentence} {ev : Option Nat} (h : GoalStep m s c ev) :
    c.punct = .GOAL ∧ ∃ tv, HasTruth c tv := by
  rcases h with ⟨-, _, _, ts, -, -, -, h1, -, h2⟩ | ⟨r, b, -, -, _, ts, tb, -, -, -, -, -, h1, -, h2⟩
  · exact ⟨h1, _, h2⟩
  · exact ⟨h1, _, h2⟩

theorem GoalChain.truth {m : PMem} {s c : Sentence} {n : Nat} {ev : Option Nat} (h : GoalChain m s n c ev) :
    c.punct = .GOAL ∧ ∃ tv, HasTruth c tv := by
  cases h with
  | one h => exact h.truth
  | more _ h => exact h.truth

theorem addEntry2_total {g : GoalSystem} {e : Entry} (hi : GInv g) (hd : 0 < g.nMaxDepth) (he : 0 ≤ e.depth) :
    ∃ g', addEntry2 g e = .ok g' := by
  unfold addEntry2
  split
  · split <;> exact ⟨_, rfl⟩
  · unfold addToLevel
    simp only
    rw [if_neg (by omega)]
    have hlt : (min e.depth (g.nMaxDepth - 1)).toNat < g.batchesByDepth.length := by
      rw [hi.nlevels]; omega
    have hl : g.batchesByDepth[(min e.depth (g.nMaxDepth - 1)).toNat]? = some _ := List.getElem?_eq_getElem hlt
    obtain ⟨r, hr⟩ := joinGroup_total (e := e) (gs := g.batchesByDepth[(min e.depth (g.nMaxDepth - 1)).toNat])
      (fun gr hgr => (hi.groups _ _ hl gr hgr).nonempty)
    rw [indexAt_ok.2 hl]
    simp only [bind, Except.bind, hr]
    cases r with
    | none => exact ⟨_, rfl⟩
    | some x => exact ⟨_, rfl⟩

theorem addEntry_total {g : GoalSystem} {t : Int} {goal : Sentence} {ev : Option Nat} {d : Int} (hi : GInv g)
    (hd : 0 < g.nMaxDepth) (hp : goal.punct = .GOAL) (h0 : 0 ≤ d) : ∃ g', addEntry g t goal ev d = .ok g' := by
  unfold addEntry
  rw [if_neg (by simp [hp])]
  split
  · exact ⟨_, rfl⟩
  · exact addEntry2_total hi hd h0

theorem foldAdd_total {l : List Entry} {g : GoalSystem} (hi : GInv g) (hd : 0 < g.nMaxDepth)
    (hl : ∀ e ∈ l, EntryOk e ∧ 0 ≤ e.depth) : ∃ g', l.foldlM addEntry2 g = .ok g' := by
  induction l generalizing g with
  | nil => exact ⟨g, rfl⟩
  | cons e l ih =>
    obtain ⟨h1, h2⟩ := hl e (by simp)
    obtain ⟨g1, hg1⟩ := addEntry2_total hi hd h2
    have := (addEntry2_spec hg1).1.2.1
    obtain ⟨g', hg'⟩ := ih (addEntry2_inv hg1 hi h1) (by rw [this]; exact hd) (fun x hx => hl x (by simp [hx]))
    exact ⟨g', foldlM_cons_ok.2 ⟨g1, hg1, hg'⟩⟩

theorem mapM_total {α β} {f : α → R β} {l : List α} (h : ∀ a ∈ l, ∃ b, f a = .ok b) : ∃ r, l.mapM f = .ok r := by
  induction l with
  | nil => exact ⟨[], by simp [pure, Except.pure]⟩
  | cons a l ih =>
    obtain ⟨b, hb⟩ := h a (by simp)
    obtain ⟨r, hr⟩ := ih (fun x hx => h x (by simp [hx]))
    refine ⟨b :: r, ?_⟩
    rw [mapM_ok_iff] at hr ⊢
    exact .cons hb hr

theorem goalLimit_total {decay : Int → Rat} {g : GoalSystem} {t : Int} (hi : GInv g) (hd : 0 < g.nMaxDepth)
    (hn : 0 ≤ g.nMaxEntries) (hu : Usable g) : ∃ g', goalLimitMemory decay g t = .ok g' := by
  have hstored : ∀ e ∈ retEntries g ++ g.activeSet, Stored g e := by
    intro e he
    rcases List.mem_append.1 he with he | he
    · exact (retEntries_mem g e).1 he
    · exact .inl he
  obtain ⟨arr, harr⟩ := mapM_total (f := recalcUtility decay t) (l := retEntries g ++ g.activeSet) (by
    intro e he
    obtain ⟨⟨tv, h1⟩, -⟩ := hu e (hstored e he)
    unfold HasTruth at h1
    exact ⟨_, by simp [recalcUtility, h1, unwrap, bind, Except.bind]; rfl⟩)
  unfold goalLimitMemory
  simp only [bind, Except.bind, harr]
  rw [if_neg (by omega)]
  apply foldAdd_total (flushed_inv g) hd
  intro x hx
  have hx := List.mem_of_mem_take hx
  obtain ⟨p, hp, rfl⟩ := List.mem_map.1 hx
  have hp := (sortDesc_perm _).mem_iff.1 hp
  obtain ⟨y, hy, rfl⟩ := List.mem_map.1 hp
  rw [mapM_ok_iff] at harr
  obtain ⟨e, he, hr⟩ := forall₂_right_mem harr hy
  obtain ⟨u, -, rfl⟩ := recalc_ok hr
  have := hi.entries e (hstored e he)
  exact ⟨⟨this.goal, this.des0, this.des1, this.acc0⟩, (hu e (hstored e he)).2⟩

theorem filterR_ok {α} {f : α → R Bool} {l r : List α} (h : filterR f l = .ok r) :
    ∀ x, x ∈ r ↔ x ∈ l ∧ f x = .ok true := by
  induction l generalizing r with
  | nil => have := Except.ok.inj h; subst this; simp
  | cons a l ih =>
    unfold filterR at h
    obtain ⟨b, hb, h⟩ := R.bind_ok.1 h
    obtain ⟨r', hr, h⟩ := R.bind_ok.1 h
    have := Except.ok.inj h
    subst this
    intro x
    have := ih hr x
    cases b
    · simp only [Bool.false_eq_true, if_false, this, List.mem_cons]
      constructor
      · rintro ⟨h1, h2⟩; exact ⟨.inr h1, h2⟩
      · rintro ⟨rfl | h1, h2⟩
        · rw [hb] at h2; simp at h2
        · exact ⟨h1, h2⟩
    · simp only [if_true, List.mem_cons, this]
      constructor
      · rintro (rfl | ⟨h1, h2⟩)
        · exact ⟨.inl rfl, hb⟩
        · exact ⟨.inr h1, h2⟩
      · rintro ⟨rfl | h1, h2⟩
        · exact .inl rfl
        · exact .inr ⟨h1, h2⟩

theorem filterR_total {α} {f : α → R Bool} {l : List α} (h : ∀ a ∈ l, ∃ b, f a = .ok b) :
    ∃ r, filterR f l = .ok r := by
  induction l with
  | nil => exact ⟨[], rfl⟩
  | cons a l ih =>
    obtain ⟨b, hb⟩ := h a (by simp)
    obtain ⟨r, hr⟩ := ih (fun x hx => h x (by simp [hx]))
    exact ⟨_, by simp [filterR, hb, hr, bind, Except.bind]; rfl⟩

theorem byTerms_valid {m : PMem} (hm : m.Valid) (ts : List Term) :
    ∀ r ∈ retBeliefsByTermsNonuniqueP m ts, r < m.heap.length := by
  intro r hr
  unfold retBeliefsByTermsNonuniqueP at hr
  simp only [List.mem_flatMap] at hr
  obtain ⟨t, -, sub, -, hr⟩ := hr
  unfold retBeliefsOfConceptP at hr
  cases hg : m.get sub with
  | none => rw [hg] at hr; simp at hr
  | some c =>
    rw [hg] at hr
    simp at hr
    exact hm.1 c (List.mem_of_find?_eq_some hg) r hr

theorem queryByConsequence_total {m : PMem} (hm : m.Valid) (q : Term) :
    ∃ r, queryByConsequence q m = .ok r ∧ ∀ x ∈ r, x < m.heap.length := by
  obtain ⟨r, hr⟩ := filterR_total (l := retBeliefsByTermsNonuniqueP m [q])
    (f := fun r => do let b ← indexAt m.heap r; .ok (hasConsequence q b)) (by
      intro r hr
      have hlt := byTerms_valid hm _ r hr
      rw [indexAt_ok.2 (List.getElem?_eq_getElem hlt)]
      exact ⟨_, rfl⟩)
  exact ⟨r, hr, fun x hx => byTerms_valid hm _ x ((filterR_ok hr x).1 hx).1⟩

theorem deriveWith_total {m : PMem} (hm : m.Valid) {s : Sentence} (hs : ∃ tv, HasTruth s tv) (d : Int) {r : Nat}
    (hr : r < m.heap.length) : ∃ l, deriveWith m s d r = .ok l := by
  unfold deriveWith
  rw [indexAt_ok.2 (List.getElem?_eq_getElem hr)]
  obtain ⟨o, ho⟩ := infGoalBelief_total hs (hm.2 m.heap[r] (by simp))
  simp only [bind, Except.bind, ho]
  cases o <;> exact ⟨_, rfl⟩

theorem sampleBelief_total {m : PMem} (hm : m.Valid) {s : Sentence} (hs : ∃ tv, HasTruth s tv) (d : Int)
    {cands : List Nat} (hc : ∀ r ∈ cands, r < m.heap.length) (rng : List Nat) :
    ∃ l, sampleBelief m s d cands rng = .ok l := by
  unfold sampleBelief
  split
  · rename_i hl
    have hlt : rng.headD 0 % cands.length < cands.length := Nat.mod_lt _ hl
    obtain ⟨l, h⟩ := deriveWith_total hm hs d (hc cands[rng.headD 0 % cands.length] (by simp))
    refine ⟨(l, rng.tail), ?_⟩
    simp only [genRange, if_neg (by omega : ¬ cands.length = 0), bind, Except.bind,
      indexAt_ok.2 (List.getElem?_eq_getElem hlt), h]
  · exact ⟨_, rfl⟩

theorem deriveGoalsHelper_total {m : PMem} (hm : m.Valid) {s : Sentence} (hs : ∃ tv, HasTruth s tv) (d : Int)
    (st : Strategy) (rng : List Nat) : ∃ l, deriveGoalsHelper m s d st rng = .ok l := by
  unfold deriveGoalsHelper
  obtain ⟨o, ho⟩ := infGoalDetach_total hs
  rw [ho]
  cases o with
  | some c => exact ⟨_, rfl⟩
  | none =>
    obtain ⟨cands, hc, hv⟩ := queryByConsequence_total hm s.term
    simp only [bind, Except.bind, hc]
    cases st with
    | ALL_BELIEFS =>
      obtain ⟨cs, hcs⟩ := mapM_total (f := deriveWith m s d) (l := cands) (fun r hr => deriveWith_total hm hs d (hv r hr))
      simp only [hcs]
      exact ⟨_, rfl⟩
    | SAMPLE_2 =>
      obtain ⟨⟨l1, rng1⟩, h1⟩ := sampleBelief_total hm hs d hv rng
      obtain ⟨⟨l2, rng2⟩, h2⟩ := sampleBelief_total hm hs d hv rng1
      simp only [h1, h2]
      exact ⟨_, rfl⟩

theorem subWorkingCycle_total {m : PMem} (hm : m.Valid) (n : Nat) {ws : List (Sentence × Int)}
    (hw : ∀ w ∈ ws, ∃ tv, HasTruth w.1 tv) (rng : List Nat) : ∃ l, subWorkingCycle m n ws rng = .ok l := by
  induction n generalizing ws rng with
  | zero => exact ⟨_, rfl⟩
  | succ n ih =>
    unfold subWorkingCycle
    split
    · exact ⟨_, rfl⟩
    · rename_i hl
      have hlt : rng.headD 0 % ws.length < ws.length := Nat.mod_lt _ (by omega)
      simp only [genRange, if_neg hl, bind, Except.bind, indexAt_ok.2 (List.getElem?_eq_getElem hlt)]
      obtain ⟨⟨cs, rng2⟩, h1⟩ := deriveGoalsHelper_total hm (hw ws[rng.headD 0 % ws.length] (by simp))
        ws[rng.headD 0 % ws.length].2 .SAMPLE_2 rng.tail
      simp only [h1]
      obtain ⟨⟨rest, rng3⟩, h2⟩ := ih (ws := swapRemove ws (rng.headD 0 % ws.length) ++ cs.map (fun c => (c.goal, c.depth)))
        (by
          intro w hw'
          rcases List.mem_append.1 hw' with h | h
          · exact hw w (List.mem_of_mem_eraseIdx ((swapRemove_perm ws _ hlt).mem_iff.1 h))
          · obtain ⟨y, hy, rfl⟩ := List.mem_map.1 h
            exact ((deriveGoalsHelper_spec h1 y hy).1.truth).2) rng2
      simp only [h2]
      exact ⟨_, rfl⟩

theorem foldAddEntry_total {t : Int} {l : List DerivedGoal} {g : GoalSystem} (hi : GInv g) (hd : 0 < g.nMaxDepth)
    (hl : ∀ c ∈ l, c.goal.punct = .GOAL ∧ 0 ≤ c.depth) :
    ∃ g', l.foldlM (fun g (c : DerivedGoal) => addEntry g t c.goal c.evidence c.depth) g = .ok g' := by
  induction l generalizing g with
  | nil => exact ⟨g, rfl⟩
  | cons e l ih =>
    obtain ⟨h1, h2⟩ := hl e (by simp)
    obtain ⟨g1, hg1⟩ := addEntry_total (t := t) (ev := e.evidence) hi hd h1 h2
    have := (addEntry_spec hg1).1.2.1
    obtain ⟨g', hg'⟩ := ih (addEntry_inv hg1 hi) (by rw [this]; exact hd) (fun x hx => hl x (by simp [hx]))
    exact ⟨g', foldlM_cons_ok.2 ⟨g1, hg1, hg'⟩⟩

theorem selBatch_total {g : GoalSystem} (hi : GInv g) (hd : 0 < g.nMaxDepth) (d : Rat) :
    ∃ level, selBatch g d = .ok level := by
  have hlt : 0 < g.batchesByDepth.length := by rw [hi.nlevels]; omega
  unfold selBatch
  rw [indexAt_ok.2 (List.getElem?_eq_getElem hlt)]
  exact ⟨_, rfl⟩

theorem goalSample_total {g : GoalSystem} (hi : GInv g) (hd : 0 < g.nMaxDepth) (d1 d2 : Rat) (h2 : 0 ≤ d2) :
    ∃ r, goalSample g d1 d2 = .ok r := by
  obtain ⟨level, hb⟩ := selBatch_total hi hd d1
  obtain ⟨r, _, h, -⟩ := goalSample_level hi h2 hb (selBatch_mem hb)
  exact ⟨r, h⟩

theorem sampleAndInference_total {g : GoalSystem} {t : Int} {m : PMem} {d1 d2 : Rat} {rng : List Nat} (hi : GInv g)
    (hd : 0 < g.nMaxDepth) (hu : Usable g) (hm : m.Valid) (h2 : 0 ≤ d2) :
    ∃ g', sampleAndInference g t m d1 d2 rng = .ok g' := by
  obtain ⟨r, hr⟩ := goalSample_total hi hd d1 d2 h2
  unfold sampleAndInference
  rw [hr]
  cases r with
  | none => exact ⟨_, rfl⟩
  | some p =>
    obtain ⟨s, d⟩ := p
    obtain ⟨i, e, he, rfl, rfl⟩ := goalSample_stored hr
    obtain ⟨hs, h0⟩ := hu e (.inr ⟨i, he⟩)
    obtain ⟨⟨cs1, rng1⟩, hc1⟩ := subWorkingCycle_total hm g.rounds.toNat (ws := [(e.sentence, e.depth)]) (by simpa using hs) rng
    obtain ⟨⟨cs2, rng2⟩, hc2⟩ := deriveGoalsHelper_total hm hs e.depth .ALL_BELIEFS rng1
    simp only [bind, Except.bind, hc1, hc2]
    apply foldAddEntry_total hi hd
    intro c hc
    rcases List.mem_append.1 hc with hc | hc
    · obtain ⟨n, h1, h2⟩ := subWorkingCycle_spec _ hc1 (s := e.sentence) (d := e.depth) (by simp) c hc
      exact ⟨h1.truth.1, by omega⟩
    · obtain ⟨h1, h2⟩ := deriveGoalsHelper_spec hc2 c hc
      exact ⟨h1.truth.1, by omega⟩

theorem GoalOp.run_cfg {decay : Int → Rat} {g g' : GoalSystem} {op : GoalOp} (h : op.run decay g = .ok g') :
    g'.nMaxDepth = g.nMaxDepth := by
  cases op with
  | add t goal ev d => exact (addEntry_spec h).1.2.1
  | event term => rw [← Except.ok.inj h]; rfl
  | limit t =>
    obtain ⟨sorted, -, -, -, -, -, h2⟩ := goalLimit_cases h
    exact (foldAdd_spec h2).1.2.1
  | infer t m d1 d2 rng => exact (sampleAndInference_spec h).1.2.1
  | executed i => rw [← Except.ok.inj h]
  | configure n en => rw [← Except.ok.inj h]

theorem runGoals_depth {decay : Int → Rat} {n d : Int} {ops : List GoalOp} {g : GoalSystem}
    (h : runGoals decay n d ops = .ok g) : g.nMaxDepth = d :=
  foldlM_inv (fun g : GoalSystem => g.nMaxDepth = d) h rfl (fun _ _ _ _ hb ha => by rw [GoalOp.run_cfg ha, hb])

theorem GoalOp.run_total {decay : Int → Rat} {g : GoalSystem} {op : GoalOp} (hi : GInv g) (hd : 0 < g.nMaxDepth)
    (hn : 0 ≤ g.nMaxEntries) (hu : Usable g) (hs : op.Sane) :
    ∃ g', op.run decay g = .ok g' ∧ 0 ≤ g'.nMaxEntries ∧ Usable g' := by
  cases op with
  | add t goal ev d =>
    obtain ⟨h1, h2, h3⟩ := hs
    obtain ⟨g', hg⟩ := addEntry_total (t := t) (ev := ev) hi hd h1 h3
    obtain ⟨a1, -, a3⟩ := addEntry_spec hg
    refine ⟨g', hg, by rw [a1.1]; exact hn, fun x hx => ?_⟩
    rcases a3 x hx with hx | ⟨a, rfl⟩
    · exact hu x hx
    · exact ⟨h2, h3⟩
  | event term =>
    refine ⟨_, rfl, hn, fun x hx => ?_⟩
    obtain ⟨e, he, rfl⟩ := (eventOccurred_stored g term x).1 hx
    obtain ⟨f1, -, -, f2, -⟩ := satisfy_fields g.enGoalSatisfaction term e
    rw [f1, f2]; exact hu e he
  | limit t =>
    obtain ⟨g', hg⟩ := goalLimit_total (decay := decay) (t := t) hi hd hn hu
    obtain ⟨sorted, -, -, -, h1, -, h2⟩ := goalLimit_cases hg
    obtain ⟨b1, -, -, b3, -⟩ := foldAdd_spec h2
    refine ⟨g', hg, by rw [b1.1]; exact hn, fun x hx => ?_⟩
    rcases b3 x hx with hx | ⟨e, he, a, rfl⟩
    · exact absurd hx (flushed_stored g x)
    · obtain ⟨y, u, hy, -, rfl⟩ := h1 e (List.mem_of_mem_take he)
      exact hu y hy
  | infer t m d1 d2 rng =>
    obtain ⟨hm, h0⟩ := hs
    obtain ⟨g', hg⟩ := sampleAndInference_total (t := t) (d1 := d1) (rng := rng) hi hd hu hm h0
    obtain ⟨a1, -, a3⟩ := sampleAndInference_spec hg
    refine ⟨g', hg, by rw [a1.1]; exact hn, fun x hx => ?_⟩
    rcases a3 x hx with hx | ⟨i, e, c, a, he, -, ⟨k, hc, hk⟩, rfl⟩
    · exact hu x hx
    · refine ⟨hc.truth.2, ?_⟩
      have := (hu e (.inr ⟨i, he⟩)).2
      show 0 ≤ c.depth
      omega
  | executed i =>
    refine ⟨_, rfl, hn, fun x hx => hu x ?_⟩
    rcases hx with hx | hx
    · exact .inl (List.mem_of_mem_eraseIdx hx)
    · exact .inr hx
  | configure n en => exact ⟨_, rfl, hs, fun x hx => hu x hx⟩

/-! ## registration -/

theorem registerByTerm_keeps {s x : Sentence} {m : List (Term × List Sentence)} {k : Term} {arr : List Sentence}
    (h : (k, arr) ∈ m) (hx : x ∈ arr) : ∃ arr', (k, arr') ∈ registerByTerm s m ∧ x ∈ arr' := by
  induction m with
  | nil => simp at h
  | cons p m ih =>
    obtain ⟨k', a'⟩ := p
    unfold registerByTerm
    rcases List.mem_cons.1 h with h | h
    · cases h
      split
      · split
        · exact ⟨arr, by simp, hx⟩
        · exact ⟨arr ++ [s], by simp, by simp [hx]⟩
      · exact ⟨arr, by simp, hx⟩
    · split
      · split <;> exact ⟨arr, by simp [h], hx⟩
      · obtain ⟨arr', h1, h2⟩ := ih h
        exact ⟨arr', by simp [h1], h2⟩

theorem registerByTerm_adds {s : Sentence} {m : List (Term × List Sentence)}
    (h : ∀ arr, (s.term, arr) ∈ m → arr = []) : ∃ arr, (s.term, arr) ∈ registerByTerm s m ∧ s ∈ arr := by
  induction m with
  | nil => exact ⟨[s], by simp [registerByTerm], by simp⟩
  | cons p m ih =>
    obtain ⟨k, arr⟩ := p
    unfold registerByTerm
    split
    · rename_i heq
      have hk := (checkEqTerm_iff _ _).1 heq
      subst hk
      have := h arr (by simp)
      subst this
      simp
    · obtain ⟨a, h1, h2⟩ := ih (fun a ha => h a (by simp [ha]))
      exact ⟨a, by simp [h1], h2⟩

/-- registered under its term -/
def InRegister (g : GoalSystem) (s : Sentence) : Prop :=
  ∃ arr, (s.term, arr) ∈ g.entriesByTerm ∧ ∃ x ∈ arr, SameGoal x s

theorem addEntry2_registered {g g' : GoalSystem} {e : Entry} (h : addEntry2 g e = .ok g') {s : Sentence}
    (hr : InRegister g s) : InRegister g' s := by
  rcases addEntry2_cases h with ⟨-, -, rfl⟩ | ⟨-, -, rfl⟩ | ⟨-, h⟩
  · exact hr
  · exact hr
  · obtain ⟨i, level, -, -, hc⟩ := addToLevel_cases h
    rcases hc with ⟨pre, gr, post, last, -, -, -, -, rfl⟩ | ⟨-, rfl⟩
    · exact hr
    · obtain ⟨arr, h1, x, h2, h3⟩ := hr
      obtain ⟨arr', h4, h5⟩ := registerByTerm_keeps (s := e.sentence) h1 h2
      exact ⟨arr', h4, x, h5, h3⟩

theorem addEntry_registered {g g' : GoalSystem} {t : Int} {goal : Sentence} {ev : Option Nat} {d : Int}
    (h : addEntry g t goal ev d = .ok g') {s : Sentence} (hr : InRegister g s) : InRegister g' s := by
  rcases (addEntry_cases h).2 with ⟨-, rfl⟩ | ⟨-, h⟩
  · exact hr
  · exact addEntry2_registered h hr

theorem GoalOp.run_registered {decay : Int → Rat} {g g' : GoalSystem} {op : GoalOp} (h : op.run decay g = .ok g')
    (hop : ∀ t, op ≠ .limit t) {s : Sentence} (hr : InRegister g s) : InRegister g' s := by
  cases op with
  | add t goal ev d => exact addEntry_registered h hr
  | event term => rw [← Except.ok.inj h]; exact hr
  | limit t => exact absurd rfl (hop t)
  | infer t m d1 d2 rng =>
    rcases sampleAndInference_cases h with ⟨-, rfl⟩ | ⟨goal, depth, cs1, rng1, cs2, rng2, -, -, -, hf⟩
    · exact hr
    · exact foldlM_inv (fun g => InRegister g s) hf hr (fun a _ b b' hb ha => addEntry_registered ha hb)
  | executed i => rw [← Except.ok.inj h]; exact hr
  | configure n en => rw [← Except.ok.inj h]; exact hr

end Nar
