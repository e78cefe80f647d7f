import Verif.Lemmas.Mem
import Verif.Lemmas.Tv
import Mathlib.Tactic.Ring
/-! # Helper lemmas about concept memory, part 2: frames, expectation, histories -/
namespace Nar
open Term

theorem expOf_iff (s : Sentence) (e : Rat) : expOf s = .ok e ↔ Expectation s e := by
  unfold expOf Expectation HasTruth
  simp only [R.bind_ok]
  constructor
  · rintro ⟨o, h1, tv, h2, h3⟩
    cases o with
    | none => cases h2
    | some tv' => cases h2; cases h3; exact ⟨tv, h1, by unfold Tv.calcExp; ring⟩
  · rintro ⟨tv, h1, rfl⟩
    exact ⟨some tv, h1, tv, rfl, by unfold Tv.calcExp; congr 1; ring⟩

theorem Expectation.unique {s : Sentence} {e e' : Rat} (h : Expectation s e) (h' : Expectation s e') : e = e' := by
  rw [← expOf_iff] at h h'
  rw [h] at h'; cases h'; rfl

/-! ## repeating a revision or a filing does nothing -/

theorem Stamp.ids_ne {s : Stamp} (h : s.ids ≠ []) : ∃ x, x ∈ s.ids := List.exists_mem_of_ne_nil _ h

theorem reviseTable_eq_none {cell : List Int} {table : List Sentence} {s : Sentence}
    (h : ∀ b ∈ table, SameStatement b s → SharesEvidence b s) : reviseTable cell table s = .ok (table, none) := by
  have : table.findIdx? (fun b => checkEqTerm b.term s.term && !Stamp.checkOverlap b.stamp s.stamp) = none := by
    rw [List.findIdx?_eq_none_iff]
    intro b hb
    by_cases hs : b.term = s.term
    · have := (Stamp.checkOverlap_iff _ _).2 (h b hb hs)
      simp [this]
    · simp [(checkEqTerm_false_iff _ _).2 hs]
  unfold reviseTable
  rw [this]

theorem revisedBelief_shares {cell : List Int} {b s r : Sentence} (h : revisedBelief cell b s = .ok r) (hs : s.stamp.ids ≠ []) :
    SharesEvidence r s := by
  obtain ⟨_, _, _, _, _, _, rfl⟩ := revisedBelief_ok h
  exact (Stamp.checkOverlap_iff _ _).1 (Stamp.merge_overlap_right b.stamp s.stamp hs)

theorem reviseTable_idem {cell cell' : List Int} {table : List Sentence} {s : Sentence} {r : List Sentence × Option Sentence}
    (h : reviseTable cell table s = .ok r) (hn : (table.map (·.term)).Nodup) (hs : s.stamp.ids ≠ []) :
    reviseTable cell' r.1 s = .ok (r.1, none) := by
  apply reviseTable_eq_none
  rcases reviseTable_cases h with ⟨h1, rfl⟩ | ⟨pre, b, post, add, rfl, hb, _, _, hr, rfl⟩
  · exact h1
  · intro x hx hxs
    simp only [List.mem_append, List.mem_singleton] at hx
    have hne : ∀ x, x ∈ pre ∨ x ∈ post → x.term ≠ b.term := by
      intro x hx
      rw [List.map_append, List.map_cons, List.nodup_append] at hn
      rcases hx with hx | hx
      · exact hn.2.2 _ (List.mem_map.2 ⟨x, hx, rfl⟩) _ (by simp)
      · intro e
        have := (List.nodup_cons.1 hn.2.1).1
        exact this (List.mem_map.2 ⟨x, hx, e⟩)
    rcases hx with hx | rfl
    · exact absurd (hxs.trans hb.symm) (hne x hx)
    · exact revisedBelief_shares hr hs

/-- effect of revision on one concept -/
theorem reviseFold_get {s : Sentence} {ts : List Term} {st st' : Mem × Option Sentence} {t : Term} {c : Concept}
    (h : ts.foldlM (reviseAt s) st = .ok st') (hg : st.1.get t = some c) (hs : s.stamp.ids ≠ [])
    (hn1 : (c.beliefsByExp.map (·.term)).Nodup) (hn2 : (c.beliefsByUsage.map (·.term)).Nodup) :
    (t ∉ ts ∧ st'.1.get t = some c) ∨
    (t ∈ ts ∧ ∃ cell1 cell2 r1 r2, reviseTable cell1 c.beliefsByExp s = .ok r1 ∧ reviseTable cell2 c.beliefsByUsage s = .ok r2 ∧
      st'.1.get t = some { c with beliefsByExp := r1.1, beliefsByUsage := r2.1 }) := by
  induction ts generalizing st c with
  | nil => rw [foldlM_nil_ok] at h; rw [← h]; exact .inl ⟨by simp, hg⟩
  | cons t0 ts ih =>
    obtain ⟨st1, h1, h2⟩ := foldlM_cons_ok.1 h
    by_cases ht : t0 = t
    · subst ht
      right
      refine ⟨by simp, ?_⟩
      rcases reviseAt_cases h1 with ⟨hno, _⟩ | ⟨c0, r1, r2, hg0, he, hu, rfl⟩
      · rw [hg] at hno; cases hno
      · rw [hg] at hg0; cases hg0
        have hcn := (Mem.get_some hg).2
        have hg1 : (st.1.set { c with beliefsByExp := r1.1, beliefsByUsage := r2.1 }).get t0 =
            some { c with beliefsByExp := r1.1, beliefsByUsage := r2.1 } := by
          have := Mem.get_set_self (m := st.1) (c := c)
            (d := { c with beliefsByExp := r1.1, beliefsByUsage := r2.1 }) (by rw [← hg, hcn])
          rw [hcn] at this; rw [hcn]; exact this
        refine ⟨_, _, r1, r2, he, hu, ?_⟩
        rcases ih h2 hg1 ((reviseTable_terms he).nodup_iff.2 hn1) ((reviseTable_terms hu).nodup_iff.2 hn2) with
          ⟨_, h3⟩ | ⟨_, k1, k2, q1, q2, hq1, hq2, h3⟩
        · exact h3
        · rw [h3]
          have e1 := reviseTable_idem (cell' := k1) he hn1 hs
          have e2 := reviseTable_idem (cell' := k2) hu hn2 hs
          simp only at hq1 hq2
          rw [hq1] at e1; rw [hq2] at e2
          cases e1; cases e2; rfl
    · have hg1 : st1.1.get t = some c := by
        rcases reviseAt_cases h1 with ⟨_, rfl⟩ | ⟨c0, r1, r2, hg0, _, _, rfl⟩
        · exact hg
        · rw [Mem.get_set_ne]
          · exact hg
          · simp only; rw [(Mem.get_some hg0).2]; exact Ne.symm ht
      rcases ih h2 hg1 hn1 hn2 with ⟨h3, h4⟩ | ⟨h3, h4⟩
      · left; exact ⟨by simp [h3, Ne.symm ht], h4⟩
      · right; exact ⟨by simp [h3], h4⟩

/-- storing at other terms does not touch a concept -/
theorem storeAt_get_ne {s : Sentence} {n : Nat} {now : Int} {m m' : Mem} {t t0 : Term}
    (h : storeAt s n now m t0 = .ok m') (ht : t ≠ t0) : m'.get t = m.get t := by
  rcases storeAt_cases h with ⟨c, e, u, hg, _, _, rfl⟩ | ⟨hn, rfl⟩
  · apply Mem.get_set_ne
    simp only; rw [(Mem.get_some hg).2]; exact ht
  · rw [Mem.get_append (by exact hn)]
    simp [ht]

/-- storing at a term: what the concept looks like afterwards -/
theorem storeAt_get_self {s : Sentence} {n : Nat} {now : Int} {m m' : Mem} {t : Term}
    (h : storeAt s n now m t = .ok m') :
    (∃ c e u, m.get t = some c ∧ storeTable expOf c.beliefsByExp s n = .ok e ∧
      storeTable (usefulOf now) c.beliefsByUsage s n = .ok u ∧
      m'.get t = some { c with beliefsByExp := e, beliefsByUsage := u }) ∨
    (m.get t = none ∧ m'.get t = some ⟨t, [s], [s]⟩) := by
  rcases storeAt_cases h with ⟨c, e, u, hg, he, hu, rfl⟩ | ⟨hn, rfl⟩
  · refine .inl ⟨c, e, u, hg, he, hu, ?_⟩
    have hcn := (Mem.get_some hg).2
    have := Mem.get_set_self (m := m) (c := c) (d := { c with beliefsByExp := e, beliefsByUsage := u })
      (by rw [← hg, hcn])
    simp only at this
    rw [hcn] at this; rw [hcn]; exact this
  · refine .inr ⟨hn, ?_⟩
    rw [Mem.get_append (by exact hn)]; simp

/-- what is established at a term by every visit holds after the whole loop -/
theorem storeFold_get (P : Concept → Prop) {s : Sentence} {n : Nat} {now : Int} {ts : List Term} {m m' : Mem}
    {t : Term} (h : ts.foldlM (storeAt s n now) m = .ok m') (ht : t ∈ ts)
    (hold : ∀ (c : Concept) e u, storeTable expOf c.beliefsByExp s n = .ok e →
      storeTable (usefulOf now) c.beliefsByUsage s n = .ok u → c.name = t →
      P { c with beliefsByExp := e, beliefsByUsage := u })
    (hnew : P ⟨t, [s], [s]⟩) : ∃ c', m'.get t = some c' ∧ P c' := by
  have key : ∀ (ts : List Term) (m m' : Mem), ts.foldlM (storeAt s n now) m = .ok m' →
      (t ∈ ts ∨ ∃ c, m.get t = some c ∧ P c) → ∃ c', m'.get t = some c' ∧ P c' := by
    intro ts
    induction ts with
    | nil =>
      intro m m' h hor
      rw [foldlM_nil_ok] at h; subst h
      simpa using hor
    | cons t0 ts ih =>
      intro m m' h hor
      obtain ⟨m1, h1, h2⟩ := foldlM_cons_ok.1 h
      apply ih m1 m' h2
      by_cases he : t = t0
      · subst he
        right
        rcases storeAt_get_self h1 with ⟨c, e, u, hg, he, hu, hg'⟩ | ⟨_, hg'⟩
        · exact ⟨_, hg', hold c e u he hu (Mem.get_some hg).2⟩
        · exact ⟨_, hg', hnew⟩
      · rcases hor with hor | ⟨c, hc, hP⟩
        · left
          rcases List.mem_cons.1 hor with hor | hor
          · exact absurd hor he
          · exact hor
        · right
          exact ⟨c, by rw [storeAt_get_ne h1 he]; exact hc, hP⟩
  exact key ts m m' h (.inl ht)

/-- a property of the concept at a term which every visit preserves -/
theorem storeFold_get_inv (P : Concept → Prop) {s : Sentence} {n : Nat} {now : Int} {ts : List Term} {m m' : Mem}
    {t : Term} {c0 : Concept} (h : ts.foldlM (storeAt s n now) m = .ok m') (hg : m.get t = some c0) (h0 : P c0)
    (hold : ∀ (c : Concept) e u, P c → storeTable expOf c.beliefsByExp s n = .ok e →
      storeTable (usefulOf now) c.beliefsByUsage s n = .ok u →
      P { c with beliefsByExp := e, beliefsByUsage := u }) : ∃ c', m'.get t = some c' ∧ P c' := by
  apply foldlM_inv (fun m => ∃ c', Mem.get m t = some c' ∧ P c') h ⟨c0, hg, h0⟩
  rintro t0 _ m m' ⟨c, hc, hP⟩ h1
  by_cases he : t = t0
  · subst he
    rcases storeAt_get_self h1 with ⟨c1, e, u, hg, he, hu, hg'⟩ | ⟨hn, _⟩
    · rw [hc] at hg; cases hg
      exact ⟨_, hg', hold c e u hP he hu⟩
    · rw [hc] at hn; cases hn
  · exact ⟨c, by rw [storeAt_get_ne h1 he]; exact hc, hP⟩

theorem storeTable_dependent {key : Sentence → R Rat} {table table' : List Sentence} {s : Sentence} {n : Nat}
    (hd : ∃ b ∈ table, SameStatement b s ∧ SharesEvidence b s) (h : storeTable key table s n = .ok table') :
    table' = table := by
  rcases storeTable_cases h with ⟨_, rfl⟩ | ⟨hf, _⟩
  · rfl
  · rw [(dependentBelief_iff table s).2 hd] at hf; cases hf

theorem storeTable_nodup {key : Sentence → R Rat} {table table' : List Sentence} {s : Sentence} {n : Nat}
    (h : storeTable key table s n = .ok table') (hn : (table.map (·.term)).Nodup)
    (hs : ∀ b ∈ table, SameStatement b s → SharesEvidence b s) : (table'.map (·.term)).Nodup := by
  rcases storeTable_cases h with ⟨_, rfl⟩ | ⟨hf, sorted, hp, _, _, rfl⟩
  · exact hn
  · have h1 : ((sorted.map (·.2)).map (·.term)).Nodup := by
      rw [(hp.map (·.term)).nodup_iff, List.map_append, List.nodup_append]
      refine ⟨hn, by simp, ?_⟩
      intro a ha b hb
      obtain ⟨x, hx, rfl⟩ := List.mem_map.1 ha
      simp at hb
      subst hb
      intro e
      have := (dependentBelief_iff table s).2 ⟨x, hx, e, hs x hx e⟩
      rw [this] at hf; cases hf
    exact h1.sublist ((List.take_sublist n _).map _)

/-! ## touching -/

/-- only counters of use changed -/
def UsageOnly (m m' : Mem) : Prop := ∃ g, m' = touchMem g m

theorem UsageOnly.refl (m : Mem) : UsageOnly m m := by
  refine ⟨fun _ _ _ b => b.usage, ?_⟩
  unfold touchMem
  have h : ∀ l : List Sentence, l.mapIdx (fun _ b => { b with usage := b.usage }) = l := by
    intro l
    rw [List.mapIdx_eq_zipIdx_map]
    exact List.zipIdx_map_fst 0 l
  simp only [h]
  simp

theorem UsageOnly.trans {a b c : Mem} (h : UsageOnly a b) (h' : UsageOnly b c) : UsageOnly a c := by
  obtain ⟨g, rfl⟩ := h
  obtain ⟨g', rfl⟩ := h'
  refine ⟨fun n t i b => g' n t i { b with usage := g n t i b }, ?_⟩
  unfold touchMem
  simp [List.mapIdx_mapIdx, Function.comp_def]

theorem useCell_eq (cell : List Int) (now : Int) (b : Sentence) :
    b.useCell cell now = { b with usage := (b.useCell cell now).usage } := by
  unfold Sentence.useCell
  split <;> rfl

theorem UsageOnly.useCell (cell : List Int) (now : Int) (m : Mem) : UsageOnly m (m.useCell cell now) := by
  refine ⟨fun _ _ _ b => (b.useCell cell now).usage, ?_⟩
  unfold touchMem Mem.useCell
  have h : ∀ l : List Sentence, l.mapIdx (fun _ b => { b with usage := (b.useCell cell now).usage }) =
      l.map (Sentence.useCell cell now) := by
    intro l
    simp only [← useCell_eq]
    rw [List.mapIdx_eq_zipIdx_map]
    conv_rhs => rw [← List.zipIdx_map_fst 0 l]
    rw [List.map_map]
    rfl
  simp only [h]

theorem touchMem_wf {g : Term → Bool → Nat → Sentence → Usage} {m : Mem} (h : m.WF) : (touchMem g m).WF := by
  unfold Mem.WF touchMem
  rw [List.map_map]
  exact h

theorem mapIdx_usage_terms (l : List Sentence) (f : Nat → Sentence → Usage) :
    (l.mapIdx (fun i b => { b with usage := f i b })).map (·.term) = l.map (·.term) := by
  apply List.ext_getElem
  · simp
  · intro i h1 h2
    simp

/-! ## limiting -/

theorem ratingOf_best {c : Concept} {r : Rat} (h : ratingOf c = .ok r) : BestExpectation c r := by
  unfold ratingOf at h
  unfold BestExpectation
  have key : ∀ (l : List Sentence) (r0 r : Rat),
      l.foldlM (fun rating b => do let e ← expOf b; Except.ok (max rating e)) r0 = (Except.ok r : R Rat) →
      r0 ≤ r ∧ (r = r0 ∨ ∃ b ∈ l, Expectation b r) ∧ ∀ b ∈ l, ∀ e, Expectation b e → e ≤ r := by
    intro l
    induction l with
    | nil => intro r0 r h; rw [foldlM_nil_ok] at h; subst h; simp
    | cons b l ih =>
      intro r0 r h
      obtain ⟨r1, h1, h2⟩ := foldlM_cons_ok.1 h
      rw [R.bind_ok] at h1
      obtain ⟨e, he, h1⟩ := h1
      cases h1
      obtain ⟨i1, i2, i3⟩ := ih _ _ h2
      refine ⟨le_trans (le_max_left _ _) i1, ?_, ?_⟩
      · rcases i2 with i2 | ⟨x, hx, i2⟩
        · rcases max_choice r0 e with hm | hm
          · left; rw [i2, hm]
          · right; refine ⟨b, by simp, ?_⟩; rw [i2, hm]; exact (expOf_iff _ _).1 he
        · right; exact ⟨x, by simp [hx], i2⟩
      · intro x hx e' he'
        rcases List.mem_cons.1 hx with rfl | hx
        · rw [((expOf_iff _ _).1 he).unique he'] at i1
          exact le_trans (le_max_right _ _) i1
        · exact i3 x hx e' he'
  obtain ⟨h1, h2, h3⟩ := key _ _ _ h
  exact ⟨h1, h2, h3⟩

theorem ratingOf_ok {c : Concept} (h : ∀ b ∈ c.beliefsByExp, ∃ e, Expectation b e) : ∃ r, ratingOf c = .ok r := by
  unfold ratingOf
  have key : ∀ (l : List Sentence), (∀ b ∈ l, ∃ e, Expectation b e) → ∀ r0 : Rat, ∃ r,
      l.foldlM (fun rating b => do let e ← expOf b; Except.ok (max rating e)) r0 = (Except.ok r : R Rat) := by
    intro l
    induction l with
    | nil => intro _ r0; exact ⟨r0, rfl⟩
    | cons b l ih =>
      intro hl r0
      obtain ⟨e, he⟩ := hl b (by simp)
      obtain ⟨r, hr⟩ := ih (fun b hb => hl b (by simp [hb])) (max r0 e)
      refine ⟨r, foldlM_cons_ok.2 ⟨max r0 e, ?_, hr⟩⟩
      rw [(expOf_iff _ _).2 he]; rfl
  exact key _ h 0

theorem limitMemory_cases {m m' : Mem} {n : Nat} (h : limitMemory m n = .ok m') :
    (m.length ≤ n ∧ m' = m) ∨ (n < m.length ∧ ∃ sorted : List (Rat × Concept),
      (sorted.map (·.2)).Perm m ∧ sorted.Pairwise (fun a b => b.1 ≤ a.1) ∧
      (∀ p ∈ sorted, ratingOf p.2 = .ok p.1) ∧ m' = (sorted.take n).map (·.2)) := by
  unfold limitMemory at h
  split at h
  · rename_i hl; cases h; exact .inl ⟨hl, rfl⟩
  · rename_i hl
    rw [R.bind_ok] at h
    obtain ⟨temp, ht, h⟩ := h
    cases h
    obtain ⟨h1, h2⟩ := keyed_ok_map ht
    refine .inr ⟨by omega, sortDesc temp, ?_, sortDesc_sorted temp, ?_, by rw [take_min_length]⟩
    · rw [← h1]; exact (sortDesc_perm temp).map _
    · intro p hp; exact h2 p ((sortDesc_perm temp).mem_iff.1 hp)

theorem limitMemory_subperm {m m' : Mem} {n : Nat} (h : limitMemory m n = .ok m') :
    ∃ l, l.Perm m ∧ m'.Sublist l := by
  rcases limitMemory_cases h with ⟨_, rfl⟩ | ⟨_, sorted, hp, _, _, rfl⟩
  · exact ⟨m', .refl _, .refl _⟩
  · exact ⟨_, hp, (List.take_sublist n sorted).map _⟩

theorem limitMemory_mem {m m' : Mem} {n : Nat} (h : limitMemory m n = .ok m') : ∀ c ∈ m', c ∈ m := by
  obtain ⟨l, hp, hs⟩ := limitMemory_subperm h
  intro c hc; exact hp.mem_iff.1 (hs.subset hc)

theorem limitMemory_wf {m m' : Mem} {n : Nat} (h : limitMemory m n = .ok m') (hw : m.WF) : m'.WF := by
  obtain ⟨l, hp, hs⟩ := limitMemory_subperm h
  unfold Mem.WF at *
  exact ((hp.map _).nodup_iff.2 hw).sublist (hs.map _)

/-! ## histories -/

theorem storeInConcepts2_wf {m m' : Mem} {s : Sentence} {sub : List Term} {n : Nat} {now : Int}
    (h : storeInConcepts2 m s sub n now = .ok m') (hw : m.WF) : m'.WF := by
  rcases storeInConcepts2_cases h with ⟨_, rfl⟩ | ⟨_, h⟩
  · exact hw
  · exact foldlM_inv Mem.WF h hw (fun _ _ _ _ hb h => storeAt_wf h hb)

theorem memReviseBelief_wf {m : Mem} {s : Sentence} {st : Mem × Option Sentence}
    (h : memReviseBelief m s = .ok st) (hw : m.WF) : st.1.WF := by
  rcases memReviseBelief_cases h with ⟨_, rfl⟩ | ⟨_, h⟩
  · exact hw
  · exact foldlM_inv (fun st : Mem × Option Sentence => st.1.WF) h hw (fun _ _ _ _ hb h => reviseAt_wf h hb)

theorem addBelief_wf {m : Mem} {s : Sentence} {n : Nat} {now : Int} {r : Mem × Option Sentence}
    (h : addBelief m s n now = .ok r) (hw : m.WF) : r.1.WF := by
  rcases addBelief_cases h with ⟨x, _, h⟩ | ⟨_, m1, h1, h2⟩
  · have := memReviseBelief_wf h hw; exact this
  · exact storeInConcepts2_wf h2 (memReviseBelief_wf h1 hw)

theorem MemOp.run_wf {n : Nat} {m m' : Mem} {op : MemOp} (h : op.run n m = .ok m') (hw : m.WF) : m'.WF := by
  cases op with
  | store s under now => exact storeInConcepts2_wf h hw
  | add s now =>
    obtain ⟨r, hr, rfl⟩ := R.map_ok.1 h
    exact addBelief_wf hr hw
  | forget l => exact limitMemory_wf h hw
  | touch g => cases h; exact touchMem_wf hw

/-- general invariant rule for histories -/
theorem runMem_inv (P : Mem → Prop) {n : Nat} {ops : List MemOp} {m : Mem} (h : runMem n ops = .ok m)
    (h0 : P []) (hs : ∀ op ∈ ops, ∀ m m', m.WF → P m → op.run n m = .ok m' → P m') : m.WF ∧ P m := by
  apply foldlM_inv (fun m => Mem.WF m ∧ P m) h ⟨by simp [Mem.WF], h0⟩
  rintro op hop m m' ⟨hw, hP⟩ h
  exact ⟨MemOp.run_wf h hw, hs op hop m m' hw hP h⟩

/-- one operation keeps a property of the pair of tables of every concept -/
theorem MemOp.run_tables (P : List Sentence → List Sentence → Prop) {n : Nat} {op : MemOp} {m m' : Mem}
    (h : op.run n m = .ok m')
    (hnew : ∀ s, P [s] [s])
    (hstore : ∀ s now e u e' u', P e u → storeTable expOf e s n = .ok e' →
      storeTable (usefulOf now) u s n = .ok u' → P e' u')
    (hrev : ∀ cell1 cell2 s e u r1 r2, P e u → reviseTable cell1 e s = .ok r1 → reviseTable cell2 u s = .ok r2 → P r1.1 r2.1)
    (htouch : ∀ e u (f1 f2 : Nat → Sentence → Usage), P e u → P (e.mapIdx (fun i b => { b with usage := f1 i b }))
      (u.mapIdx (fun i b => { b with usage := f2 i b })))
    (hm : ∀ c ∈ m, P c.beliefsByExp c.beliefsByUsage) : ∀ c ∈ m', P c.beliefsByExp c.beliefsByUsage := by
  have hstore2 : ∀ (s : Sentence) sub now (m m' : Mem), (∀ c ∈ m, P c.beliefsByExp c.beliefsByUsage) →
      storeInConcepts2 m s sub n now = .ok m' → ∀ c ∈ m', P c.beliefsByExp c.beliefsByUsage := by
    intro s sub now m m' hm h
    rcases storeInConcepts2_cases h with ⟨_, rfl⟩ | ⟨_, h⟩
    · exact hm
    · refine foldlM_inv (fun m : Mem => ∀ c ∈ m, P c.beliefsByExp c.beliefsByUsage) h hm ?_
      intro t _ m m' hm h
      exact storeAt_inv P h hm (hnew s) (fun c hc _ e u he hu => hstore s now _ _ _ _ (hm c hc) he hu)
  have hrev2 : ∀ (s : Sentence) (m : Mem) st, (∀ c ∈ m, P c.beliefsByExp c.beliefsByUsage) →
      memReviseBelief m s = .ok st → ∀ c ∈ st.1, P c.beliefsByExp c.beliefsByUsage := by
    intro s m st hm h
    rcases memReviseBelief_cases h with ⟨_, rfl⟩ | ⟨_, h⟩
    · exact hm
    · refine foldlM_inv (fun st : Mem × Option Sentence => ∀ c ∈ st.1, P c.beliefsByExp c.beliefsByUsage) h hm ?_
      intro t _ st st' hm h
      exact reviseAt_inv P h hm (fun c hc _ _ _ r1 r2 h1 h2 => hrev _ _ s _ _ _ _ (hm c hc) h1 h2)
  cases op with
  | store s under now => exact hstore2 s under now m m' hm h
  | add s now =>
    obtain ⟨r, hr, rfl⟩ := R.map_ok.1 h
    rcases addBelief_cases hr with ⟨x, _, h⟩ | ⟨_, m1, h1, h2⟩
    · have := hrev2 s m _ hm h; exact this
    · exact hstore2 s _ now m1 r.1 (hrev2 s m _ hm h1) h2
  | forget l => intro c hc; exact hm c (limitMemory_mem h c hc)
  | touch g =>
    cases h
    intro c hc
    obtain ⟨d, hd, rfl⟩ := List.mem_map.1 hc
    exact htouch _ _ _ _ (hm d hd)

/-- invariant rule for properties of the pair of tables of every concept -/
theorem runMem_inv_tables (P : List Sentence → List Sentence → Prop) {n : Nat} {ops : List MemOp} {m : Mem}
    (h : runMem n ops = .ok m)
    (hnew : ∀ s, P [s] [s])
    (hstore : ∀ s now e u e' u', P e u → storeTable expOf e s n = .ok e' →
      storeTable (usefulOf now) u s n = .ok u' → P e' u')
    (hrev : ∀ cell1 cell2 s e u r1 r2, P e u → reviseTable cell1 e s = .ok r1 → reviseTable cell2 u s = .ok r2 → P r1.1 r2.1)
    (htouch : ∀ e u (f1 f2 : Nat → Sentence → Usage), P e u → P (e.mapIdx (fun i b => { b with usage := f1 i b }))
      (u.mapIdx (fun i b => { b with usage := f2 i b }))) :
    ∀ c ∈ m, P c.beliefsByExp c.beliefsByUsage := by
  refine (runMem_inv (fun m => ∀ c ∈ m, P c.beliefsByExp c.beliefsByUsage) h (by simp) ?_).2
  intro op _ m m' _ hm h
  exact MemOp.run_tables P h hnew hstore hrev htouch hm

/-- one operation keeps one belief per statement -/
theorem MemOp.run_nodup {n : Nat} {op : MemOp} {m m' : Mem} (h : op.run n m = .ok m') (hw : m.WF)
    (hdecl : op.Declarative)
    (hm : ∀ c ∈ m, (c.beliefsByExp.map (·.term)).Nodup ∧ (c.beliefsByUsage.map (·.term)).Nodup) :
    ∀ c ∈ m', (c.beliefsByExp.map (·.term)).Nodup ∧ (c.beliefsByUsage.map (·.term)).Nodup := by
  have hrev : ∀ s st, memReviseBelief m s = .ok st → ∀ c ∈ st.1, (c.beliefsByExp.map (·.term)).Nodup ∧
      (c.beliefsByUsage.map (·.term)).Nodup := by
    intro s st h
    rcases memReviseBelief_cases h with ⟨_, rfl⟩ | ⟨_, h⟩
    · exact hm
    · refine foldlM_inv (fun st : Mem × Option Sentence => ∀ c ∈ st.1, (c.beliefsByExp.map (·.term)).Nodup ∧
        (c.beliefsByUsage.map (·.term)).Nodup) h hm ?_
      intro t _ st st' hm h
      exact reviseAt_inv (fun e u => (e.map (·.term)).Nodup ∧ (u.map (·.term)).Nodup) h hm
        (fun c hc _ _ _ r1 r2 h1 h2 => ⟨(reviseTable_terms h1).nodup_iff.2 (hm c hc).1,
          (reviseTable_terms h2).nodup_iff.2 (hm c hc).2⟩)
  cases op with
  | store s under now => exact absurd hdecl (by simp [MemOp.Declarative])
  | add s now =>
    have hs : s.stamp.ids ≠ [] := hdecl
    obtain ⟨r, hr, rfl⟩ := R.map_ok.1 h
    rcases addBelief_cases hr with ⟨x, _, h⟩ | ⟨_, m1, h1, h2⟩
    · have := hrev s _ h; exact this
    · rcases memReviseBelief_cases h1 with ⟨hp, he⟩ | ⟨_, h1⟩
      · cases he
        rcases storeInConcepts2_cases h2 with ⟨_, he⟩ | ⟨hp2, _⟩
        · rw [he]; exact hm
        · exact absurd hp2 hp
      · obtain ⟨he, hall⟩ := reviseFold_none h1 hw rfl
        cases he
        rcases storeInConcepts2_cases h2 with ⟨_, he⟩ | ⟨_, h2⟩
        · rw [he]; exact hm
        · -- invariant of the filing loop: unique statements, and beliefs about the new statement depend
          have hsub : ∀ t ∈ retSubterms s.term, t ∈ retSubterms s.term := fun _ h => h
          have := foldlM_inv (fun m : Mem => ∀ c ∈ m, ((c.beliefsByExp.map (·.term)).Nodup ∧
              (c.beliefsByUsage.map (·.term)).Nodup) ∧ (c.name ∈ retSubterms s.term →
              (∀ b ∈ c.beliefsByExp, SameStatement b s → SharesEvidence b s) ∧
              (∀ b ∈ c.beliefsByUsage, SameStatement b s → SharesEvidence b s))) h2
            (fun c hc => ⟨hm c hc, hall c hc⟩) ?_
          · exact fun c hc => (this c hc).1
          · have hself : SharesEvidence s s := by
              obtain ⟨x, hx⟩ := Stamp.ids_ne hs; exact ⟨x, hx, hx⟩
            intro t ht m m' hm h
            rcases storeAt_cases h with ⟨c, e, u, hg, he, hu, rfl⟩ | ⟨_, rfl⟩
            · intro d hd
              rcases Mem.mem_set hd with rfl | ⟨hd, _⟩
              · have hc := hm c (Mem.get_some hg).1
                have hcs := hc.2 ((Mem.get_some hg).2 ▸ ht)
                refine ⟨⟨storeTable_nodup he hc.1.1 hcs.1, storeTable_nodup hu hc.1.2 hcs.2⟩, fun _ => ⟨?_, ?_⟩⟩
                · intro b hb hbs
                  rcases storeTable_mem he b hb with hb | rfl
                  · exact hcs.1 b hb hbs
                  · exact hself
                · intro b hb hbs
                  rcases storeTable_mem hu b hb with hb | rfl
                  · exact hcs.2 b hb hbs
                  · exact hself
              · exact hm d hd
            · intro d hd
              rcases List.mem_append.1 hd with hd | hd
              · exact hm d hd
              · simp at hd; subst hd
                simp [hself]
  | forget l => intro c hc; exact hm c (limitMemory_mem h c hc)
  | touch g =>
    cases h
    intro c hc
    obtain ⟨d, hd, rfl⟩ := List.mem_map.1 hc
    simp only [mapIdx_usage_terms]
    exact hm d hd

end Nar
