import Verif.Lemmas.MemSane
/-! # Property theorems about concept memory (C14-C18, C56) -/
namespace Nar.Props
open Nar Term

/-! ## concrete sentences for the examples -/

/-- `<x --> y>. {f c}` with evidence `id` -/
def jdg (x y : String) (f c : Rat) (id : Int) : Sentence :=
  newEternalSentenceByTv (.Stmt .INH (.Name x) (.Name y)) .JUGEMENT ⟨f, c⟩ ⟨[id]⟩

/-- sizes of all tables of a memory -/
def tableSizes (m : Mem) : List (Nat × Nat) := m.map (fun c => (c.beliefsByExp.length, c.beliefsByUsage.length))

/-! ## C14 -/

/-- Whatever happens to a memory, no concept lists more beliefs than configured (at least one). -/
theorem C14_tables_bounded (n : Nat) (ops : List MemOp) (m : Mem) (h : runMem n ops = .ok m) :
    ∀ c ∈ m, c.beliefsByExp.length ≤ max 1 n ∧ c.beliefsByUsage.length ≤ max 1 n := by
  apply runMem_inv_tables (fun e u => e.length ≤ max 1 n ∧ u.length ≤ max 1 n) h
  · intro s; simp
  · intro s now e u e' u' hP he hu
    exact ⟨storeTable_length he (le_max_right _ _) hP.1, storeTable_length hu (le_max_right _ _) hP.2⟩
  · intro _ _ s e u r1 r2 hP h1 h2
    rw [reviseTable_length h1, reviseTable_length h2]; exact hP
  · intro e u f1 f2 hP; simpa using hP

/-- a history which overflows a table of size 2 -/
example : (runMem 2 [.add (jdg "a" "b" 1 (1/2) 1) 0, .add (jdg "a" "c" 1 (1/2) 2) 0,
    .add (jdg "a" "d" 1 (1/2) 3) 0, .touch (fun _ _ _ b => ⟨5, 3, b.usage.cell⟩), .add (jdg "a" "b" 0 (1/2) 4) 9]).map tableSizes =
    .ok [(1, 1), (2, 2), (1, 1), (1, 1), (1, 1), (1, 1), (1, 1)] := by decide +kernel

/-- Concepts are identified by their term: no term ever has two concepts. -/
theorem C14_one_concept_per_term (n : Nat) (ops : List MemOp) (m : Mem) (h : runMem n ops = .ok m) :
    (m.map (·.name)).Nodup :=
  (runMem_inv (fun _ => True) h trivial (fun _ _ _ _ _ _ _ => trivial)).1

/-! ## C15 -/

/-- The state of declarative memory used by the other C15 theorems: reachable by adding sentences with
an evidence trail, forgetting and using beliefs. -/
def Reachable (n : Nat) (m : Mem) : Prop := ∃ ops, (∀ op ∈ ops, MemOp.Declarative op) ∧ runMem n ops = .ok m

/-- Declarative memory never lists two beliefs about the same statement in one table. -/
theorem C15_one_belief_per_statement (n : Nat) (m : Mem) (h : Reachable n m) :
    ∀ c ∈ m, (c.beliefsByExp.map (·.term)).Nodup ∧ (c.beliefsByUsage.map (·.term)).Nodup := by
  obtain ⟨ops, hd, h⟩ := h
  refine (runMem_inv (fun m => ∀ c ∈ m, (c.beliefsByExp.map (·.term)).Nodup ∧
    (c.beliefsByUsage.map (·.term)).Nodup) h (by simp) ?_).2
  intro op hop m m' hw hm h
  exact MemOp.run_nodup h hw (hd op hop) hm

/-- The exact effect of adding a judgement `s` on any table of any concept named by a sub-term of its
statement: an independent belief about the statement is replaced by the pooled belief. -/
theorem C15_independent_evidence_is_pooled (n : Nat) (m m' : Mem) (hm : Reachable n m) (s : Sentence) (now : Int)
    (r : Option Sentence) (hj : s.punct = .JUGEMENT) (hs : s.stamp.ids ≠ [])
    (h : addBelief m s n now = .ok (m', r)) (c : Concept) (hc : c ∈ m) (hsub : IsSubterm c.name s.term) :
    ∃ c' ∈ m', c'.name = c.name ∧
      ((∃ b ∈ c.beliefsByExp, SameStatement b s ∧ ¬ SharesEvidence b s) → Pooled s c.beliefsByExp c'.beliefsByExp) ∧
      ((∃ b ∈ c.beliefsByUsage, SameStatement b s ∧ ¬ SharesEvidence b s) →
        Pooled s c.beliefsByUsage c'.beliefsByUsage) := by
  have hw : m.WF := by
    obtain ⟨ops, _, h⟩ := hm; exact C14_one_concept_per_term n ops m h
  have hn := C15_one_belief_per_statement n m hm c hc
  have hpool : ∀ cell table r1, reviseTable cell table s = .ok r1 →
      (∃ b ∈ table, SameStatement b s ∧ ¬ SharesEvidence b s) → Pooled s table r1.1 := by
    intro _ table r1 h1 ⟨b, hb, hbs, hbn⟩
    rcases reviseTable_cases h1 with ⟨hall, _⟩ | ⟨pre, b, post, add, rfl, h2, h3, _, hr, rfl⟩
    · exact absurd (hall b hb hbs) hbn
    · obtain ⟨ta, tb, tv, h4, h5, h6, rfl⟩ := revisedBelief_ok hr
      exact ⟨pre, b, post, _, ta, tb, tv, rfl, rfl, h2, h3, h2, rfl, h4, h5, h6, rfl⟩
  have ht : c.name ∈ retSubterms s.term := (mem_retSubterms _ _).2 hsub
  have hg := Mem.get_of_mem hw hc
  rcases addBelief_cases h with ⟨x, _, h⟩ | ⟨_, m1, h1, h2⟩
  · rcases memReviseBelief_cases h with ⟨hp, _⟩ | ⟨_, h⟩
    · exact absurd hj hp
    · rcases reviseFold_get h hg hs hn.1 hn.2 with ⟨hnot, _⟩ | ⟨_, _, _, r1, r2, hr1, hr2, hg'⟩
      · exact absurd ht hnot
      · refine ⟨_, (Mem.get_some hg').1, rfl, hpool _ _ _ hr1, hpool _ _ _ hr2⟩
  · rcases memReviseBelief_cases h1 with ⟨hp, _⟩ | ⟨_, h1⟩
    · exact absurd hj hp
    · obtain ⟨he, hall⟩ := reviseFold_none h1 hw rfl
      cases he
      rcases storeInConcepts2_cases h2 with ⟨hp, _⟩ | ⟨_, h2⟩
      · exact absurd hj hp
      · obtain ⟨c', hc', hP⟩ := storeFold_get_inv (fun d => d.name = c.name) h2 hg rfl
          (fun d e u hd _ _ => hd)
        refine ⟨c', (Mem.get_some hc').1, hP, ?_, ?_⟩
        · rintro ⟨b, hb, hbs, hbn⟩; exact absurd ((hall c hc ht).1 b hb hbs) hbn
        · rintro ⟨b, hb, hbs, hbn⟩; exact absurd ((hall c hc ht).2 b hb hbs) hbn

/-- Dependent evidence is ignored: a table holding a belief about the statement which shares evidence with
the added sentence is left unchanged. -/
theorem C15_dependent_evidence_is_ignored (n : Nat) (m m' : Mem) (hm : Reachable n m) (s : Sentence) (now : Int)
    (r : Option Sentence) (hj : s.punct = .JUGEMENT) (hs : s.stamp.ids ≠ [])
    (h : addBelief m s n now = .ok (m', r)) (c : Concept) (hc : c ∈ m) (hsub : IsSubterm c.name s.term) :
    ∃ c' ∈ m', c'.name = c.name ∧
      ((∃ b ∈ c.beliefsByExp, SameStatement b s ∧ SharesEvidence b s) → c'.beliefsByExp = c.beliefsByExp) ∧
      ((∃ b ∈ c.beliefsByUsage, SameStatement b s ∧ SharesEvidence b s) →
        c'.beliefsByUsage = c.beliefsByUsage) := by
  have hw : m.WF := by
    obtain ⟨ops, _, h⟩ := hm; exact C14_one_concept_per_term n ops m h
  have hn := C15_one_belief_per_statement n m hm c hc
  have hign : ∀ cell (table : List Sentence) r1, (table.map (·.term)).Nodup → reviseTable cell table s = .ok r1 →
      (∃ b ∈ table, SameStatement b s ∧ SharesEvidence b s) → r1.1 = table := by
    intro _ table r1 hnd h1 ⟨b, hb, hbs, hbn⟩
    rcases reviseTable_cases h1 with ⟨_, rfl⟩ | ⟨pre, b', post, add, rfl, h2, h3, _, hr, rfl⟩
    · rfl
    · have := eq_of_nodup_map hnd b hb b' (by simp) (hbs.trans h2.symm)
      subst this; exact absurd hbn h3
  have ht : c.name ∈ retSubterms s.term := (mem_retSubterms _ _).2 hsub
  have hg := Mem.get_of_mem hw hc
  rcases addBelief_cases h with ⟨x, _, h⟩ | ⟨_, m1, h1, h2⟩
  · rcases memReviseBelief_cases h with ⟨hp, _⟩ | ⟨_, h⟩
    · exact absurd hj hp
    · rcases reviseFold_get h hg hs hn.1 hn.2 with ⟨hnot, _⟩ | ⟨_, _, _, r1, r2, hr1, hr2, hg'⟩
      · exact absurd ht hnot
      · exact ⟨_, (Mem.get_some hg').1, rfl, hign _ _ _ hn.1 hr1, hign _ _ _ hn.2 hr2⟩
  · rcases memReviseBelief_cases h1 with ⟨hp, _⟩ | ⟨_, h1⟩
    · exact absurd hj hp
    · obtain ⟨he, hall⟩ := reviseFold_none h1 hw rfl
      cases he
      rcases storeInConcepts2_cases h2 with ⟨hp, _⟩ | ⟨_, h2⟩
      · exact absurd hj hp
      · have key := storeFold_get_inv (fun d => d.name = c.name ∧
            ((∃ b ∈ c.beliefsByExp, SameStatement b s ∧ SharesEvidence b s) → d.beliefsByExp = c.beliefsByExp) ∧
            ((∃ b ∈ c.beliefsByUsage, SameStatement b s ∧ SharesEvidence b s) →
              d.beliefsByUsage = c.beliefsByUsage)) h2 hg ⟨rfl, fun _ => rfl, fun _ => rfl⟩ ?_
        · obtain ⟨c', hc', hP⟩ := key
          exact ⟨c', (Mem.get_some hc').1, hP⟩
        · rintro d e u ⟨hd, hd1, hd2⟩ he hu
          refine ⟨hd, ?_, ?_⟩
          · intro hex
            have := hd1 hex
            rw [this] at he
            exact storeTable_dependent hex he
          · intro hex
            have := hd2 hex
            rw [this] at hu
            exact storeTable_dependent hex hu

/-- adding the same statement with new evidence pools it, adding it again with old evidence does nothing -/
example : (runMem 3 [.add (jdg "a" "b" 1 (1/2) 1) 0, .add (jdg "a" "b" 0 (1/2) 2) 0,
      .add (jdg "a" "b" 0 (1/2) 2) 0]).map
    (fun m => m.map (fun c => c.beliefsByExp.map (fun b => (b.stamp.ids, b.evi)))) =
    .ok [[([1, 2], some (.TV ⟨1/2, 2/3⟩))], [([1, 2], some (.TV ⟨1/2, 2/3⟩))],
      [([1, 2], some (.TV ⟨1/2, 2/3⟩))]] := by decide +kernel

/-- a history of the kind the theorems speak about: two statements about `a`, with forgetting in between -/
example : ∃ m, Reachable 3 m ∧ m.length = 5 ∧
    ∀ c ∈ m, (c.beliefsByExp.map (·.term)).Nodup ∧ (c.beliefsByUsage.map (·.term)).Nodup := by
  have h : (runMem 3 [.add (jdg "a" "b" 1 (1/2) 1) 0, .forget 20, .add (jdg "a" "c" 1 (1/2) 2) 0]).map
      (fun m => m.length) = .ok 5 := by decide +kernel
  obtain ⟨m, hm, hl⟩ := R.map_ok.1 h
  have hr : Reachable 3 m := ⟨_, by simp [MemOp.Declarative, jdg, newEternalSentenceByTv], hm⟩
  exact ⟨m, hr, hl, C15_one_belief_per_statement 3 m hr⟩

/-- new evidence about `<a --> b>` is pooled with what the concept `a` holds; the same evidence again is ignored -/
example : ∃ m m' r c c', Reachable 3 m ∧ addBelief m (jdg "a" "b" 0 (1/2) 2) 3 0 = .ok (m', r) ∧ c ∈ m ∧
    c.name = .Name "a" ∧ c' ∈ m' ∧ c'.name = .Name "a" ∧
    Pooled (jdg "a" "b" 0 (1/2) 2) c.beliefsByExp c'.beliefsByExp := by
  have h : (runMem 3 [.add (jdg "a" "b" 1 (1/2) 1) 0]).map (fun m =>
      m.map (fun c => (c.name, c.beliefsByExp.map (fun b => (b.term, b.stamp))))) =
      .ok [(.Stmt .INH (.Name "a") (.Name "b"), [(.Stmt .INH (.Name "a") (.Name "b"), ⟨[1]⟩)]),
        (.Name "a", [(.Stmt .INH (.Name "a") (.Name "b"), ⟨[1]⟩)]),
        (.Name "b", [(.Stmt .INH (.Name "a") (.Name "b"), ⟨[1]⟩)])] := by decide +kernel
  have h2 : ((runMem 3 [.add (jdg "a" "b" 1 (1/2) 1) 0]).bind (fun m =>
      addBelief m (jdg "a" "b" 0 (1/2) 2) 3 0)).map (fun _ => ()) = .ok () := by decide +kernel
  obtain ⟨m, hm, hv⟩ := R.map_ok.1 h
  obtain ⟨⟨m', r⟩, hb, -⟩ := R.map_ok.1 h2
  obtain ⟨x, hx, hadd⟩ := R.bind_ok.1 hb
  rw [hm] at hx
  cases hx
  have hr : Reachable 3 m := ⟨_, by simp [MemOp.Declarative, jdg, newEternalSentenceByTv], hm⟩
  have hmem : ((.Name "a", [(.Stmt .INH (.Name "a") (.Name "b"), ⟨[1]⟩)]) : Term × List (Term × Stamp)) ∈
      m.map (fun c => (c.name, c.beliefsByExp.map (fun b => (b.term, b.stamp)))) := by rw [hv]; simp
  obtain ⟨c, hc, he⟩ := List.mem_map.1 hmem
  simp only [Prod.mk.injEq] at he
  obtain ⟨hn, he⟩ := he
  obtain ⟨b, l, hl, hbe, -⟩ := List.map_eq_cons_iff.1 he
  simp only [Prod.mk.injEq] at hbe
  obtain ⟨c', hc', hn', hp, -⟩ := C15_independent_evidence_is_pooled 3 m m' hr _ 0 r rfl
    (by simp [jdg, newEternalSentenceByTv]) hadd c hc
    (by rw [hn, ← mem_retSubterms]; simp [jdg, newEternalSentenceByTv, retSubterms])
  refine ⟨m, m', r, c, c', hr, hadd, hc, hn, hc', hn'.trans hn, hp ⟨b, by rw [hl]; simp, ?_, ?_⟩⟩
  · exact hbe.1
  · rintro ⟨e, h1, h2⟩
    rw [hbe.2] at h1
    simp [jdg, newEternalSentenceByTv] at h1 h2
    omega

/-- Without an evidence trail the guarantee is lost: a sentence whose term repeats a sub-term is listed
twice in one table. -/
theorem C15_needs_evidence_trail : ∃ (s : Sentence) (m : Mem), s.stamp.ids = [] ∧
    runMem 3 [.add s 0] = .ok m ∧ ∃ c ∈ m, ¬ (c.beliefsByExp.map (·.term)).Nodup := by
  refine ⟨newEternalSentenceByTv (.Stmt .INH (.Name "a") (.Name "a")) .JUGEMENT ⟨1, 1/2⟩ ⟨[]⟩, ?_⟩
  refine ⟨_, rfl, rfl, _, List.mem_cons_of_mem _ List.mem_cons_self, ?_⟩
  decide +kernel

/-! ## C16 -/

/-- Limiting leaves exactly the requested number of concepts, or everything if there are fewer. -/
theorem C16_limit_size (m m' : Mem) (n : Nat) (h : limitMemory m n = .ok m') :
    m'.length = min m.length n ∧ (m.length ≤ n → m' = m) := by
  rcases limitMemory_cases h with ⟨hl, rfl⟩ | ⟨hl, sorted, hp, _, _, rfl⟩
  · exact ⟨by omega, fun _ => rfl⟩
  · constructor
    · have := hp.length_eq
      rw [List.length_map] at this
      rw [List.length_map, List.length_take, this]; omega
    · intro h; omega

/-- Limiting keeps concepts unchanged and never drops a concept whose best expectation beats that of a
kept one. -/
theorem C16_limit_keeps_best (m m' : Mem) (n : Nat) (h : limitMemory m n = .ok m') :
    (∀ c ∈ m', c ∈ m) ∧
    ∀ kept ∈ m', ∀ dropped ∈ m, dropped ∉ m' → ∃ rk rd, BestExpectation kept rk ∧
      BestExpectation dropped rd ∧ rd ≤ rk := by
  refine ⟨limitMemory_mem h, ?_⟩
  rcases limitMemory_cases h with ⟨hl, rfl⟩ | ⟨hl, sorted, hp, hs, hr, rfl⟩
  · intro _ _ d hd hn; exact absurd hd hn
  · intro k hk d hd hn
    obtain ⟨pk, hpk, rfl⟩ := List.mem_map.1 hk
    obtain ⟨pd, hpd, rfl⟩ := List.mem_map.1 (hp.mem_iff.2 hd)
    have hdrop : pd ∈ sorted.drop n := by
      rw [← List.take_append_drop n sorted, List.mem_append] at hpd
      rcases hpd with hpd | hpd
      · exact absurd (List.mem_map.2 ⟨pd, hpd, rfl⟩) hn
      · exact hpd
    exact ⟨pk.1, pd.1, ratingOf_best (hr pk (List.mem_of_mem_take hpk)),
      ratingOf_best (hr pd hpd), sorted_take_drop hs n pk hpk pd hdrop⟩

/-- Limiting never crashes if all beliefs have an expectation. -/
theorem C16_limit_total (m : Mem) (n : Nat) (h : ∀ c ∈ m, ∀ b ∈ c.beliefsByExp, ∃ e, Expectation b e) :
    ∃ m', limitMemory m n = .ok m' := by
  unfold limitMemory
  split
  · exact ⟨m, rfl⟩
  · obtain ⟨r, hr⟩ := keyed_ok_of (key := ratingOf) (l := m) (fun c hc => ratingOf_ok (h c hc))
    rw [hr]; exact ⟨_, rfl⟩

/-- forgetting down to two concepts drops the two weakest of four -/
example : (runMem 3 [.add (newEternalSentenceByTv (.Name "weak") .JUGEMENT ⟨0, 1/2⟩ ⟨[1]⟩) 0,
      .add (jdg "a" "b" 1 (1/2) 2) 0, .forget 3]).map (fun m => m.map (·.name)) =
    .ok [.Stmt .INH (.Name "a") (.Name "b"), .Name "a", .Name "b"] := by decide +kernel

/-! ## C17 -/

/-- After filing a judgement every sub-term of its statement has a concept, and in both of its tables
the judgement is listed, or the table holds dependent evidence about the same statement, or the table
is full with beliefs ranked at least as high. -/
theorem C17_filed_under_all_subterms (m m' : Mem) (s : Sentence) (n : Nat) (now : Int)
    (hj : s.punct = .JUGEMENT) (h : storeInConcepts m s n now = .ok m') (t : Term) (ht : IsSubterm t s.term) :
    FiledUnder m' s n now t := by
  have hstep : ∀ (key : Sentence → R Rat) (table table' : List Sentence),
      storeTable key table s n = .ok table' →
      s ∈ table' ∨ (∃ b ∈ table', SameStatement b s ∧ SharesEvidence b s) ∨
        (table'.length = n ∧ ∀ b ∈ table', ∃ eb es, key b = .ok eb ∧ key s = .ok es ∧ es ≤ eb) := by
    intro key table table' h
    rcases storeTable_cases h with ⟨hd, rfl⟩ | ⟨_, sorted, hp, hs, hk, rfl⟩
    · exact .inr (.inl ((dependentBelief_iff _ _).1 hd))
    · have hmem : s ∈ sorted.map (·.2) := hp.mem_iff.2 (by simp)
      obtain ⟨p, hps, rfl⟩ := List.mem_map.1 hmem
      rw [← List.take_append_drop n sorted, List.mem_append] at hps
      rw [← List.map_take]
      rcases hps with hpt | hpd
      · exact .inl (List.mem_map.2 ⟨p, hpt, rfl⟩)
      · right; right
        constructor
        · have : n ≤ sorted.length := by
            by_contra hlt
            rw [List.drop_eq_nil_of_le (by omega)] at hpd
            simp at hpd
          simp [this]
        · intro b hb
          obtain ⟨q, hq, rfl⟩ := List.mem_map.1 hb
          exact ⟨q.1, p.1, hk q (List.mem_of_mem_take hq), hk p (List.mem_of_mem_drop hpd),
            sorted_take_drop hs n q hq p hpd⟩
  rcases storeInConcepts2_cases h with ⟨hp, _⟩ | ⟨_, h⟩
  · exact absurd hj hp
  · have key := storeFold_get (fun c => c.name = t ∧
      (s ∈ c.beliefsByExp ∨ (∃ b ∈ c.beliefsByExp, SameStatement b s ∧ SharesEvidence b s) ∨
        (c.beliefsByExp.length = n ∧ ∀ b ∈ c.beliefsByExp, ∃ eb es, Expectation b eb ∧ Expectation s es ∧ es ≤ eb)) ∧
      (s ∈ c.beliefsByUsage ∨ (∃ b ∈ c.beliefsByUsage, SameStatement b s ∧ SharesEvidence b s) ∨
        (c.beliefsByUsage.length = n ∧ ∀ b ∈ c.beliefsByUsage,
          calcUsageUsefulness s.usage now ≤ calcUsageUsefulness b.usage now)))
      h ((mem_retSubterms _ _).2 ht) ?_ (by simp)
    · obtain ⟨c', hc', hP⟩ := key
      exact ⟨c', (Mem.get_some hc').1, hP⟩
    · intro c e u he hu hn
      refine ⟨hn, ?_, ?_⟩
      · rcases hstep _ _ _ he with h | h | ⟨h1, h2⟩
        · exact .inl h
        · exact .inr (.inl h)
        · refine .inr (.inr ⟨h1, fun b hb => ?_⟩)
          obtain ⟨eb, es, h3, h4, h5⟩ := h2 b hb
          exact ⟨eb, es, (expOf_iff _ _).1 h3, (expOf_iff _ _).1 h4, h5⟩
      · rcases hstep _ _ _ hu with h | h | ⟨h1, h2⟩
        · exact .inl h
        · exact .inr (.inl h)
        · refine .inr (.inr ⟨h1, fun b hb => ?_⟩)
          obtain ⟨eb, es, h3, h4, h5⟩ := h2 b hb
          rw [Except.ok.inj h3, Except.ok.inj h4]; exact h5

/-- Adding a judgement to memory (which first tries to pool its evidence) files it under all sub-terms unless
some concept held independent evidence about the same statement. -/
theorem C17_added_belief_is_in_memory (m m' : Mem) (s : Sentence) (n : Nat) (now : Int) (r : Option Sentence)
    (hj : s.punct = .JUGEMENT) (h : addBelief m s n now = .ok (m', r))
    (hnew : ∀ c ∈ m, (∀ b ∈ c.beliefsByExp, SameStatement b s → SharesEvidence b s) ∧
      ∀ b ∈ c.beliefsByUsage, SameStatement b s → SharesEvidence b s) :
    r = none ∧ ∀ t, IsSubterm t s.term → FiledUnder m' s n now t := by
  rcases addBelief_cases h with ⟨x, rfl, hrv⟩ | ⟨rfl, m1, _, h2⟩
  · exfalso
    rcases memReviseBelief_cases hrv with ⟨_, he⟩ | ⟨_, h⟩
    · cases he
    · have := foldlM_inv (fun st : Mem × Option Sentence => st.2 = none ∧
        ∀ c ∈ st.1, (∀ b ∈ c.beliefsByExp, SameStatement b s → SharesEvidence b s) ∧
          ∀ b ∈ c.beliefsByUsage, SameStatement b s → SharesEvidence b s) h ⟨rfl, hnew⟩ ?_
      · exact absurd this.1 (by simp)
      · intro t _ st st' hP h1
        have hsame : ∀ cell table r, (∀ b ∈ table, SameStatement b s → SharesEvidence b s) →
            reviseTable cell table s = .ok r → r = (table, none) := by
          intro _ table r hb h
          rcases reviseTable_cases h with ⟨_, rfl⟩ | ⟨pre, b, post, add, rfl, h3, h4, _, _, rfl⟩
          · rfl
          · exact absurd (hb b (by simp) h3) h4
        rcases reviseAt_cases h1 with ⟨_, rfl⟩ | ⟨c, r1, r2, hg, e1, e2, rfl⟩
        · exact hP
        · have hc := hP.2 c (Mem.get_some hg).1
          have h1' := hsame _ _ _ hc.1 e1
          have h2' := hsame _ _ _ hc.2 e2
          subst h1' h2'
          refine ⟨by simp [hP.1], ?_⟩
          intro d hd
          rcases Mem.mem_set hd with rfl | ⟨hd, _⟩
          · exact hc
          · exact hP.2 d hd
  · exact ⟨rfl, fun t ht => C17_filed_under_all_subterms m1 m' s n now hj h2 t ht⟩

/-- a first judgement is filed under its subject -/
example : ∃ m', addBelief [] (jdg "a" "b" 1 (1/2) 1) 5 0 = .ok (m', none) ∧
    FiledUnder m' (jdg "a" "b" 1 (1/2) 1) 5 0 (.Name "a") := by
  have h : (addBelief [] (jdg "a" "b" 1 (1/2) 1) 5 0).map (fun _ => ()) = .ok () := by decide +kernel
  obtain ⟨⟨m', r⟩, hm, -⟩ := R.map_ok.1 h
  obtain ⟨rfl, hf⟩ := C17_added_belief_is_in_memory [] m' _ 5 0 r rfl hm (by simp)
  exact ⟨m', hm, hf _ (by rw [← mem_retSubterms]; simp [jdg, newEternalSentenceByTv, retSubterms])⟩

/-- the statement, the subject and the predicate get a concept -/
example : ((storeInConcepts [] (jdg "a" "b" 1 (1/2) 1) 5 0).map (fun m => m.map (·.name))) =
    .ok [.Stmt .INH (.Name "a") (.Name "b"), .Name "a", .Name "b"] := by decide +kernel

/-! ## C18 -/

/-- Filing keeps tables ranked, and a table changed by filing is ranked whatever it was before. -/
theorem C18_filing_ranks (table table' : List Sentence) (s : Sentence) (n : Nat) (now : Int) :
    (storeTable expOf table s n = .ok table' → table' ≠ table ∨ RankedByExp table → RankedByExp table') ∧
    (storeTable (usefulOf now) table s n = .ok table' → table' ≠ table ∨ RankedByUse now table →
      RankedByUse now table') := by
  constructor
  · intro h hor
    rcases storeTable_cases h with ⟨_, rfl⟩ | ⟨_, sorted, _, hs, hk, rfl⟩
    · rcases hor with hor | hor
      · exact absurd rfl hor
      · exact hor
    · unfold RankedByExp
      refine List.Pairwise.sublist (List.take_sublist n _) ?_
      rw [List.pairwise_map]
      refine hs.imp_of_mem ?_
      intro a b ha hb hab ea eb hea heb
      rw [((expOf_iff _ _).1 (hk a ha)).unique hea, ((expOf_iff _ _).1 (hk b hb)).unique heb] at hab
      exact hab
  · intro h hor
    rcases storeTable_cases h with ⟨_, rfl⟩ | ⟨_, sorted, _, hs, hk, rfl⟩
    · rcases hor with hor | hor
      · exact absurd rfl hor
      · exact hor
    · unfold RankedByUse
      refine List.Pairwise.sublist (List.take_sublist n _) ?_
      rw [List.pairwise_map]
      refine hs.imp_of_mem ?_
      intro a b ha hb hab
      have h1 := Except.ok.inj (hk a ha)
      have h2 := Except.ok.inj (hk b hb)
      rw [h1, h2]; exact hab

/-- filing a strong belief into a table with a weak one moves it to the front -/
example : ∃ table', storeTable expOf [jdg "a" "b" 1 (1/4) 1] (jdg "a" "c" 1 (1/2) 2) 5 = .ok table' ∧
    table'.map (·.stamp.ids) = [[2], [1]] ∧ RankedByExp table' := by
  have h : (storeTable expOf [jdg "a" "b" 1 (1/4) 1] (jdg "a" "c" 1 (1/2) 2) 5).map
      (fun l => l.map (·.stamp.ids)) = .ok [[2], [1]] := by decide +kernel
  obtain ⟨l, hl, hv⟩ := R.map_ok.1 h
  refine ⟨l, hl, hv, (C18_filing_ranks _ _ _ _ 0).1 hl (.inr ?_)⟩
  simp [RankedByExp]

/-- As long as beliefs are only filed (not revised), every table stays ranked from best to worst. -/
theorem C18_ranked_partial (n : Nat) (ops : List MemOp) (m : Mem) (h : runMem n ops = .ok m)
    (hno : ∀ op ∈ ops, ∀ s now, op ≠ .add s now) : ∀ c ∈ m, RankedByExp c.beliefsByExp := by
  refine (runMem_inv (fun m => ∀ c ∈ m, RankedByExp c.beliefsByExp) h (by simp) ?_).2
  intro op hop m m' _ hm h
  cases op with
  | add s now => exact absurd rfl (hno _ hop s now)
  | store s under now =>
    rcases storeInConcepts2_cases h with ⟨_, rfl⟩ | ⟨_, h⟩
    · exact hm
    · refine foldlM_inv (fun m : Mem => ∀ c ∈ m, RankedByExp c.beliefsByExp) h hm ?_
      intro t _ m m' hm h
      exact storeAt_inv (fun e _ => RankedByExp e) h hm (by simp [RankedByExp])
        (fun c hc _ e u he _ => (C18_filing_ranks _ _ _ _ 0).1 he (.inr (hm c hc)))
  | forget l => intro c hc; exact hm c (limitMemory_mem h c hc)
  | touch g =>
    cases h
    intro c hc
    obtain ⟨d, hd, rfl⟩ := List.mem_map.1 hc
    have hd := hm d hd
    unfold RankedByExp at *
    rw [List.pairwise_iff_getElem] at *
    intro i j hi hj hij ea eb hea heb
    simp only [List.length_mapIdx] at hi hj
    simp only [List.getElem_mapIdx] at hea heb
    exact hd i j hi hj hij ea eb hea heb

/-- filing three beliefs, forgetting and using leaves ranked tables -/
example : ∃ m, runMem 10 [.store (jdg "a" "b" 1 (1/4) 1) [.Name "a"] 0, .store (jdg "a" "c" 1 (1/2) 2) [.Name "a"] 0,
      .touch (fun _ _ _ b => ⟨5, 3, b.usage.cell⟩), .store (jdg "a" "d" 1 (1/3) 3) [.Name "a", .Name "d"] 0,
      .forget 1] = .ok m ∧ m.map (fun c => c.beliefsByExp.map (·.stamp.ids)) = [[[2], [3], [1]]] ∧
    ∀ c ∈ m, RankedByExp c.beliefsByExp := by
  have h : (runMem 10 [.store (jdg "a" "b" 1 (1/4) 1) [.Name "a"] 0, .store (jdg "a" "c" 1 (1/2) 2) [.Name "a"] 0,
      .touch (fun _ _ _ b => ⟨5, 3, b.usage.cell⟩), .store (jdg "a" "d" 1 (1/3) 3) [.Name "a", .Name "d"] 0,
      .forget 1]).map (fun m => m.map (fun c => c.beliefsByExp.map (·.stamp.ids))) = .ok [[[2], [3], [1]]] := by
    decide +kernel
  obtain ⟨m, hm, hv⟩ := R.map_ok.1 h
  refine ⟨m, hm, hv, C18_ranked_partial 10 _ m hm ?_⟩
  intro op hop s now
  simp only [List.mem_cons, List.not_mem_nil, or_false] at hop
  rcases hop with rfl | rfl | rfl | rfl | rfl <;> simp

/-- Revision breaks the ranking: it appends the pooled belief at the end. -/
theorem C18_revision_breaks_ranking : ∃ (ops : List MemOp) (m : Mem), (∀ op ∈ ops, MemOp.Declarative op) ∧
    runMem 10 ops = .ok m ∧ ∃ c ∈ m, ¬ RankedByExp c.beliefsByExp := by
  have h : (runMem 10 [.add (jdg "a" "b" 1 (1/2) 1) 0, .add (jdg "a" "c" 1 (1/4) 2) 0,
      .add (jdg "a" "b" 1 (1/2) 3) 0]).map (fun m => (m.map (fun c => c.beliefsByExp.map (·.evi)))[1]?) =
      .ok (some [some (.TV ⟨1, 1/4⟩), some (.TV ⟨1, 2/3⟩)]) := by decide +kernel
  obtain ⟨m, hm, h⟩ := R.map_ok.1 h
  refine ⟨_, m, by simp [MemOp.Declarative, jdg, newEternalSentenceByTv], hm, ?_⟩
  rw [List.getElem?_map, Option.map_eq_some_iff] at h
  obtain ⟨c, hc, h⟩ := h
  refine ⟨c, List.mem_of_getElem? hc, ?_⟩
  intro hr
  obtain ⟨a, l, hl, ha, h⟩ := List.map_eq_cons_iff.1 h
  obtain ⟨b, l', hl', hb, _⟩ := List.map_eq_cons_iff.1 h
  subst hl'
  unfold RankedByExp at hr
  rw [hl] at hr
  have h1 := (List.pairwise_cons.1 hr).1 b List.mem_cons_self
  have h2 := h1 (5/8) (5/6) ⟨⟨1, 1/4⟩, by unfold HasTruth retTv; rw [ha], by norm_num⟩
    ⟨⟨1, 2/3⟩, by unfold HasTruth retTv; rw [hb], by norm_num⟩
  norm_num at h2

/-! ## C56 -/

/-- No history of adding judgements with truth values in range and confidence below 1, of forgetting and
of using beliefs crashes the memory, and every belief it then holds is again in range with confidence
below 1. -/
theorem C56_memory_never_crashes (n : Nat) (ops : List MemOp) (h : ∀ op ∈ ops, op.Sane) :
    ∃ m, runMem n ops = .ok m ∧
      ∀ c ∈ m, (∀ b ∈ c.beliefsByExp, SaneBelief b) ∧ (∀ b ∈ c.beliefsByUsage, SaneBelief b) := by
  apply foldlM_total SaneMem ops _ [] (by intro c hc; simp at hc)
  intro op hop m hm
  have hop := h op hop
  cases op with
  | store s under now => exact store_total m s under n now hm hop
  | add s now =>
    obtain ⟨⟨m1, r⟩, h1, hm1⟩ := revise_total m s hm hop
    cases r with
    | some x => exact ⟨m1, by simp [MemOp.run, addBelief, h1, bind, Except.bind, Except.map], hm1⟩
    | none =>
      obtain ⟨m2, h2, hm2⟩ := store_total m1 s (retSubterms s.term) n now hm1 hop
      refine ⟨m2, ?_, hm2⟩
      simp only [MemOp.run, addBelief, h1, bind, Except.bind]
      unfold storeInConcepts
      rw [h2]; rfl
  | forget l =>
    obtain ⟨m', h'⟩ := C16_limit_total m l (by
      intro c hc b hb
      obtain ⟨tv, htv, _⟩ := (hm c hc).1 b hb
      exact ⟨_, tv, htv, rfl⟩)
    exact ⟨m', h', fun c hc => hm c (limitMemory_mem h' c hc)⟩
  | touch g =>
    refine ⟨_, rfl, ?_⟩
    intro c hc
    obtain ⟨d, hd, rfl⟩ := List.mem_map.1 hc
    constructor
    · intro b hb
      obtain ⟨i, hi, rfl⟩ := List.mem_mapIdx.1 hb
      have := (hm d hd).1 _ (List.getElem_mem hi); exact this
    · intro b hb
      obtain ⟨i, hi, rfl⟩ := List.mem_mapIdx.1 hb
      have := (hm d hd).2 _ (List.getElem_mem hi); exact this

example : ∀ op ∈ [MemOp.add (jdg "a" "b" 1 (1/2) 1) 0, .forget 2, .add (jdg "a" "b" 0 (9/10) 2) 4], op.Sane := by
  intro op hop
  simp only [List.mem_cons, List.not_mem_nil, or_false] at hop
  rcases hop with rfl | rfl | rfl
  · intro _; exact ⟨⟨1, 1/2⟩, rfl, by norm_num⟩
  · trivial
  · intro _; exact ⟨⟨0, 9/10⟩, rfl, by norm_num⟩

/-- Stating the same thing twice with confidence exactly 1 makes the pooled truth value undefined (NaN):
the guarantee of `C56_memory_never_crashes` does not extend to confidence 1. -/
theorem C56_axioms_break_revision : ∃ a b : Sentence, a.punct = .JUGEMENT ∧ b.punct = .JUGEMENT ∧
    HasTruth a ⟨1, 1⟩ ∧ HasTruth b ⟨1, 1⟩ ∧ runMem 10 [.add a 0, .add b 0] = .error .nan :=
  ⟨jdg "a" "b" 1 1 1, jdg "a" "b" 1 1 2, rfl, rfl, rfl, rfl, by decide +kernel⟩

end Nar.Props
