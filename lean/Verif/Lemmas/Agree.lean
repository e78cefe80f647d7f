import Verif.Lemmas.Pooled
import Verif.Lemmas.Whole
import Verif.Spec.Agree
/-! # Memory does not contradict itself -/
namespace Nar
open Term

/-- what the memory shows under the term `x` -/
def Shown (m : Mem) (x : Term) (k : Ranking) (t : Term) (v : R (Option Tv)) (st : Stamp) : Prop :=
  ∃ c, m.get x = some c ∧ ∃ b ∈ c.list k, b.term = t ∧ retTv b = v ∧ b.stamp = st

/-- each belief is shown under all parts of its statement, in both lists, as the same -/
structure Agree (m : Mem) : Prop where
  filed : ∀ x k t v st, Shown m x k t v st → IsSubterm x t
  same : ∀ x k t v st, Shown m x k t v st → ∀ y k', IsSubterm y t → Shown m y k' t v st

/-- no list has two beliefs about the same statement -/
def OnceEach (m : Mem) : Prop :=
  ∀ c ∈ m, (c.beliefsByExp.map (·.term)).Nodup ∧ (c.beliefsByUsage.map (·.term)).Nodup

theorem OnceEach.list {m : Mem} (h : OnceEach m) {c : Concept} (hc : c ∈ m) (k : Ranking) : ((c.list k).map (·.term)).Nodup := by
  cases k
  · exact (h c hc).1
  · exact (h c hc).2

theorem Shown.unique {m : Mem} (h : OnceEach m) {x : Term} {k : Ranking} {t : Term} {v v' : R (Option Tv)} {st st' : Stamp}
    (h1 : Shown m x k t v st) (h2 : Shown m x k t v' st') : v = v' ∧ st = st' := by
  obtain ⟨c, hg, b, hb, e, rfl, rfl⟩ := h1
  obtain ⟨c', hg', b', hb', e', rfl, rfl⟩ := h2
  rw [hg] at hg'; cases hg'
  obtain rfl := eq_of_nodup_map (h.list (Mem.get_some hg).1 k) b hb b' hb' (e.trans e'.symm)
  exact ⟨rfl, rfl⟩

/-- what is shown after a statement has been added -/
def Changed (m m' : Mem) (u : Term) : Prop :=
  ∃ v1 st1, ∀ x k t v st, Shown m' x k t v st ↔ (t ≠ u ∧ Shown m x k t v st) ∨ (IsSubterm x u ∧ t = u ∧ v = v1 ∧ st = st1)

theorem Changed.agree {m m' : Mem} {u : Term} (h : Changed m m' u) (ha : Agree m) : Agree m' := by
  obtain ⟨v1, st1, h⟩ := h
  constructor
  · intro x k t v st hs
    rcases (h x k t v st).1 hs with ⟨_, hs⟩ | ⟨hx, rfl, _, _⟩
    · exact ha.filed _ _ _ _ _ hs
    · exact hx
  · intro x k t v st hs y k' hy
    rw [h]
    rcases (h x k t v st).1 hs with ⟨hne, hs⟩ | ⟨hx, rfl, e1, e2⟩
    · exact .inl ⟨hne, ha.same _ _ _ _ _ hs y k' hy⟩
    · exact .inr ⟨hy, rfl, e1, e2⟩

theorem storeFold_nothing {s : Sentence} {n : Nat} {now : Int} {ts : List Term} {m m' : Mem} (hw : m.WF)
    (h : ts.foldlM (storeAt s n now) m = .ok m')
    (hd : ∀ x ∈ ts, ∃ c, m.get x = some c ∧ ∀ k, ∃ b ∈ c.list k, b.term = s.term ∧ SharesEvidence b s) : m' = m := by
  refine foldlM_inv (fun a : Mem => a = m) h rfl ?_
  rintro t ht a b rfl hstep
  obtain ⟨c, hg, hdep⟩ := hd t ht
  have tab : ∀ key (l l' : List Sentence), storeTable key l s n = .ok l' → (∃ b ∈ l, b.term = s.term ∧ SharesEvidence b s) → l' = l := by
    intro key l l' h1 hb
    rcases storeTable_cases h1 with ⟨_, e⟩ | ⟨hno, _⟩
    · exact e
    · rw [(dependentBelief_iff _ _).2 hb] at hno; cases hno
  rcases storeAt_cases hstep with ⟨c1, e, u, hg1, g1, g2, rfl⟩ | ⟨hno, _⟩
  · rw [hg] at hg1; cases hg1
    have e1 := tab _ _ _ g1 (hdep .expectation)
    have e2 := tab _ _ _ g2 (hdep .use)
    subst e1 e2
    exact Mem.set_same hw (Mem.get_some hg).1
  · rw [hg] at hno; cases hno

theorem reviseFold_nothing' {s : Sentence} {ts : List Term} {m : Mem} {st' : Mem × Option Sentence}
    (h : ts.foldlM (reviseAt s) (m, none) = .ok st') (hw : m.WF)
    (hn : ∀ c ∈ m, ∀ k, ∀ b ∈ c.list k, b.term = s.term → SharesEvidence b s) : st' = (m, none) := by
  refine foldlM_inv (fun st : Mem × Option Sentence => st = (m, none)) h rfl ?_
  rintro t _ a b rfl hstep
  have tab : ∀ cell (l : List Sentence) r1, (∀ b ∈ l, b.term = s.term → SharesEvidence b s) → reviseTable cell l s = .ok r1 → r1 = (l, none) := by
    intro cell l r1 hl hr
    rcases reviseTable_cases hr with ⟨_, e⟩ | ⟨pre, b1, post, add, rfl, g2, g3, _⟩
    · exact e
    · exact absurd (hl b1 (by simp) g2) g3
  rcases reviseAt_cases hstep with ⟨_, rfl⟩ | ⟨c, r1, r2, hg, g1, g2, rfl⟩
  · rfl
  · have hc := (Mem.get_some hg).1
    have e1 := tab _ _ _ (hn c hc .expectation) g1
    have e2 := tab _ _ _ (hn c hc .use) g2
    subst e1 e2
    show (Mem.set m c, none) = (m, none)
    rw [Mem.set_same hw hc]

/-- the list after the statement has been pooled with the belief about it -/
theorem reviseTable_shown {cell : List Int} {l : List Sentence} {s : Sentence} {r1 : List Sentence × Option Sentence}
    (h : reviseTable cell l s = .ok r1) (hn : (l.map (·.term)).Nodup) {b0 : Sentence} (hb0 : b0 ∈ l) (hsame : b0.term = s.term)
    (hind : ¬ SharesEvidence b0 s) :
    ∃ tb ts tv, HasTruth b0 tb ∧ HasTruth s ts ∧ Tv.rev tb ts = some tv ∧
      ∀ t v st, (∃ b ∈ r1.1, b.term = t ∧ retTv b = v ∧ b.stamp = st) ↔
        (t ≠ s.term ∧ ∃ b ∈ l, b.term = t ∧ retTv b = v ∧ b.stamp = st) ∨
        (t = s.term ∧ v = .ok (some tv) ∧ st = Stamp.merge b0.stamp s.stamp) := by
  rcases reviseTable_cases h with ⟨hall, _⟩ | ⟨pre, b1, post, add, rfl, g2, g3, _, hrb, rfl⟩
  · exact absurd (hall b0 hb0 hsame) hind
  · obtain rfl := eq_of_nodup_map hn b0 hb0 b1 (by simp) (hsame.trans g2.symm)
    obtain ⟨ta, tb, tv, h4, h5, h6, ea⟩ := revisedBelief_ok hrb
    refine ⟨ta, tb, tv, h4, h5, h6, fun t v st => ?_⟩
    simp only [List.map_append, List.map_cons] at hn
    obtain ⟨_, n2, n3⟩ := List.nodup_append.1 hn
    obtain ⟨n4, _⟩ := List.nodup_cons.1 n2
    constructor
    · rintro ⟨b, hb, rfl, rfl, rfl⟩
      simp only [List.mem_append, List.mem_singleton] at hb
      rcases hb with (hb | hb) | hb
      · exact .inl ⟨fun e => n3 b.term (List.mem_map_of_mem hb) b0.term (by simp) (e.trans hsame.symm), b, by simp [hb], rfl, rfl, rfl⟩
      · exact .inl ⟨fun e => n4 (by rw [hsame, ← e]; exact List.mem_map_of_mem hb), b, by simp [hb], rfl, rfl, rfl⟩
      · subst hb
        right
        rw [ea]
        exact ⟨hsame, rfl, rfl⟩
    · rintro (⟨hne, b, hb, rfl, rfl, rfl⟩ | ⟨rfl, rfl, rfl⟩)
      · refine ⟨b, ?_, rfl, rfl, rfl⟩
        simp only [List.mem_append, List.mem_cons] at hb ⊢
        rcases hb with hb | rfl | hb
        · exact .inl (.inl hb)
        · exact absurd hsame hne
        · exact .inl (.inr hb)
      · exact ⟨add, by simp, by rw [ea]; exact hsame, by rw [ea]; rfl, by rw [ea]⟩

theorem addBelief_changed {m m' : Mem} {s : Sentence} {n : Nat} {now : Int} {r : Option Sentence} (hn : 20 ≤ n)
    (h : addBelief m s n now = .ok (m', r)) (hw : m.WF) (hon : OnceEach m) (hroom : RoomEverywhere m) (ha : Agree m)
    (hids : s.punct = .JUGEMENT → s.stamp.ids ≠ []) : m' = m ∨ Changed m m' s.term := by
  by_cases hj : s.punct = .JUGEMENT
  swap
  · left
    rcases addBelief_cases h with ⟨x, _, h1⟩ | ⟨_, m1, h1, h2⟩
    · rcases memReviseBelief_cases h1 with ⟨_, e⟩ | ⟨hp, _⟩
      · cases e
      · exact absurd hp hj
    · rcases memReviseBelief_cases h1 with ⟨_, e⟩ | ⟨hp, _⟩
      · cases e
        rcases storeInConcepts2_cases h2 with ⟨_, rfl⟩ | ⟨hp, _⟩
        · rfl
        · exact absurd hp hj
      · exact absurd hp hj
  have hids := hids hj
  -- the two stages
  have hstages : (∃ y, (retSubterms s.term).foldlM (reviseAt s) (m, none) = .ok (m', some y)) ∨
      ∃ m1, (retSubterms s.term).foldlM (reviseAt s) (m, none) = .ok (m1, none) ∧ (retSubterms s.term).foldlM (storeAt s n now) m1 = .ok m' := by
    rcases addBelief_cases h with ⟨y, _, h1⟩ | ⟨_, m1, h1, h2⟩
    · rcases memReviseBelief_cases h1 with ⟨hp, _⟩ | ⟨_, h1⟩
      · exact absurd hj hp
      · exact .inl ⟨y, h1⟩
    · rcases memReviseBelief_cases h1 with ⟨hp, _⟩ | ⟨_, h1⟩
      · exact absurd hj hp
      · rcases storeInConcepts2_cases h2 with ⟨hp, _⟩ | ⟨_, h2⟩
        · exact absurd hj hp
        · exact .inr ⟨m1, h1, h2⟩
  by_cases hold : ∃ x k v st, Shown m x k s.term v st
  · obtain ⟨x0, k0, v0, st0, hsh0⟩ := hold
    have hsh : ∀ x k, IsSubterm x s.term → Shown m x k s.term v0 st0 := fun x k hx => ha.same _ _ _ _ _ hsh0 x k hx
    have hall : ∀ c ∈ m, ∀ k, ∀ b ∈ c.list k, b.term = s.term → retTv b = v0 ∧ b.stamp = st0 := by
      intro c hc k b hb e
      have hs1 : Shown m c.name k s.term (retTv b) b.stamp := ⟨c, Mem.get_of_mem hw hc, b, hb, e, rfl, rfl⟩
      have hx := ha.filed _ _ _ _ _ hs1
      exact hs1.unique hon (hsh c.name k hx)
    by_cases hshare : ∃ id, id ∈ st0.ids ∧ id ∈ s.stamp.ids
    · -- it shares evidence: nothing changes
      left
      have hdep : ∀ c ∈ m, ∀ k, ∀ b ∈ c.list k, b.term = s.term → SharesEvidence b s := by
        intro c hc k b hb e
        obtain ⟨id, i1, i2⟩ := hshare
        exact ⟨id, by rw [(hall c hc k b hb e).2]; exact i1, i2⟩
      rcases hstages with ⟨y, h1⟩ | ⟨m1, h1, h2⟩
      · have := reviseFold_nothing' h1 hw hdep; cases this
      · have e := reviseFold_nothing' h1 hw hdep
        cases e
        refine storeFold_nothing hw h2 ?_
        intro x hx
        have hx := (mem_retSubterms _ _).1 hx
        obtain ⟨c, hg, _⟩ := hsh x .use hx
        refine ⟨c, hg, fun k => ?_⟩
        obtain ⟨c', hg', b, hb, e, _⟩ := hsh x k hx
        rw [hg] at hg'; cases hg'
        exact ⟨b, hb, e, hdep c (Mem.get_some hg).1 k b hb e⟩
    · -- it is pooled
      right
      have hind : ∀ c ∈ m, ∀ k, ∀ b ∈ c.list k, b.term = s.term → ¬ SharesEvidence b s := by
        rintro c hc k b hb e ⟨id, i1, i2⟩
        exact hshare ⟨id, by rw [← (hall c hc k b hb e).2]; exact i1, i2⟩
      have hself : IsSubterm s.term s.term := .refl _
      have hfold : ∃ y, (retSubterms s.term).foldlM (reviseAt s) (m, none) = .ok (m', some y) := by
        rcases hstages with h1 | ⟨m1, h1, _⟩
        · exact h1
        · obtain ⟨_, hno⟩ := reviseFold_none h1 hw rfl
          obtain ⟨c, hg, b, hb, e, _⟩ := hsh s.term .expectation hself
          have hc := (Mem.get_some hg).1
          exact absurd ((hno c hc (by rw [(Mem.get_some hg).2]; exact (mem_retSubterms _ _).2 hself)).1 b hb e) (hind c hc .expectation b hb e)
      obtain ⟨y, hf⟩ := hfold
      -- the truth values
      obtain ⟨c0, hg0, b0, hb0, e0, ev0, es0⟩ := hsh s.term .expectation hself
      have hc0 := (Mem.get_some hg0).1
      have hone : ∃ tb ts tv, v0 = .ok (some tb) ∧ retTv s = .ok (some ts) ∧ Tv.rev tb ts = some tv := by
        rcases reviseFold_get hf hg0 hids (hon c0 hc0).1 (hon c0 hc0).2 with ⟨hnot, _⟩ | ⟨_, cell1, cell2, r1, r2, hr1, _, _⟩
        · exact absurd ((mem_retSubterms _ _).2 hself) hnot
        · obtain ⟨tb, ts, tv, k1, k2, k3, _⟩ := reviseTable_shown hr1 (hon c0 hc0).1 hb0 e0 (hind c0 hc0 .expectation b0 hb0 e0)
          exact ⟨tb, ts, tv, by rw [← ev0]; exact k1, k2, k3⟩
      obtain ⟨tb, ts, tv, q1, q2, q3⟩ := hone
      refine ⟨.ok (some tv), Stamp.merge st0 s.stamp, fun x k t v st => ?_⟩
      by_cases hx : IsSubterm x s.term
      · obtain ⟨c, hg, _⟩ := hsh x k hx
        have hc := (Mem.get_some hg).1
        have hbk : ∀ k, ∃ b ∈ c.list k, b.term = s.term ∧ retTv b = v0 ∧ b.stamp = st0 := by
          intro k
          obtain ⟨c', hg', b, hb⟩ := hsh x k hx
          rw [hg] at hg'; cases hg'
          exact ⟨b, hb⟩
        rcases reviseFold_get hf hg hids (hon c hc).1 (hon c hc).2 with ⟨hnot, _⟩ | ⟨_, cell1, cell2, r1, r2, hr1, hr2, hg'⟩
        · exact absurd ((mem_retSubterms _ _).2 hx) hnot
        · have key : (∃ b ∈ ({ c with beliefsByExp := r1.1, beliefsByUsage := r2.1 } : Concept).list k, b.term = t ∧ retTv b = v ∧ b.stamp = st) ↔
              (t ≠ s.term ∧ ∃ b ∈ c.list k, b.term = t ∧ retTv b = v ∧ b.stamp = st) ∨
              (t = s.term ∧ v = .ok (some tv) ∧ st = Stamp.merge st0 s.stamp) := by
            obtain ⟨b, hb, e, ev, es⟩ := hbk k
            have fin : ∀ {tb' ts' tv'}, HasTruth b tb' → HasTruth s ts' → Tv.rev tb' ts' = some tv' → tv' = tv := by
              intro tb' ts' tv' k1 k2 k3
              unfold HasTruth at k1 k2
              rw [ev, q1] at k1; cases k1
              rw [q2] at k2; cases k2
              rw [q3] at k3; cases k3; rfl
            cases k
            · obtain ⟨_, _, _, k1, k2, k3, k4⟩ := reviseTable_shown hr1 (hon c hc).1 hb e (hind c hc .expectation b hb e)
              have := k4 t v st
              rw [fin k1 k2 k3, es] at this
              exact this
            · obtain ⟨_, _, _, k1, k2, k3, k4⟩ := reviseTable_shown hr2 (hon c hc).2 hb e (hind c hc .use b hb e)
              have := k4 t v st
              rw [fin k1 k2 k3, es] at this
              exact this
          constructor
          · rintro ⟨c', hc', hb⟩
            rw [hg'] at hc'; cases hc'
            rcases key.1 hb with ⟨hne, hb⟩ | hb
            · exact .inl ⟨hne, c, hg, hb⟩
            · exact .inr ⟨hx, hb⟩
          · rintro (⟨hne, c', hc', hb⟩ | ⟨_, hb⟩)
            · rw [hg] at hc'; cases hc'
              exact ⟨_, hg', key.2 (.inl ⟨hne, hb⟩)⟩
            · exact ⟨_, hg', key.2 (.inr hb)⟩
      · have hsame : m'.get x = m.get x := by
          generalize hm0 : (m, (none : Option Sentence)) = st at hf
          have : m = st.1 := by rw [← hm0]
          rw [this]
          exact reviseFold_get_ne hf (fun hh => hx ((mem_retSubterms _ _).1 hh))
        have heq : Shown m' x k t v st ↔ Shown m x k t v st := by unfold Shown; rw [hsame]
        rw [heq]
        constructor
        · intro hs1
          refine .inl ⟨?_, hs1⟩
          rintro rfl
          exact hx (ha.filed _ _ _ _ _ hs1)
        · rintro (⟨_, hs1⟩ | ⟨hx', _⟩)
          · exact hs1
          · exact absurd hx' hx
  · -- nothing about it yet: it is filed
    right
    have hnew : ∀ c ∈ m, ∀ k, ∀ b ∈ c.list k, b.term ≠ s.term := by
      intro c hc k b hb e
      exact hold ⟨c.name, k, _, _, c, Mem.get_of_mem hw hc, b, hb, e, rfl, rfl⟩
    have hstore : (retSubterms s.term).foldlM (storeAt s n now) m = .ok m' := by
      rcases hstages with ⟨y, h1⟩ | ⟨m1, h1, h2⟩
      · have := reviseFold_nothing h1 hw hnew; cases this
      · have e := reviseFold_nothing h1 hw hnew; cases e; exact h2
    refine ⟨retTv s, s.stamp, fun x k t v st => ?_⟩
    by_cases hx : IsSubterm x s.term
    · have ht : x ∈ retSubterms s.term := (mem_retSubterms _ _).2 hx
      have hres : ∃ old : Ranking → List Sentence, ((m.get x = none ∧ ∀ k, old k = []) ∨ ∃ c, m.get x = some c ∧ ∀ k, c.list k = old k) ∧
          ∃ c, m'.get x = some c ∧ ∀ k b, b ∈ c.list k ↔ b ∈ old k ∨ b = s := by
        cases hg : m.get x with
        | none =>
          exact ⟨fun _ => [], .inl ⟨rfl, fun _ => rfl⟩, storeFold_room (fun _ => []) hstore ht hids (fun k b hb => by cases hb)
            (fun _ => by show 0 < n; omega) (.inl ⟨hg, fun _ => rfl⟩)⟩
        | some c =>
          have hcm := (Mem.get_some hg).1
          exact ⟨c.list, .inr ⟨c, rfl, fun _ => rfl⟩, storeFold_room c.list hstore ht hids (fun k b hb => hnew c hcm k b hb)
            (fun k => by have := hroom.2 c hcm k; omega) (.inr ⟨c, hg, fun _ => rfl⟩)⟩
      obtain ⟨old, hold1, c', hg', hall⟩ := hres
      constructor
      · rintro ⟨c2, hc2, b, hb, rfl, rfl, rfl⟩
        rw [hg'] at hc2; cases hc2
        rcases (hall k b).1 hb with hb | rfl
        · rcases hold1 with ⟨_, h0⟩ | ⟨c3, hg3, h3⟩
          · rw [h0 k] at hb; cases hb
          · rw [← h3 k] at hb
            exact .inl ⟨hnew c3 (Mem.get_some hg3).1 k b hb, c3, hg3, b, hb, rfl, rfl, rfl⟩
        · exact .inr ⟨hx, rfl, rfl, rfl⟩
      · rintro (⟨_, c3, hg3, b, hb, q⟩ | ⟨_, rfl, rfl, rfl⟩)
        · rcases hold1 with ⟨h0, _⟩ | ⟨c4, hg4, h4⟩
          · rw [h0] at hg3; cases hg3
          · rw [hg4] at hg3; cases hg3
            exact ⟨c', hg', b, (hall k b).2 (.inl (by rw [← h4 k]; exact hb)), q⟩
        · exact ⟨c', hg', s, (hall k s).2 (.inr rfl), rfl, rfl, rfl⟩
    · have hsame : m'.get x = m.get x := storeFold_get_ne hstore (fun hh => hx ((mem_retSubterms _ _).1 hh))
      have heq : Shown m' x k t v st ↔ Shown m x k t v st := by unfold Shown; rw [hsame]
      rw [heq]
      constructor
      · intro hs1
        refine .inl ⟨?_, hs1⟩
        rintro rfl
        exact hold ⟨_, _, _, _, hs1⟩
      · rintro (⟨_, hs1⟩ | ⟨hx', _⟩)
        · exact hs1
        · exact absurd hx' hx

/-! ## the whole way -/

theorem MemKept.room {m m' : Mem} (h : MemKept m m') (hw : m.WF) (hr : RoomEverywhere m') : RoomEverywhere m := by
  obtain ⟨_, h⟩ := h hw
  obtain ⟨h1, h2⟩ := h hr.1
  refine ⟨by have := hr.1; omega, fun c hc k => ?_⟩
  obtain ⟨c', hc', _, hk⟩ := h2 c hc
  have := hr.2 c' hc' k
  have := (hk k this).1
  omega

/-- what is kept on the way: as long as nothing is full, memory agrees with itself -/
def AgreeKept (m m' : Mem) : Prop :=
  m.WF ∧ OnceEach m → (m'.WF ∧ OnceEach m') ∧ (RoomEverywhere m' → RoomEverywhere m ∧ (Agree m → Agree m'))

theorem touchMem_shown (g : Term → Bool → Nat → Sentence → Usage) {m : Mem} (hw : m.WF) (x : Term) (k : Ranking) (t : Term)
    (v : R (Option Tv)) (st : Stamp) : Shown (touchMem g m) x k t v st ↔ Shown m x k t v st := by
  have hw' := ((touchMem_kept g m) hw).1
  have tab : ∀ (l : List Sentence) (f : Nat → Sentence → Usage),
      (∃ b ∈ l.mapIdx (fun i b => { b with usage := f i b }), b.term = t ∧ retTv b = v ∧ b.stamp = st) ↔
      ∃ b ∈ l, b.term = t ∧ retTv b = v ∧ b.stamp = st := by
    intro l f
    constructor
    · rintro ⟨b, hb, e⟩
      obtain ⟨i, hi, rfl⟩ := List.mem_mapIdx.1 hb
      exact ⟨l[i], List.getElem_mem hi, e⟩
    · rintro ⟨b, hb, e⟩
      obtain ⟨i, hi, rfl⟩ := List.mem_iff_getElem.1 hb
      exact ⟨_, List.mem_mapIdx.2 ⟨i, hi, rfl⟩, e⟩
  constructor
  · rintro ⟨c, hg, hb⟩
    obtain ⟨hc, rfl⟩ := Mem.get_some hg
    obtain ⟨d, hd, rfl⟩ := List.mem_map.1 hc
    refine ⟨d, Mem.get_of_mem hw hd, ?_⟩
    cases k
    · exact (tab _ _).1 hb
    · exact (tab _ _).1 hb
  · rintro ⟨c, hg, hb⟩
    obtain ⟨hc, rfl⟩ := Mem.get_some hg
    have hd : ({ c with
        beliefsByExp := c.beliefsByExp.mapIdx (fun i b => { b with usage := g c.name true i b })
        beliefsByUsage := c.beliefsByUsage.mapIdx (fun i b => { b with usage := g c.name false i b }) } : Concept) ∈ touchMem g m :=
      List.mem_map.2 ⟨c, hc, rfl⟩
    have hg2 := Mem.get_of_mem hw' hd
    refine ⟨_, hg2, ?_⟩
    cases k
    · exact (tab _ _).2 hb
    · exact (tab _ _).2 hb

theorem agreeKept_rel : MemRel (fun s => Good s ∧ s.stamp.ids ≠ []) AgreeKept where
  closed := ⟨fun cell b s r hb hs h1 h2 h3 => ⟨good_closed.pool cell b s r hb.1 hs.1 h1 h2 h3, trail_closed.pool cell b s r hb.2 hs.2 h1 h2 h3⟩,
    fun s u h => ⟨good_closed.used s u h.1, trail_closed.used s u h.2⟩,
    fun p s c w hp hs h => ⟨good_closed.two p s c w hp.1 hs.1 h, trail_closed.two p s c w hp.2 hs.2 h⟩,
    fun p c w hp h => ⟨good_closed.alone p c w hp.1 h, trail_closed.alone p c w hp.2 h⟩⟩
  refl _ h := ⟨h, fun hr => ⟨hr, id⟩⟩
  trans a b c h h' hw := by
    obtain ⟨w1, h1⟩ := h hw
    obtain ⟨w2, h2⟩ := h' w1
    refine ⟨w2, fun hr => ?_⟩
    obtain ⟨r1, k1⟩ := h2 hr
    obtain ⟨r2, k2⟩ := h1 r1
    exact ⟨r2, fun ha => k1 (k2 ha)⟩
  add n m s now m' r hn hm hs h := by
    rintro ⟨hw, hon⟩
    have hn : 20 ≤ n := by rcases hn with h | h <;> omega
    have hk := addBelief_kept hn h (hm.mono (fun _ h => h.1)) (fun hp => (hs hp).1)
    have hon' : OnceEach m' := by
      by_cases hp : s.punct = .JUGEMENT
      · have hrun : (MemOp.add s now).run n m = .ok m' := by
          show (addBelief m s n now >>= _) = _
          rw [h]; rfl
        exact MemOp.run_nodup hrun hw (hs hp).2 hon
      · rcases addBelief_cases h with ⟨x, _, h1⟩ | ⟨_, m1, h1, h2⟩
        · rcases memReviseBelief_cases h1 with ⟨_, e⟩ | ⟨hp', _⟩
          · cases e
          · exact absurd hp' hp
        · rcases memReviseBelief_cases h1 with ⟨_, e⟩ | ⟨hp', _⟩
          · cases e
            rcases storeInConcepts2_cases h2 with ⟨_, rfl⟩ | ⟨hp', _⟩
            · exact hon
            · exact absurd hp' hp
          · exact absurd hp' hp
    refine ⟨⟨(hk hw).1, hon'⟩, fun hr => ⟨hk.room hw hr, fun ha => ?_⟩⟩
    rcases addBelief_changed hn h hw hon (hk.room hw hr) ha (fun hp => (hs hp).2) with e | hc
    · rw [e]; exact ha
    · exact hc.agree ha
  forget m m' h := by
    rintro ⟨hw, hon⟩
    have hk := limitMemory_kept h
    have hon' : OnceEach m' := by
      have hrun : (MemOp.forget 3000).run 20 m = .ok m' := h
      exact MemOp.run_nodup hrun hw trivial hon
    refine ⟨⟨(hk hw).1, hon'⟩, fun hr => ⟨hk.room hw hr, fun ha => ?_⟩⟩
    rcases limitMemory_cases h with ⟨_, rfl⟩ | ⟨hgt, _⟩
    · exact ha
    · have := (hk.room hw hr).1; omega
  touch g m := by
    rintro ⟨hw, hon⟩
    have hk := touchMem_kept g m
    have hon' : OnceEach (touchMem g m) := by
      have hrun : (MemOp.touch g).run 20 m = .ok (touchMem g m) := rfl
      exact MemOp.run_nodup hrun hw trivial hon
    refine ⟨⟨(hk hw).1, hon'⟩, fun hr => ⟨hk.room hw hr, fun ha => ?_⟩⟩
    constructor
    · intro x k t v st hs
      exact ha.filed _ _ _ _ _ ((touchMem_shown g hw _ _ _ _ _).1 hs)
    · intro x k t v st hs y k' hy
      exact (touchMem_shown g hw _ _ _ _ _).2 (ha.same _ _ _ _ _ ((touchMem_shown g hw _ _ _ _ _).1 hs) y k' hy)

end Nar
