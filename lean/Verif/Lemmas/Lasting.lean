import Verif.Lemmas.Journey
import Verif.Spec.Lasting
/-! # What has been learned is not unlearned -/
namespace Nar
open Term

/-- if the later list is not full, everything believed is still believed -/
def ListKept (l l' : List Sentence) : Prop :=
  l'.length < 20 → l.length ≤ l'.length ∧ ∀ t c, Believes l t c → Believes l' t c

theorem ListKept.refl (l : List Sentence) : ListKept l l := fun _ => ⟨le_refl _, fun _ _ h => h⟩

theorem ListKept.trans {a b c : List Sentence} (h : ListKept a b) (h' : ListKept b c) : ListKept a c := by
  intro hl
  obtain ⟨h1, h2⟩ := h' hl
  obtain ⟨h3, h4⟩ := h (by omega)
  exact ⟨by omega, fun t x hx => h2 t x (h4 t x hx)⟩

/-- if the later memory is not full, no concept is gone -/
def MemKept (m m' : Mem) : Prop :=
  m.WF → m'.WF ∧ (m'.length < 3000 → m.length ≤ m'.length ∧
    ∀ c ∈ m, ∃ c' ∈ m', c'.name = c.name ∧ ∀ k, ListKept (c.list k) (c'.list k))

theorem MemKept.refl (m : Mem) : MemKept m m := fun h => ⟨h, fun _ => ⟨le_refl _, fun c hc => ⟨c, hc, rfl, fun _ => .refl _⟩⟩⟩

theorem MemKept.trans {a b c : Mem} (h : MemKept a b) (h' : MemKept b c) : MemKept a c := by
  intro hw
  obtain ⟨w1, h1⟩ := h hw
  obtain ⟨w2, h2⟩ := h' w1
  refine ⟨w2, fun hl => ?_⟩
  obtain ⟨l2, k2⟩ := h2 hl
  obtain ⟨l1, k1⟩ := h1 (by omega)
  refine ⟨by omega, fun x hx => ?_⟩
  obtain ⟨y, hy, e1, p1⟩ := k1 x hx
  obtain ⟨z, hz, e2, p2⟩ := k2 y hy
  exact ⟨z, hz, e2.trans e1, fun k => (p1 k).trans (p2 k)⟩

theorem MemKept.set {m : Mem} {c d : Concept} {t : Term} (hg : m.get t = some c) (hn : d.name = c.name)
    (hk : ∀ k, ListKept (c.list k) (d.list k)) : MemKept m (m.set d) := by
  intro hw
  refine ⟨by unfold Mem.WF; rw [Mem.set_names]; exact hw, fun _ => ⟨le_of_eq (Mem.set_length _ _).symm, fun x hx => ?_⟩⟩
  obtain ⟨h1, h2⟩ := Mem.get_some hg
  by_cases he : x.name = d.name
  · have : x = c := eq_of_nodup_map hw x hx c h1 (he.trans hn)
    subst this
    exact ⟨d, (Mem.get_some (Mem.get_set_self (m := m) (c := x) (d := d) (by rw [hn, h2]; exact hg))).1, hn, hk⟩
  · refine ⟨x, ?_, rfl, fun _ => .refl _⟩
    unfold Mem.set
    rw [List.mem_map]
    exact ⟨x, hx, if_neg (by rw [checkEqTerm_iff]; exact he)⟩

theorem Tv.rev_wt {a b r : Tv} (ha : Sane a) (hb : Sane b) (h : rev a b = some r) : wt r.c = wt a.c + wt b.c := by
  rw [rev_eq ha.2.2.2 hb.2.2.2] at h
  cases h
  exact wt_w2c (add_nonneg (wt_nonneg ha.2.2.1 ha.2.2.2) (wt_nonneg hb.2.2.1 hb.2.2.2))

theorem Tv.rev_grows {a b r : Tv} (ha : Sane a) (hb : Sane b) (h : rev a b = some r) :
    a.c ≤ r.c ∧ b.c ≤ r.c ∧ (0 < b.c → a.c < r.c) ∧ (0 < a.c → b.c < r.c) := by
  have wa := wt_nonneg ha.2.2.1 ha.2.2.2
  have wb := wt_nonneg hb.2.2.1 hb.2.2.2
  rw [rev_eq ha.2.2.2 hb.2.2.2] at h
  cases h
  dsimp only
  have ea := w2c_wt ha.2.2.2
  have eb := w2c_wt hb.2.2.2
  refine ⟨?_, ?_, fun hp => ?_, fun hp => ?_⟩
  · conv_lhs => rw [← ea]
    exact w2c_mono wa (by linarith)
  · conv_lhs => rw [← eb]
    exact w2c_mono wb (by linarith)
  · conv_lhs => rw [← ea]
    exact w2c_strictMono wa (by linarith [wt_pos hp hb.2.2.2])
  · conv_lhs => rw [← eb]
    exact w2c_strictMono wb (by linarith [wt_pos hp ha.2.2.2])

theorem storeTable_kept {key : Sentence → R Rat} {l l' : List Sentence} {s : Sentence} {n : Nat} (hn : 20 ≤ n)
    (h : storeTable key l s n = .ok l') : ListKept l l' := by
  rcases storeTable_cases h with ⟨_, rfl⟩ | ⟨_, sorted, hp, _, _, rfl⟩
  · exact .refl _
  · intro hl
    rw [List.length_take] at hl
    have hlen : (sorted.map (·.2)).length < 20 := by omega
    rw [List.take_of_length_le (by omega)]
    refine ⟨by rw [hp.length_eq]; simp, ?_⟩
    rintro t c ⟨b, hb, h⟩
    exact ⟨b, hp.mem_iff.2 (by simp [hb]), h⟩

theorem storeAt_kept {s : Sentence} {n : Nat} (hn : 20 ≤ n) {now : Int} {m m' : Mem} {t : Term} (h : storeAt s n now m t = .ok m') :
    MemKept m m' := by
  have hw' := fun hw => storeAt_wf h hw
  rcases storeAt_cases h with ⟨c, e, u, hg, h1, h2, rfl⟩ | ⟨hg, rfl⟩
  · refine .set hg rfl ?_
    rintro (_ | _)
    · exact storeTable_kept hn h1
    · exact storeTable_kept hn h2
  · intro hw
    exact ⟨hw' hw, fun _ => ⟨by simp, fun c hc => ⟨c, by simp [hc], rfl, fun _ => .refl _⟩⟩⟩

/-- revising a list of sane beliefs: what was believed about the statement is believed with more confidence -/
theorem reviseTable_kept {cell : List Int} {l : List Sentence} {s : Sentence} {r : List Sentence × Option Sentence}
    (h : reviseTable cell l s = .ok r) (hl : ∀ b ∈ l, Good b) (hs : Good s) : ListKept l r.1 := by
  intro _
  refine ⟨by rw [reviseTable_length h], ?_⟩
  rcases reviseTable_cases h with ⟨_, rfl⟩ | ⟨pre, b, post, add, rfl, _, _, _, hr, rfl⟩
  · exact fun _ _ h => h
  · obtain ⟨ta, tb, tv, h1, h2, h3, rfl⟩ := revisedBelief_ok hr
    obtain ⟨_, e1, sa⟩ := (hl b (by simp)).retTv h1
    cases e1
    obtain ⟨_, e2, sb⟩ := hs.retTv h2
    cases e2
    rintro t c ⟨x, hx, e, tx, hx1, hx2⟩
    simp only [List.mem_append, List.mem_cons] at hx
    rcases hx with hx | rfl | hx
    · exact ⟨x, by simp [hx], e, tx, hx1, hx2⟩
    · have : tx = ta := by unfold HasTruth at hx1; rw [h1] at hx1; cases hx1; rfl
      subst this
      exact ⟨_, List.mem_append_right _ List.mem_cons_self, e, tv, rfl, le_trans hx2 (Tv.rev_grows sa sb h3).1⟩
    · exact ⟨x, by simp [hx], e, tx, hx1, hx2⟩

theorem addBelief_kept {m m' : Mem} {s : Sentence} {n : Nat} {now : Int} {r : Option Sentence} (hn : 20 ≤ n)
    (h : addBelief m s n now = .ok (m', r)) (hm : MemP Good m) (hs : s.punct = .JUGEMENT → Good s) : MemKept m m' := by
  have hrev : ∀ {st : Mem × Option Sentence}, memReviseBelief m s = .ok st → MemKept m st.1 := by
    intro st h
    rcases memReviseBelief_cases h with ⟨_, rfl⟩ | ⟨hp, h⟩
    · exact .refl _
    · refine (foldlM_inv (fun st : Mem × Option Sentence => MemP Good st.1 ∧ MemKept m st.1) h ⟨hm, .refl _⟩ ?_).2
      rintro t _ a b ⟨ha, hk⟩ hstep
      rcases reviseAt_cases hstep with ⟨_, rfl⟩ | ⟨c, r1, r2, hg, g1, g2, rfl⟩
      · exact ⟨ha, hk⟩
      · have hc := ha c (Mem.get_some hg).1
        have k1 := reviseTable_P good_closed g1 hc.1 (hs hp)
        have k2 := reviseTable_P good_closed g2 hc.2 (hs hp)
        refine ⟨?_, hk.trans (.set hg rfl ?_)⟩
        · intro d hd
          rcases Mem.mem_set hd with rfl | ⟨hd, _⟩
          · exact ⟨k1.1, k2.1⟩
          · exact ha d hd
        · rintro (_ | _)
          · exact reviseTable_kept g1 hc.1 (hs hp)
          · exact reviseTable_kept g2 hc.2 (hs hp)
  rcases addBelief_cases h with ⟨x, rfl, h1⟩ | ⟨rfl, m1, h1, h2⟩
  · exact hrev h1
  · refine (hrev h1).trans ?_
    rcases storeInConcepts2_cases h2 with ⟨_, rfl⟩ | ⟨hp, h⟩
    · exact .refl _
    · exact foldlM_inv (fun x : Mem => MemKept m1 x) h (.refl _) (fun t _ a b ha hb => ha.trans (storeAt_kept hn hb))

theorem limitMemory_kept {m m' : Mem} (h : limitMemory m 3000 = .ok m') : MemKept m m' := by
  intro hw
  refine ⟨limitMemory_wf h hw, fun hl => ?_⟩
  rcases limitMemory_cases h with ⟨_, rfl⟩ | ⟨hgt, sorted, hp, _, _, rfl⟩
  · exact ⟨le_refl _, fun c hc => ⟨c, hc, rfl, fun _ => .refl _⟩⟩
  · have := hp.length_eq
    rw [List.length_map] at this
    rw [List.length_map, List.length_take] at hl
    omega

theorem touchMem_kept (g : Term → Bool → Nat → Sentence → Usage) (m : Mem) : MemKept m (touchMem g m) := by
  intro hw
  have hlist : ∀ (l : List Sentence) (f : Nat → Sentence → Usage), ListKept l (l.mapIdx (fun i b => { b with usage := f i b })) := by
    intro l f _
    refine ⟨by simp, ?_⟩
    rintro t c ⟨b, hb, e, tv, h1, h2⟩
    obtain ⟨i, hi, rfl⟩ := List.mem_iff_getElem.1 hb
    exact ⟨_, List.mem_mapIdx.2 ⟨i, hi, rfl⟩, e, tv, h1, h2⟩
  refine ⟨?_, fun _ => ⟨by simp [touchMem], fun c hc => ⟨_, List.mem_map_of_mem hc, rfl, ?_⟩⟩⟩
  · have : (touchMem g m).map (·.name) = m.map (·.name) := by unfold touchMem; rw [List.map_map]; rfl
    unfold Mem.WF; rw [this]; exact hw
  · rintro (_ | _)
    · exact hlist _ (fun i b => g c.name true i b)
    · exact hlist _ (fun i b => g c.name false i b)

theorem memKept_rel : MemRel Good MemKept where
  closed := good_closed
  refl := .refl
  trans _ _ _ := .trans
  add n m s now m' r hn hm hs h := addBelief_kept (by rcases hn with h | h <;> omega) h hm hs
  forget _ _ h := limitMemory_kept h
  touch := touchMem_kept

theorem moreNar_kept {env : Env} {ops more : List NarOp} {r r' : Reasoner} (h : runNar env ops = .ok r)
    (h' : moreNar env r more = .ok r') (hs : SaneTelling env (ops ++ more)) : MemKept r.sh.mem r'.sh.mem := by
  refine moreNar_rel memKept_rel h h' ?_
  intro pre post op r0 he hr term tv ht n
  obtain ⟨h1, h2⟩ := hs pre op post r0 term tv he hr ht
  exact ⟨rfl, ⟨tv, rfl, h2⟩, h1⟩

end Nar

namespace Nar
open Term

/-- adding independent evidence about a statement pools it with what was believed about the statement -/
theorem addBelief_pools {m m' : Mem} {s : Sentence} {n : Nat} {now : Int} {r : Option Sentence} (hw : m.WF) (hj : s.punct = .JUGEMENT)
    (hs : s.stamp.ids ≠ []) (h : addBelief m s n now = .ok (m', r)) {c : Concept} (hc : c ∈ m)
    (h1 : (c.beliefsByExp.map (·.term)).Nodup) (h2 : (c.beliefsByUsage.map (·.term)).Nodup) (hsub : IsSubterm c.name s.term)
    {k : Ranking} {b : Sentence} (hb : b ∈ c.list k) (hsame : SameStatement b s) (hind : ¬ SharesEvidence b s) :
    ∃ c' ∈ m', c'.name = c.name ∧ ∃ b' ∈ c'.list k, SameStatement b' s ∧ ∃ tb ts tv, HasTruth b tb ∧ HasTruth s ts ∧
      Tv.rev tb ts = some tv ∧ HasTruth b' tv := by
  have key : ∀ cell (l : List Sentence) r1, (l.map (·.term)).Nodup → b ∈ l → reviseTable cell l s = .ok r1 →
      ∃ b' ∈ r1.1, SameStatement b' s ∧ ∃ tb ts tv, HasTruth b tb ∧ HasTruth s ts ∧ Tv.rev tb ts = some tv ∧ HasTruth b' tv := by
    intro cell l r1 hn hb hr
    rcases reviseTable_cases hr with ⟨hall, _⟩ | ⟨pre, b1, post, add, rfl, g2, g3, _, hrb, rfl⟩
    · exact absurd (hall b hb hsame) hind
    · obtain rfl := eq_of_nodup_map hn b hb b1 (by simp) (hsame.trans g2.symm)
      obtain ⟨ta, tb, tv, h4, h5, h6, rfl⟩ := revisedBelief_ok hrb
      exact ⟨_, List.mem_append_right _ List.mem_cons_self, hsame, ta, tb, tv, h4, h5, h6, rfl⟩
  have ht : c.name ∈ retSubterms s.term := (mem_retSubterms _ _).2 hsub
  have hg := Mem.get_of_mem hw hc
  rcases addBelief_cases h with ⟨x, _, h⟩ | ⟨_, m1, h3, h4⟩
  · rcases memReviseBelief_cases h with ⟨hp, _⟩ | ⟨_, h⟩
    · exact absurd hj hp
    · rcases reviseFold_get h hg hs h1 h2 with ⟨hnot, _⟩ | ⟨_, _, _, r1, r2, hr1, hr2, hg'⟩
      · exact absurd ht hnot
      · refine ⟨_, (Mem.get_some hg').1, rfl, ?_⟩
        cases k
        · exact key _ _ _ h1 hb hr1
        · exact key _ _ _ h2 hb hr2
  · rcases memReviseBelief_cases h3 with ⟨hp, _⟩ | ⟨_, h3⟩
    · exact absurd hj hp
    · obtain ⟨he, hall⟩ := reviseFold_none h3 hw rfl
      cases k
      · exact absurd ((hall c hc ht).1 b hb hsame) hind
      · exact absurd ((hall c hc ht).2 b hb hsame) hind

/-- all beliefs are expected at least as much as `e`, and the list is full -/
def FullOfExpected (n : Nat) (e : Rat) (l : List Sentence) : Prop := l.length = n ∧ ∀ x ∈ l, ∃ ex, Expectation x ex ∧ e ≤ ex

theorem expectation_unique {s : Sentence} {a b : Rat} (ha : Expectation s a) (hb : Expectation s b) : a = b := by
  have h1 := (expOf_iff s a).2 ha
  have h2 := (expOf_iff s b).2 hb
  rw [h1] at h2; cases h2; rfl

theorem storeTable_displaced {l l' : List Sentence} {s b : Sentence} {n : Nat} {e : Rat} (h : storeTable expOf l s n = .ok l')
    (hb : b ∈ l) (he : Expectation b e) : b ∈ l' ∨ FullOfExpected n e l' := by
  rcases storeTable_cases h with ⟨_, rfl⟩ | ⟨_, sorted, hp, hso, hkey, rfl⟩
  · exact .inl hb
  · by_cases hin : b ∈ (sorted.map (·.2)).take n
    · exact .inl hin
    · right
      have hbs : b ∈ sorted.map (·.2) := hp.mem_iff.2 (by simp [hb])
      have hd : b ∈ (sorted.map (·.2)).drop n := by
        rw [← List.take_append_drop n (sorted.map (·.2)), List.mem_append] at hbs
        exact hbs.resolve_left hin
      rw [← List.map_drop] at hd
      obtain ⟨pb, hpb, rfl⟩ := List.mem_map.1 hd
      have e1 : e = pb.1 := expectation_unique he ((expOf_iff _ _).1 (hkey pb (List.mem_of_mem_drop hpb)))
      constructor
      · rw [List.length_take]
        have : 0 < (sorted.drop n).length := List.length_pos_of_mem hpb
        rw [List.length_drop] at this
        simp; omega
      · intro x hx
        rw [← List.map_take] at hx
        obtain ⟨px, hpx, rfl⟩ := List.mem_map.1 hx
        exact ⟨px.1, (expOf_iff _ _).1 (hkey px (List.mem_of_mem_take hpx)), by rw [e1]; exact sorted_take_drop hso n px hpx pb hpb⟩

theorem storeTable_stillBetter {l l' : List Sentence} {s : Sentence} {n : Nat} {e : Rat} (h : storeTable expOf l s n = .ok l')
    (hl : FullOfExpected n e l) : FullOfExpected n e l' := by
  rcases storeTable_cases h with ⟨_, rfl⟩ | ⟨_, sorted, hp, hso, hkey, rfl⟩
  · exact hl
  · have hlen := hp.length_eq
    rw [List.length_map, List.length_append, hl.1] at hlen
    simp only [List.length_cons, List.length_nil] at hlen
    constructor
    · simp [hlen]
    · intro x hx
      have hx0 : x ∈ l ++ [s] := hp.mem_iff.1 (List.mem_of_mem_take hx)
      rcases List.mem_append.1 hx0 with h1 | h1
      · exact hl.2 x h1
      · rw [List.mem_singleton] at h1
        subst h1
        -- the one which is dropped is not the new one or is equally good
        have hd : 0 < (sorted.drop n).length := by rw [List.length_drop]; omega
        obtain ⟨pd, hpd⟩ := List.exists_mem_of_length_pos hd
        rw [← List.map_take] at hx
        obtain ⟨px, hpx, hxe⟩ := List.mem_map.1 hx
        have hle := sorted_take_drop hso n px hpx pd hpd
        have hpd0 : pd.2 ∈ l ++ [x] := hp.mem_iff.1 (List.mem_map_of_mem (List.mem_of_mem_drop hpd))
        have ex := (expOf_iff _ _).1 (hkey px (List.mem_of_mem_take hpx))
        have ed := (expOf_iff _ _).1 (hkey pd (List.mem_of_mem_drop hpd))
        rw [hxe] at ex
        rcases List.mem_append.1 hpd0 with h2 | h2
        · obtain ⟨e', he', hle'⟩ := hl.2 _ h2
          have := expectation_unique he' ed
          exact ⟨px.1, ex, by linarith⟩
        · -- both are the new one: then it is in the list twice, so it was there before
          rw [List.mem_singleton] at h2
          have hcount : x ∈ l := by
            have hc := hp.count_eq x
            rw [List.count_append, List.count_singleton_self] at hc
            have : 2 ≤ (sorted.map (·.2)).count x := by
              rw [← List.take_append_drop n sorted, List.map_append, List.count_append]
              have a1 : 0 < ((sorted.take n).map (·.2)).count x := List.count_pos_iff.2 hx
              have a2 : 0 < ((sorted.drop n).map (·.2)).count x := List.count_pos_iff.2 (by rw [← h2]; exact List.mem_map_of_mem hpd)
              omega
            exact List.count_pos_iff.1 (by omega)
          exact hl.2 x hcount

/-- adding a belief: what is listed by expectation stays, or gives way to a full list of beliefs which are expected more -/
theorem addBelief_displaced {m m' : Mem} {s : Sentence} {n : Nat} {now : Int} {r : Option Sentence} (hw : m.WF)
    (h : addBelief m s n now = .ok (m', r)) (hm : MemP Good m) (hs : s.punct = .JUGEMENT → Good s) {c : Concept} (hc : c ∈ m)
    {b : Sentence} (hb : b ∈ c.beliefsByExp) {tb : Tv} (htb : HasTruth b tb) {e : Rat} (he : Expectation b e) :
    ∃ c' ∈ m', c'.name = c.name ∧ (Believes c'.beliefsByExp b.term tb.c ∨ FullOfExpected n e c'.beliefsByExp) := by
  have hg := Mem.get_of_mem hw hc
  rcases addBelief_cases h with ⟨x, rfl, h1⟩ | ⟨rfl, m1, h1, h2⟩
  · rcases memReviseBelief_cases h1 with ⟨_, h2⟩ | ⟨hp, h1⟩
    · cases h2
    · have key : ∀ (ts : List Term) (st st' : Mem × Option Sentence), ts.foldlM (reviseAt s) st = .ok st' → MemP Good st.1 →
          (∃ c' ∈ st.1, c'.name = c.name ∧ Believes c'.beliefsByExp b.term tb.c) → st.1.WF →
          ∃ c' ∈ st'.1, c'.name = c.name ∧ Believes c'.beliefsByExp b.term tb.c := by
        intro ts st st' hf hm0 h0 hw0
        refine (foldlM_inv (fun st : Mem × Option Sentence => MemP Good st.1 ∧ st.1.WF ∧
          ∃ c' ∈ st.1, c'.name = c.name ∧ Believes c'.beliefsByExp b.term tb.c) hf ⟨hm0, hw0, h0⟩ ?_).2.2
        rintro t _ a b' ⟨ha, hwa, d, hd, hdn, hdb⟩ hstep
        have hwb := reviseAt_wf hstep hwa
        rcases reviseAt_cases hstep with ⟨_, rfl⟩ | ⟨c1, r1, r2, hg1, g1, g2, rfl⟩
        · exact ⟨ha, hwa, d, hd, hdn, hdb⟩
        · have hc1 := ha c1 (Mem.get_some hg1).1
          have k1 := reviseTable_P good_closed g1 hc1.1 (hs hp)
          have k2 := reviseTable_P good_closed g2 hc1.2 (hs hp)
          refine ⟨?_, hwb, ?_⟩
          · intro d hd
            rcases Mem.mem_set hd with rfl | ⟨hd, _⟩
            · exact ⟨k1.1, k2.1⟩
            · exact ha d hd
          · by_cases hde : d.name = c1.name
            · obtain rfl := eq_of_nodup_map hwa d hd c1 (Mem.get_some hg1).1 hde
              refine ⟨{ d with beliefsByExp := r1.1, beliefsByUsage := r2.1 },
                (Mem.get_some (Mem.get_set_self (m := a.1) (c := d) (d := { d with beliefsByExp := r1.1, beliefsByUsage := r2.1 })
                  (Mem.get_of_mem hwa hd))).1, hdn, ?_⟩
              rcases reviseTable_cases g1 with ⟨_, e⟩ | ⟨pre, b1, post, add, e0, _, _, _, hr, e⟩
              · rw [e]; exact hdb
              · obtain ⟨ta, tb1, tv, q1, q2, q3, rfl⟩ := revisedBelief_ok hr
                obtain ⟨_, e1, sa⟩ := (hc1.1 b1 (by rw [e0]; simp)).retTv q1
                cases e1
                obtain ⟨_, e2, sb⟩ := (hs hp).retTv q2
                cases e2
                rw [e]
                obtain ⟨y, hy, ey, ty, hy1, hy2⟩ := hdb
                rw [e0] at hy
                simp only [List.mem_append, List.mem_cons] at hy
                rcases hy with hy | rfl | hy
                · exact ⟨y, by simp [hy], ey, ty, hy1, hy2⟩
                · have : ty = ta := by unfold HasTruth at hy1; rw [q1] at hy1; cases hy1; rfl
                  subst this
                  exact ⟨_, List.mem_append_right _ List.mem_cons_self, ey, tv, rfl, le_trans hy2 (Tv.rev_grows sa sb q3).1⟩
                · exact ⟨y, by simp [hy], ey, ty, hy1, hy2⟩
            · refine ⟨d, ?_, hdn, hdb⟩
              show d ∈ Mem.set _ _
              unfold Mem.set
              rw [List.mem_map]
              exact ⟨d, hd, if_neg (by rw [checkEqTerm_iff]; exact hde)⟩
      obtain ⟨c', k1, k2, k3⟩ := key _ _ _ h1 hm ⟨c, hc, rfl, b, hb, rfl, tb, htb, le_refl _⟩ hw
      exact ⟨c', k1, k2, .inl k3⟩
  · have hm1 : m1 = m := by
      rcases memReviseBelief_cases h1 with ⟨_, h3⟩ | ⟨_, h3⟩
      · cases h3; rfl
      · have := (reviseFold_none h3 hw rfl).1
        exact congrArg Prod.fst this
    subst hm1
    rcases storeInConcepts2_cases h2 with ⟨_, rfl⟩ | ⟨hp, h3⟩
    · exact ⟨c, hc, rfl, .inl ⟨b, hb, rfl, tb, htb, le_refl _⟩⟩
    · obtain ⟨c', k1, k2, k3⟩ := storeFold_get_inv (fun d => d.name = c.name ∧ (b ∈ d.beliefsByExp ∨ FullOfExpected n e d.beliefsByExp))
        h3 hg ⟨rfl, .inl hb⟩ (by
          rintro d e1 u ⟨hd, hd2⟩ q1 _
          refine ⟨hd, ?_⟩
          rcases hd2 with hd2 | hd2
          · exact storeTable_displaced q1 hd2 he
          · exact .inr (storeTable_stillBetter q1 hd2))
      refine ⟨c', (Mem.get_some k1).1, k2, ?_⟩
      rcases k3 with k3 | k3
      · exact .inl ⟨b, k3, rfl, tb, htb, le_refl _⟩
      · exact .inr k3

end Nar
