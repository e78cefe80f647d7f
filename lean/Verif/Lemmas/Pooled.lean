import Verif.Lemmas.Lasting
import Verif.Spec.Pooled
/-! # What is told is pooled, whatever the order -/
namespace Nar
open Term

/-! ## pooling truth values -/

theorem pooled_single {v : Tv} (h0 : 0 < v.c) (h1 : v.c < 1) : pooled [v] = v := by
  obtain ⟨f, c⟩ := v
  unfold pooled amountOf
  have h2 : (1 - c) ≠ 0 := by simp at h1; linarith
  have h3 : c ≠ 0 := by simp at h0; linarith
  simp only [List.map_cons, List.map_nil, List.sum_cons, List.sum_nil, add_zero]
  congr 1
  · field_simp
  · field_simp; ring

theorem amounts_nonneg {tvs : List Tv} (h : ∀ v ∈ tvs, 0 < v.c ∧ v.c < 1) : 0 ≤ (tvs.map (fun v => amountOf v.c)).sum := by
  apply List.sum_nonneg
  intro x hx
  obtain ⟨v, hv, rfl⟩ := List.mem_map.1 hx
  exact le_of_lt (div_pos (h v hv).1 (by have := (h v hv).2; linarith))

theorem pooled_rev {tvs : List Tv} {v : Tv} (h : ∀ w ∈ tvs, 0 < w.c ∧ w.c < 1) (h0 : 0 < v.c) (h1 : v.c < 1) (hne : tvs ≠ [])  :
    Tv.rev (pooled tvs) v = some (pooled (tvs ++ [v])) := by
  have hW := amounts_nonneg h
  have hv : 0 < amountOf v.c := div_pos h0 (by linarith)
  have hpos : 0 < (tvs.map (fun v => amountOf v.c)).sum := by
    obtain ⟨w, ws, rfl⟩ := List.exists_cons_of_ne_nil hne
    have h2 := amounts_nonneg (tvs := ws) (fun x hx => h x (List.mem_cons_of_mem _ hx))
    have h3 : 0 < amountOf w.c := div_pos (h w List.mem_cons_self).1 (by have := (h w List.mem_cons_self).2; linarith)
    simp only [List.map_cons, List.sum_cons]
    linarith
  generalize hWd : (tvs.map (fun v => amountOf v.c)).sum = W at *
  have hc : (pooled tvs).c = Tv.w2c W := by unfold pooled Tv.w2c; simp only [hWd]
  have hlt : (pooled tvs).c < 1 := by
    rw [hc]; unfold Tv.w2c
    rw [div_lt_one (by linarith)]; linarith
  rw [Tv.rev_eq hlt h1]
  have hw : Tv.wt (pooled tvs).c = W := by rw [hc]; exact Tv.wt_w2c hW
  have hwv : Tv.wt v.c = amountOf v.c := rfl
  rw [hw, hwv, if_pos (by linarith)]
  have hf : (pooled tvs).f = (tvs.map (fun v => amountOf v.c * v.f)).sum / W := by unfold pooled; simp only [hWd]
  rw [hf]
  congr 1
  unfold pooled Tv.w2c
  simp only [List.map_append, List.sum_append, List.map_cons, List.map_nil, List.sum_cons, List.sum_nil, add_zero, hWd]
  congr 1
  field_simp

theorem pooled_perm {a b : List Tv} (h : a.Perm b) : pooled a = pooled b := by
  unfold pooled
  rw [(h.map (fun v => amountOf v.c * v.f)).sum_eq, (h.map (fun v => amountOf v.c)).sum_eq]

theorem toldAbout_append (a b : List (Term × Tv)) (t : Term) : toldAbout (a ++ b) t = toldAbout a t ++ toldAbout b t := by
  unfold toldAbout; simp

theorem toldAbout_same (t : Term) (v : Tv) : toldAbout [(t, v)] t = [v] := by unfold toldAbout; simp

theorem toldAbout_other {t t' : Term} (h : t ≠ t') (v : Tv) : toldAbout [(t, v)] t' = [] := by unfold toldAbout; simp [h]

theorem toldAbout_ne {sts : List (Term × Tv)} {t : Term} : toldAbout sts t ≠ [] ↔ t ∈ sts.map (·.1) := by
  unfold toldAbout
  constructor
  · intro h
    obtain ⟨v, hv⟩ := List.exists_mem_of_ne_nil _ h
    obtain ⟨st, h1, _⟩ := List.mem_map.1 hv
    obtain ⟨h1, h2⟩ := List.mem_filter.1 h1
    exact List.mem_map.2 ⟨st, h1, by simpa using h2⟩
  · intro h e
    obtain ⟨st, h1, h2⟩ := List.mem_map.1 h
    have : st.2 ∈ (sts.filter (fun (st : Term × Tv) => decide (st.1 = t))).map (·.2) := List.mem_map_of_mem (List.mem_filter.2 ⟨h1, by simpa using h2⟩)
    rw [e] at this; cases this

theorem mem_toldAbout {sts : List (Term × Tv)} {t : Term} {v : Tv} : v ∈ toldAbout sts t ↔ (t, v) ∈ sts := by
  unfold toldAbout
  constructor
  · intro h
    obtain ⟨⟨a, b⟩, h1, rfl⟩ := List.mem_map.1 h
    obtain ⟨h3, h2⟩ := List.mem_filter.1 h1
    simp at h2; subst h2; exact h3
  · intro h
    exact List.mem_map.2 ⟨_, List.mem_filter.2 ⟨h, by simp⟩, rfl⟩

/-! ## storing something new where there is room -/

theorem storeTable_roomy {key : Sentence → R Rat} {l l' : List Sentence} {s : Sentence} {n : Nat} (h : storeTable key l s n = .ok l')
    (hn : ∀ b ∈ l, b.term ≠ s.term) (hl : l.length < n) : ∀ b, b ∈ l' ↔ b ∈ l ∨ b = s := by
  rcases storeTable_cases h with ⟨hd, _⟩ | ⟨_, sorted, hp, _, _, rfl⟩
  · obtain ⟨b, hb, e, _⟩ := (dependentBelief_iff _ _).1 hd
    exact absurd e (hn b hb)
  · intro b
    have : (sorted.map (·.2)).length ≤ n := by rw [hp.length_eq]; simp; omega
    rw [List.take_of_length_le this, hp.mem_iff]
    simp

theorem storeTable_second {key : Sentence → R Rat} {l l' : List Sentence} {s : Sentence} {n : Nat} (h : storeTable key l s n = .ok l')
    (hs : s.stamp.ids ≠ []) (hin : s ∈ l) : l' = l := by
  rcases storeTable_cases h with ⟨_, e⟩ | ⟨hd, _⟩
  · exact e
  · obtain ⟨id, hid⟩ := List.exists_mem_of_ne_nil _ hs
    have := (dependentBelief_iff l s).2 ⟨s, hin, rfl, id, hid, hid⟩
    rw [this] at hd; cases hd

theorem storeFold_get_ne {s : Sentence} {n : Nat} {now : Int} {ts : List Term} {m m' : Mem} {x : Term}
    (h : ts.foldlM (storeAt s n now) m = .ok m') (hx : x ∉ ts) : m'.get x = m.get x := by
  induction ts generalizing m with
  | nil => cases h; rfl
  | cons t ts ih =>
    obtain ⟨m1, h1, h2⟩ := foldlM_cons_ok.1 h
    rw [ih h2 (fun hh => hx (List.mem_cons_of_mem _ hh)), storeAt_get_ne h1 (fun e => hx (by simp [e]))]

/-- the concept at the term after storing something new, if there was room -/
theorem storeFold_room {s : Sentence} {n : Nat} {now : Int} {ts : List Term} {m m' : Mem} {x : Term} (old : Ranking → List Sentence)
    (h : ts.foldlM (storeAt s n now) m = .ok m') (hx : x ∈ ts) (hs : s.stamp.ids ≠ [])
    (hn : ∀ k, ∀ b ∈ old k, b.term ≠ s.term) (hl : ∀ k, (old k).length < n)
    (hg : (m.get x = none ∧ ∀ k, old k = []) ∨ ∃ c, m.get x = some c ∧ ∀ k, c.list k = old k) :
    ∃ c, m'.get x = some c ∧ ∀ k b, b ∈ c.list k ↔ b ∈ old k ∨ b = s := by
  have key : ∀ (ts : List Term) (m m' : Mem), ts.foldlM (storeAt s n now) m = .ok m' →
      ((x ∈ ts ∧ ((m.get x = none ∧ ∀ k, old k = []) ∨ ∃ c, m.get x = some c ∧ ∀ k, c.list k = old k)) ∨
        ∃ c, m.get x = some c ∧ ∀ k b, b ∈ c.list k ↔ b ∈ old k ∨ b = s) →
      ∃ c, m'.get x = some c ∧ ∀ k b, b ∈ c.list k ↔ b ∈ old k ∨ b = s := by
    intro ts
    induction ts with
    | nil =>
      intro m m' h hor
      cases h
      rcases hor with ⟨hx, _⟩ | hor
      · cases hx
      · exact hor
    | cons t ts ih =>
      intro m m' h hor
      obtain ⟨m1, h1, h2⟩ := foldlM_cons_ok.1 h
      refine ih m1 m' h2 ?_
      by_cases ht : x = t
      · subst ht
        right
        rcases storeAt_get_self h1 with ⟨c, e, u, hg, he, hu, hg'⟩ | ⟨hno, hg'⟩
        · rcases hor with ⟨_, ⟨h0, _⟩ | ⟨c', hc', hold⟩⟩ | ⟨c', hc', hall⟩
          · rw [hg] at h0; cases h0
          · rw [hg] at hc'; cases hc'
            refine ⟨_, hg', ?_⟩
            have o1 := hold .expectation
            have o2 := hold .use
            rintro (_ | _) b
            · have := storeTable_roomy he (by have := hn .expectation; rw [← o1] at this; exact this)
                (by have := hl .expectation; rw [← o1] at this; exact this) b
              rw [← o1]; exact this
            · have := storeTable_roomy hu (by have := hn .use; rw [← o2] at this; exact this)
                (by have := hl .use; rw [← o2] at this; exact this) b
              rw [← o2]; exact this
          · rw [hg] at hc'; cases hc'
            have e1 := storeTable_second he hs ((hall .expectation s).2 (.inr rfl))
            have e2 := storeTable_second hu hs ((hall .use s).2 (.inr rfl))
            subst e1 e2
            exact ⟨_, hg', hall⟩
        · rcases hor with ⟨_, ⟨_, h0⟩ | ⟨c', hc', _⟩⟩ | ⟨c', hc', _⟩
          · refine ⟨_, hg', ?_⟩
            rintro (_ | _) b
            · rw [h0 .expectation]; simp [Concept.list]
            · rw [h0 .use]; simp [Concept.list]
          · rw [hno] at hc'; cases hc'
          · rw [hno] at hc'; cases hc'
      · rw [storeAt_get_ne h1 ht]
        rcases hor with ⟨hx, hor⟩ | hor
        · exact .inl ⟨(List.mem_cons.1 hx).resolve_left ht, hor⟩
        · exact .inr hor
  exact key ts m m' h (.inl ⟨hx, hg⟩)

/-! ## which statements memory lists at all -/

/-- all beliefs listed are about statements with the property -/
def OnlyAbout (P : Term → Prop) (m : Mem) : Prop := ∀ c ∈ m, ∀ k, ∀ b ∈ c.list k, P b.term

theorem addBelief_only {P : Term → Prop} {m m' : Mem} {s : Sentence} {n : Nat} {now : Int} {r : Option Sentence}
    (h : addBelief m s n now = .ok (m', r)) (hm : OnlyAbout P m) (hs : P s.term) : OnlyAbout P m' := by
  have hrev : ∀ (ts : List Term) (st st' : Mem × Option Sentence), ts.foldlM (reviseAt s) st = .ok st' → OnlyAbout P st.1 → OnlyAbout P st'.1 := by
    intro ts st st' hf h0
    refine foldlM_inv (fun st : Mem × Option Sentence => OnlyAbout P st.1) hf h0 ?_
    intro t _ a b ha hstep
    have tab : ∀ cell (l : List Sentence) (r1 : List Sentence × Option Sentence), reviseTable cell l s = .ok r1 →
        (∀ b ∈ l, P b.term) → ∀ b ∈ r1.1, P b.term := by
      intro cell l r1 hr hl
      rcases reviseTable_cases hr with ⟨_, rfl⟩ | ⟨pre, b1, post, add, rfl, _, _, _, hrb, rfl⟩
      · exact hl
      · obtain ⟨_, _, _, _, _, _, rfl⟩ := revisedBelief_ok hrb
        intro b hb
        simp only [List.mem_append, List.mem_singleton] at hb
        rcases hb with (hb | hb) | rfl
        · exact hl b (by simp [hb])
        · exact hl b (by simp [hb])
        · exact hl b1 (by simp)
    rcases reviseAt_cases hstep with ⟨_, rfl⟩ | ⟨c1, r1, r2, hg1, g1, g2, rfl⟩
    · exact ha
    · intro d hd
      rcases Mem.mem_set hd with rfl | ⟨hd, _⟩
      · have hc := ha c1 (Mem.get_some hg1).1
        rintro (_ | _)
        · exact tab _ _ _ g1 (hc .expectation)
        · exact tab _ _ _ g2 (hc .use)
      · exact ha d hd
  have hmr : ∀ r1, memReviseBelief m s = .ok r1 → OnlyAbout P r1.1 := by
    intro r1 h1
    rcases memReviseBelief_cases h1 with ⟨_, h2⟩ | ⟨_, h2⟩
    · rw [h2]; exact hm
    · exact hrev _ _ _ h2 hm
  rcases addBelief_cases h with ⟨x, _, h1⟩ | ⟨_, m1, h1, h2⟩
  · exact hmr _ h1
  · have hm1 := hmr _ h1
    rcases storeInConcepts2_cases h2 with ⟨_, rfl⟩ | ⟨_, h3⟩
    · exact hm1
    · refine foldlM_inv (fun m => OnlyAbout P m) h3 hm1 ?_
      intro t _ a b ha hstep
      have tab : ∀ key (l l' : List Sentence), storeTable key l s n = .ok l' → (∀ b ∈ l, P b.term) → ∀ b ∈ l', P b.term := by
        intro key l l' hr hl b hb
        rcases storeTable_cases hr with ⟨_, rfl⟩ | ⟨_, sorted, hp, _, _, rfl⟩
        · exact hl b hb
        · have := hp.mem_iff.1 (List.mem_of_mem_take hb)
          simp only [List.mem_append, List.mem_singleton] at this
          rcases this with h | rfl
          · exact hl b h
          · exact hs
      rcases storeAt_cases hstep with ⟨c1, e, u, hg1, g1, g2, rfl⟩ | ⟨_, rfl⟩
      · intro d hd
        rcases Mem.mem_set hd with rfl | ⟨hd, _⟩
        · have hc := ha c1 (Mem.get_some hg1).1
          rintro (_ | _)
          · exact tab _ _ _ g1 (hc .expectation)
          · exact tab _ _ _ g2 (hc .use)
        · exact ha d hd
      · intro d hd
        rcases List.mem_append.1 hd with hd | hd
        · exact ha d hd
        · rw [List.mem_singleton] at hd
          subst hd
          rintro (_ | _) b hb
          · rw [List.mem_singleton.1 hb]; exact hs
          · rw [List.mem_singleton.1 hb]; exact hs

/-! ## revising -/

theorem reviseFold_get_ne {s : Sentence} {ts : List Term} {st st' : Mem × Option Sentence} {x : Term}
    (h : ts.foldlM (reviseAt s) st = .ok st') (hx : x ∉ ts) : st'.1.get x = st.1.get x := by
  induction ts generalizing st with
  | nil => cases h; rfl
  | cons t ts ih =>
    obtain ⟨st1, h1, h2⟩ := foldlM_cons_ok.1 h
    rw [ih h2 (fun hh => hx (List.mem_cons_of_mem _ hh))]
    rcases reviseAt_cases h1 with ⟨_, rfl⟩ | ⟨c, r1, r2, hg, _, _, rfl⟩
    · rfl
    · apply Mem.get_set_ne
      simp only
      rw [(Mem.get_some hg).2]
      exact fun e => hx (by simp [e])

theorem reviseFold_nothing {s : Sentence} {ts : List Term} {m : Mem} {st' : Mem × Option Sentence}
    (h : ts.foldlM (reviseAt s) (m, none) = .ok st') (hw : m.WF) (hn : ∀ c ∈ m, ∀ k, ∀ b ∈ c.list k, b.term ≠ s.term) :
    st' = (m, none) := by
  refine foldlM_inv (fun st : Mem × Option Sentence => st = (m, none)) h rfl ?_
  rintro t _ a b rfl hstep
  have tab : ∀ cell (l : List Sentence) r1, (∀ b ∈ l, b.term ≠ s.term) → reviseTable cell l s = .ok r1 → r1 = (l, none) := by
    intro cell l r1 hl hr
    rcases reviseTable_cases hr with ⟨_, e⟩ | ⟨pre, b1, post, add, rfl, g2, _⟩
    · exact e
    · exact absurd g2 (hl b1 (by simp))
  rcases reviseAt_cases hstep with ⟨_, rfl⟩ | ⟨c, r1, r2, hg, g1, g2, rfl⟩
  · rfl
  · have hc := (Mem.get_some hg).1
    have e1 := tab _ _ _ (hn c hc .expectation) g1
    have e2 := tab _ _ _ (hn c hc .use) g2
    subst e1 e2
    show (Mem.set m c, none) = (m, none)
    rw [Mem.set_same hw hc]

/-! ## one more statement is told -/

/-- memory under the term after the statements have been told -/
structure PooledAt (sts : List (Term × Tv)) (x : Term) (m : Mem) : Prop where
  only : OnlyAbout (fun t => t ∈ sts.map (·.1)) m
  here : ∀ t ∈ sts.map (·.1), IsSubterm x t → ∃ c, m.get x = some c ∧ ∀ k, ∃ b ∈ c.list k, b.term = t
  truth : ∀ c, m.get x = some c → ∀ k, ∀ b ∈ c.list k, IsSubterm x b.term ∧ HasTruth b (pooled (toldAbout sts b.term))

theorem reviseTable_pools {cell : List Int} {l : List Sentence} {s : Sentence} {r1 : List Sentence × Option Sentence}
    (h : reviseTable cell l s = .ok r1) (hn : (l.map (·.term)).Nodup) {b0 : Sentence} (hb0 : b0 ∈ l) (hsame : b0.term = s.term)
    (hind : ¬ SharesEvidence b0 s) :
    ∃ tb ts tv add, HasTruth b0 tb ∧ HasTruth s ts ∧ Tv.rev tb ts = some tv ∧ HasTruth add tv ∧ add.term = s.term ∧
      ∀ b, b ∈ r1.1 ↔ (b ∈ l ∧ b.term ≠ s.term) ∨ b = add := by
  rcases reviseTable_cases h with ⟨hall, _⟩ | ⟨pre, b1, post, add, rfl, g2, g3, _, hrb, rfl⟩
  · exact absurd (hall b0 hb0 hsame) hind
  · obtain rfl := eq_of_nodup_map hn b0 hb0 b1 (by simp) (hsame.trans g2.symm)
    obtain ⟨ta, tb, tv, h4, h5, h6, ea⟩ := revisedBelief_ok hrb
    refine ⟨ta, tb, tv, add, h4, h5, h6, by rw [ea]; rfl, by rw [ea]; exact hsame, fun b => ?_⟩
    simp only [List.map_append, List.map_cons] at hn
    obtain ⟨_, n2, n3⟩ := List.nodup_append.1 hn
    obtain ⟨n4, _⟩ := List.nodup_cons.1 n2
    constructor
    · intro hb
      simp only [List.mem_append, List.mem_singleton] at hb
      rcases hb with (hb | hb) | hb
      · exact .inl ⟨by simp [hb], fun e => n3 b.term (List.mem_map_of_mem hb) b0.term (by simp) (e.trans hsame.symm)⟩
      · exact .inl ⟨by simp [hb], fun e => n4 (by rw [hsame, ← e]; exact List.mem_map_of_mem hb)⟩
      · exact .inr hb
    · rintro (⟨hb, hne⟩ | rfl)
      · simp only [List.mem_append, List.mem_cons] at hb ⊢
        rcases hb with hb | rfl | hb
        · exact .inl (.inl hb)
        · exact absurd hsame hne
        · exact .inl (.inr hb)
      · simp

theorem PooledAt.add {sts : List (Term × Tv)} {x t : Term} {v : Tv} {n : Int} {m m' : Mem} {now : Int} {r : Option Sentence}
    (hp : PooledAt sts x m) (hw : m.WF) (hw' : m'.WF)
    (hon : ∀ c ∈ m, (c.beliefsByExp.map (·.term)).Nodup ∧ (c.beliefsByUsage.map (·.term)).Nodup)
    (hfresh : ∀ c ∈ m, ∀ k, ∀ b ∈ c.list k, n ∉ b.stamp.ids)
    (h : addBelief m (newEternalSentenceByTv t .JUGEMENT v ⟨[n]⟩) 20 now = .ok (m', r))
    (hfew : FewAbout (sts ++ [(t, v)]) x) (hc : ∀ st ∈ sts ++ [(t, v)], 0 < st.2.c ∧ st.2.c < 1) :
    PooledAt (sts ++ [(t, v)]) x m' := by
  have hvc := hc (t, v) (by simp)
  have hcs : ∀ t', ∀ w ∈ toldAbout sts t', 0 < w.c ∧ w.c < 1 := fun t' w hw => hc (t', w) (by simp [mem_toldAbout.1 hw])
  have hids : (newEternalSentenceByTv t .JUGEMENT v ⟨[n]⟩).stamp.ids ≠ [] := by simp [newEternalSentenceByTv]
  have hindep : ∀ c ∈ m, ∀ k, ∀ b ∈ c.list k, ¬ SharesEvidence b (newEternalSentenceByTv t .JUGEMENT v ⟨[n]⟩) := by
    rintro c hc k b hb ⟨id, i1, i2⟩
    simp [newEternalSentenceByTv] at i2
    exact hfresh c hc k b hb (i2 ▸ i1)
  have hnodup : ∀ c ∈ m, ∀ k, ((c.list k).map (·.term)).Nodup := by
    rintro c hc (_ | _)
    · exact (hon c hc).1
    · exact (hon c hc).2
  have honly : OnlyAbout (fun t' => t' ∈ (sts ++ [(t, v)]).map (·.1)) m' :=
    addBelief_only h (fun c hc k b hb => by
      have := hp.only c hc k b hb
      simp only [List.map_append, List.mem_append]; exact .inl this) (by simp [newEternalSentenceByTv])
  by_cases hold : t ∈ sts.map (·.1)
  · -- told before
    by_cases hx : IsSubterm x t
    · obtain ⟨c, hg, hb⟩ := hp.here t hold hx
      have hcm := (Mem.get_some hg).1
      have hcn := (Mem.get_some hg).2
      have ht : x ∈ retSubterms t := (mem_retSubterms _ _).2 hx
      -- it is revised
      have hfold : ∃ st' : Mem × Option Sentence,
          (retSubterms t).foldlM (reviseAt (newEternalSentenceByTv t .JUGEMENT v ⟨[n]⟩)) (m, none) = .ok st' ∧ st'.1 = m' := by
        rcases addBelief_cases h with ⟨y, _, h1⟩ | ⟨_, m1, h1, _⟩
        · rcases memReviseBelief_cases h1 with ⟨hx, _⟩ | ⟨_, h2⟩
          · exact absurd rfl hx
          · exact ⟨_, h2, rfl⟩
        · rcases memReviseBelief_cases h1 with ⟨hx, _⟩ | ⟨_, h2⟩
          · exact absurd rfl hx
          · obtain ⟨_, hall⟩ := reviseFold_none h2 hw rfl
            obtain ⟨b, hb1, hb2⟩ := hb .expectation
            exact absurd ((hall c hcm (by rw [hcn]; exact ht)).1 b hb1 hb2) (hindep c hcm .expectation b hb1)
      obtain ⟨st', hf, rfl⟩ := hfold
      rcases reviseFold_get hf hg hids (hon c hcm).1 (hon c hcm).2 with ⟨hnot, _⟩ | ⟨_, cell1, cell2, r1, r2, hr1, hr2, hg'⟩
      · exact absurd ht hnot
      · have key : ∀ k, ∃ add, HasTruth add (pooled (toldAbout (sts ++ [(t, v)]) t)) ∧ add.term = t ∧
            ∀ b, b ∈ ({ c with beliefsByExp := r1.1, beliefsByUsage := r2.1 } : Concept).list k ↔ (b ∈ c.list k ∧ b.term ≠ t) ∨ b = add := by
          intro k
          obtain ⟨b0, hb1, hb2⟩ := hb k
          have htr := (hp.truth c hg k b0 hb1).2
          rw [hb2] at htr
          have hrev := pooled_rev (hcs t) hvc.1 hvc.2 (toldAbout_ne.2 hold)
          have hfin : ∀ {tb ts tv add}, HasTruth b0 tb → HasTruth (newEternalSentenceByTv t .JUGEMENT v ⟨[n]⟩) ts →
              Tv.rev tb ts = some tv → HasTruth add tv → HasTruth add (pooled (toldAbout (sts ++ [(t, v)]) t)) := by
            intro tb ts tv add k1 k2 k3 k4
            have e1 : tb = pooled (toldAbout sts t) := by unfold HasTruth at k1 htr; rw [htr] at k1; cases k1; rfl
            have e2 : ts = v := by unfold HasTruth at k2; cases k2; rfl
            subst e1 e2
            rw [hrev] at k3; cases k3
            rw [toldAbout_append, toldAbout_same]; exact k4
          cases k
          · obtain ⟨tb, ts, tv, add, k1, k2, k3, k4, k5, k6⟩ := reviseTable_pools hr1 (hon c hcm).1 hb1 hb2 (hindep c hcm .expectation b0 hb1)
            exact ⟨add, hfin k1 k2 k3 k4, k5, k6⟩
          · obtain ⟨tb, ts, tv, add, k1, k2, k3, k4, k5, k6⟩ := reviseTable_pools hr2 (hon c hcm).2 hb1 hb2 (hindep c hcm .use b0 hb1)
            exact ⟨add, hfin k1 k2 k3 k4, k5, k6⟩
        refine ⟨honly, ?_, ?_⟩
        · intro t' ht' hx'
          refine ⟨_, hg', fun k => ?_⟩
          obtain ⟨add, a1, a2, a3⟩ := key k
          by_cases e : t' = t
          · subst e; exact ⟨add, (a3 add).2 (.inr rfl), a2⟩
          · have ht2 : t' ∈ sts.map (·.1) := by
              simp only [List.map_append, List.mem_append, List.map_cons, List.map_nil, List.mem_singleton] at ht'
              exact ht'.resolve_right e
            obtain ⟨c2, hg2, hb2⟩ := hp.here t' ht2 hx'
            rw [hg] at hg2; cases hg2
            obtain ⟨b, hb3, hb4⟩ := hb2 k
            exact ⟨b, (a3 b).2 (.inl ⟨hb3, by rw [hb4]; exact e⟩), hb4⟩
        · intro c' hc' k b hb'
          rw [hg'] at hc'; cases hc'
          obtain ⟨add, a1, a2, a3⟩ := key k
          rcases (a3 b).1 hb' with ⟨h1, h2⟩ | rfl
          · obtain ⟨q1, q2⟩ := hp.truth c hg k b h1
            rw [toldAbout_append, toldAbout_other (Ne.symm h2), List.append_nil]
            exact ⟨q1, q2⟩
          · rw [a2]; exact ⟨hx, a1⟩
    · -- not mentioned: nothing happens under the term
      have hsame : m'.get x = m.get x := by
        have ht : x ∉ retSubterms t := fun hh => hx ((mem_retSubterms _ _).1 hh)
        have hrev : ∀ st' : Mem × Option Sentence,
            (retSubterms t).foldlM (reviseAt (newEternalSentenceByTv t .JUGEMENT v ⟨[n]⟩)) (m, none) = .ok st' → st'.1.get x = m.get x := by
          intro st' hf
          generalize hm0 : (m, (none : Option Sentence)) = st at hf
          have : m = st.1 := by rw [← hm0]
          rw [this]
          exact reviseFold_get_ne hf ht
        rcases addBelief_cases h with ⟨y, _, h1⟩ | ⟨_, m1, h1, h2⟩
        · rcases memReviseBelief_cases h1 with ⟨hx, _⟩ | ⟨_, h2⟩
          · exact absurd rfl hx
          · exact hrev _ h2
        · rcases memReviseBelief_cases h1 with ⟨hx, _⟩ | ⟨_, h3⟩
          · exact absurd rfl hx
          · have e1 := hrev _ h3
            rcases storeInConcepts2_cases h2 with ⟨_, rfl⟩ | ⟨_, h4⟩
            · exact e1
            · rw [storeFold_get_ne h4 ht]; exact e1
      refine ⟨honly, ?_, ?_⟩
      · intro t' ht' hx'
        have e : t' ≠ t := fun e => hx (e ▸ hx')
        have ht2 : t' ∈ sts.map (·.1) := by
          simp only [List.map_append, List.mem_append, List.map_cons, List.map_nil, List.mem_singleton] at ht'
          exact ht'.resolve_right e
        rw [hsame]; exact hp.here t' ht2 hx'
      · intro c' hc' k b hb'
        rw [hsame] at hc'
        obtain ⟨q1, q2⟩ := hp.truth c' hc' k b hb'
        have e : t ≠ b.term := fun e => hx (e ▸ q1)
        rw [toldAbout_append, toldAbout_other e, List.append_nil]
        exact ⟨q1, q2⟩
  · -- new
    have hnew : ∀ c ∈ m, ∀ k, ∀ b ∈ c.list k, b.term ≠ t := fun c hc k b hb e => hold (e ▸ hp.only c hc k b hb)
    have htold : toldAbout (sts ++ [(t, v)]) t = [v] := by
      rw [toldAbout_append, toldAbout_same]
      have : toldAbout sts t = [] := by
        by_contra hne; exact hold (toldAbout_ne.1 hne)
      rw [this]; rfl
    have hstore : (retSubterms t).foldlM (storeAt (newEternalSentenceByTv t .JUGEMENT v ⟨[n]⟩) 20 now) m = .ok m' := by
      have hnone : ∀ st' : Mem × Option Sentence,
          (retSubterms t).foldlM (reviseAt (newEternalSentenceByTv t .JUGEMENT v ⟨[n]⟩)) (m, none) = .ok st' → st' = (m, none) := by
        intro st' hf
        exact reviseFold_nothing hf hw hnew
      rcases addBelief_cases h with ⟨y, _, h1⟩ | ⟨_, m1, h1, h2⟩
      · rcases memReviseBelief_cases h1 with ⟨hx, _⟩ | ⟨_, h2⟩
        · exact absurd rfl hx
        · have := hnone _ h2; cases this
      · rcases memReviseBelief_cases h1 with ⟨hx, _⟩ | ⟨_, h3⟩
        · exact absurd rfl hx
        · have e := hnone _ h3
          cases e
          rcases storeInConcepts2_cases h2 with ⟨hx, _⟩ | ⟨_, h4⟩
          · exact absurd rfl hx
          · exact h4
    by_cases hx : IsSubterm x t
    · have ht : x ∈ retSubterms t := (mem_retSubterms _ _).2 hx
      have hlen : ∀ c, m.get x = some c → ∀ k, (c.list k).length < 20 := by
        intro c hg k
        obtain ⟨l, hl1, hl2⟩ := hfew
        have hcm := (Mem.get_some hg).1
        have hnd : (t :: (c.list k).map (·.term)).Nodup := by
          refine List.nodup_cons.2 ⟨?_, hnodup c hcm k⟩
          intro hh
          obtain ⟨b, hb, e⟩ := List.mem_map.1 hh
          exact hnew c hcm k b hb e
        have hsub : (t :: (c.list k).map (·.term)) ⊆ l := by
          intro y hy
          rcases List.mem_cons.1 hy with rfl | hy
          · exact hl2 (y, v) (by simp) hx
          · obtain ⟨b, hb, rfl⟩ := List.mem_map.1 hy
            obtain ⟨st, hst, e⟩ := List.mem_map.1 (hp.only c hcm k b hb)
            have := hl2 st (by simp [hst]) (by rw [e]; exact (hp.truth c hg k b hb).1)
            rw [e] at this; exact this
        have := (List.subperm_of_subset hnd hsub).length_le
        simp at this
        omega
      have hres : ∃ old : Ranking → List Sentence, ((m.get x = none ∧ ∀ k, old k = []) ∨ ∃ c, m.get x = some c ∧ ∀ k, c.list k = old k) ∧
          ∃ c, m'.get x = some c ∧ ∀ k b, b ∈ c.list k ↔ b ∈ old k ∨ b = newEternalSentenceByTv t .JUGEMENT v ⟨[n]⟩ := by
        cases hg : m.get x with
        | none =>
          refine ⟨fun _ => [], .inl ⟨rfl, fun _ => rfl⟩, storeFold_room (fun _ => []) hstore ht hids (fun k b hb => by cases hb)
            (fun _ => by simp) (.inl ⟨hg, fun _ => rfl⟩)⟩
        | some c =>
          have hcm := (Mem.get_some hg).1
          exact ⟨c.list, .inr ⟨c, rfl, fun _ => rfl⟩, storeFold_room c.list hstore ht hids (fun k b hb => hnew c hcm k b hb)
            (hlen c hg) (.inr ⟨c, hg, fun _ => rfl⟩)⟩
      obtain ⟨old, hold1, c', hg', hall⟩ := hres
      refine ⟨honly, ?_, ?_⟩
      · intro t' ht' hx'
        refine ⟨c', hg', fun k => ?_⟩
        by_cases e : t' = t
        · subst e; exact ⟨_, (hall k _).2 (.inr rfl), rfl⟩
        · have ht2 : t' ∈ sts.map (·.1) := by
            simp only [List.map_append, List.mem_append, List.map_cons, List.map_nil, List.mem_singleton] at ht'
            exact ht'.resolve_right e
          obtain ⟨c2, hg2, hb2⟩ := hp.here t' ht2 hx'
          rcases hold1 with ⟨h0, _⟩ | ⟨c3, hg3, h3⟩
          · rw [h0] at hg2; cases hg2
          · rw [hg3] at hg2; cases hg2
            obtain ⟨b, hb3, hb4⟩ := hb2 k
            exact ⟨b, (hall k b).2 (.inl (by rw [← h3 k]; exact hb3)), hb4⟩
      · intro c2 hc2 k b hb'
        rw [hg'] at hc2; cases hc2
        rcases (hall k b).1 hb' with hb | rfl
        · rcases hold1 with ⟨_, h0⟩ | ⟨c3, hg3, h3⟩
          · rw [h0 k] at hb; cases hb
          · rw [← h3 k] at hb
            obtain ⟨q1, q2⟩ := hp.truth c3 hg3 k b hb
            have hne := hnew c3 (Mem.get_some hg3).1 k b hb
            rw [toldAbout_append, toldAbout_other (Ne.symm hne), List.append_nil]
            exact ⟨q1, q2⟩
        · refine ⟨hx, ?_⟩
          show HasTruth _ (pooled (toldAbout (sts ++ [(t, v)]) t))
          rw [htold, pooled_single hvc.1 hvc.2]
          rfl
    · have hsame : m'.get x = m.get x := storeFold_get_ne hstore (fun hh => hx ((mem_retSubterms _ _).1 hh))
      refine ⟨honly, ?_, ?_⟩
      · intro t' ht' hx'
        have e : t' ≠ t := fun e => hx (e ▸ hx')
        have ht2 : t' ∈ sts.map (·.1) := by
          simp only [List.map_append, List.mem_append, List.map_cons, List.map_nil, List.mem_singleton] at ht'
          exact ht'.resolve_right e
        rw [hsame]; exact hp.here t' ht2 hx'
      · intro c' hc' k b hb'
        rw [hsame] at hc'
        obtain ⟨q1, q2⟩ := hp.truth c' hc' k b hb'
        have e : t ≠ b.term := fun e => hx (e ▸ q1)
        rw [toldAbout_append, toldAbout_other e, List.append_nil]
        exact ⟨q1, q2⟩

end Nar
