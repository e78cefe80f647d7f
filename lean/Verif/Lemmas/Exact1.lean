import Verif.Lemmas.Rest3
/-! # Helper lemmas: a property of sentences kept by storing, revising and using; beliefs are kept under terms they contain -/
namespace Nar
open Term

/-- the property survives revision and use -/
structure Lasts (P : Sentence → Prop) : Prop where
  pool : ∀ cell b s r, P b → P s → SameStatement b s → ¬ SharesEvidence b s → revisedBelief cell b s = .ok r → P r
  used : ∀ s u, P s → P { s with usage := u }

/-- all beliefs have the property, and are kept under terms they contain -/
def InPlace (P : Sentence → Prop) (m : Mem) : Prop :=
  ∀ c ∈ m, ∀ b, (b ∈ c.beliefsByExp ∨ b ∈ c.beliefsByUsage) → P b ∧ IsSubterm c.name b.term

/-- all tasks and beliefs have the property -/
def Throughout (P : Sentence → Prop) (sh : Shared) : Prop := (∀ t ∈ sh.heap, P t.sentence) ∧ InPlace P sh.mem

theorem InPlace.under {P : Sentence → Prop} {m : Mem} (h : InPlace P m) {t : Term} {b : Sentence} (hb : BeliefUnder m t b) :
    P b ∧ IsSubterm t b.term := by
  obtain ⟨c, hc, hb⟩ := hb
  have := h c (Mem.get_some hc).1 b hb
  rw [(Mem.get_some hc).2] at this
  exact this

theorem UsageOnly.inPlace {P : Sentence → Prop} (hP : Lasts P) {m m' : Mem} (h : UsageOnly m m') (hm : InPlace P m) : InPlace P m' := by
  obtain ⟨g, rfl⟩ := h
  intro c hc
  obtain ⟨d, hd, rfl⟩ := List.mem_map.1 hc
  rintro b (hb | hb)
  · obtain ⟨i, hi, rfl⟩ := List.mem_mapIdx.1 hb
    have := hm d hd _ (.inl (List.getElem_mem hi))
    exact ⟨hP.used _ _ this.1, this.2⟩
  · obtain ⟨i, hi, rfl⟩ := List.mem_mapIdx.1 hb
    have := hm d hd _ (.inr (List.getElem_mem hi))
    exact ⟨hP.used _ _ this.1, this.2⟩

theorem reviseTable_lasts {P : Sentence → Prop} (hP : Lasts P) {cell : List Int} {table : List Sentence} {s : Sentence} {n : Term}
    {r : List Sentence × Option Sentence} (h : reviseTable cell table s = .ok r) (ht : ∀ b ∈ table, P b ∧ IsSubterm n b.term) (hs : P s) :
    (∀ b ∈ r.1, P b ∧ IsSubterm n b.term) ∧ ∀ x, r.2 = some x → P x := by
  rcases reviseTable_cases h with ⟨_, rfl⟩ | ⟨pre, b, post, add, rfl, hb, hn, _, hr, rfl⟩
  · exact ⟨ht, by simp⟩
  · have ha : P add := hP.pool _ b s add (ht b (by simp)).1 hs hb hn hr
    have hsub : IsSubterm n add.term := by
      obtain ⟨_, _, _, _, _, _, rfl⟩ := revisedBelief_ok hr
      exact (ht b (by simp)).2
    refine ⟨?_, by rintro x hx; cases hx; exact ha⟩
    intro x hx
    simp only [List.mem_append, List.mem_singleton] at hx
    rcases hx with (hx | hx) | rfl
    · exact ht x (by simp [hx])
    · exact ht x (by simp [hx])
    · exact ⟨ha, hsub⟩

theorem memReviseBelief_lasts {P : Sentence → Prop} (hP : Lasts P) {m : Mem} {s : Sentence} {st : Mem × Option Sentence}
    (h : memReviseBelief m s = .ok st) (hm : InPlace P m) (hs : s.punct = .JUGEMENT → P s) : InPlace P st.1 ∧ ∀ x, st.2 = some x → P x := by
  rcases memReviseBelief_cases h with ⟨_, rfl⟩ | ⟨hp, h⟩
  · exact ⟨hm, by simp⟩
  · refine foldlM_inv (fun st : Mem × Option Sentence => InPlace P st.1 ∧ ∀ x, st.2 = some x → P x) h ⟨hm, by simp⟩ ?_
    intro t _ a b hab hstep
    rcases reviseAt_cases hstep with ⟨_, rfl⟩ | ⟨c, r1, r2, hg, g1, g2, rfl⟩
    · exact hab
    · have hc := hab.1 c (Mem.get_some hg).1
      have k1 := reviseTable_lasts hP g1 (fun b hb => hc b (.inl hb)) (hs hp)
      have k2 := reviseTable_lasts hP g2 (fun b hb => hc b (.inr hb)) (hs hp)
      refine ⟨?_, ?_⟩
      · intro d hd
        rcases Mem.mem_set hd with rfl | ⟨hd, _⟩
        · rintro b (hb | hb)
          · exact k1.1 b hb
          · exact k2.1 b hb
        · exact hab.1 d hd
      · intro y hy
        simp only at hy
        cases e2 : r2.2 with
        | some z => rw [e2] at hy; simp at hy; subst hy; exact k2.2 _ e2
        | none =>
          rw [e2] at hy; simp only [Option.none_or] at hy
          cases e1 : r1.2 with
          | some z => rw [e1] at hy; simp at hy; subst hy; exact k1.2 _ e1
          | none => rw [e1] at hy; simp only [Option.none_or] at hy; exact hab.2 y hy

theorem storeAt_inPlace {P : Sentence → Prop} {s : Sentence} {n : Nat} {now : Int} {m m' : Mem} {t : Term}
    (h : storeAt s n now m t = .ok m') (hm : InPlace P m) (hs : P s) (ht : IsSubterm t s.term) : InPlace P m' := by
  rcases storeAt_cases h with ⟨c, e, u, hg, he, hu, rfl⟩ | ⟨_, rfl⟩
  · intro d hd b hb
    rcases Mem.mem_set hd with rfl | ⟨hd, _⟩
    · have hn := (Mem.get_some hg).2
      have new : b = s → P b ∧ IsSubterm c.name b.term := by rintro rfl; exact ⟨hs, by rw [hn]; exact ht⟩
      rcases hb with hb | hb
      · rcases storeTable_mem he b hb with h | h
        · exact hm c (Mem.get_some hg).1 b (.inl h)
        · exact new h
      · rcases storeTable_mem hu b hb with h | h
        · exact hm c (Mem.get_some hg).1 b (.inr h)
        · exact new h
    · exact hm d hd b hb
  · intro d hd b hb
    rcases List.mem_append.1 hd with hd | hd
    · exact hm d hd b hb
    · rw [List.mem_singleton.1 hd] at hb ⊢
      have : b = s := by rcases hb with hb | hb <;> simpa using hb
      rw [this]
      exact ⟨hs, ht⟩

theorem addBelief_lasts {P : Sentence → Prop} (hP : Lasts P) {m m' : Mem} {s : Sentence} {n : Nat} {now : Int} {r : Option Sentence}
    (h : addBelief m s n now = .ok (m', r)) (hm : InPlace P m) (hs : s.punct = .JUGEMENT → P s) : InPlace P m' ∧ ∀ x, r = some x → P x := by
  rcases addBelief_cases h with ⟨x, rfl, h1⟩ | ⟨rfl, m1, h1, h2⟩
  · exact memReviseBelief_lasts hP h1 hm hs
  · refine ⟨?_, by simp⟩
    have h0 := (memReviseBelief_lasts hP h1 hm hs).1
    rcases storeInConcepts2_cases h2 with ⟨_, rfl⟩ | ⟨hp, h⟩
    · exact h0
    · exact foldlM_inv (InPlace P) h h0 (fun t ht a b ha hb => storeAt_inPlace hb ha (hs hp) ((mem_retSubterms _ _).1 ht))

/-- something is added: it has the property if it is a judgement and simple enough -/
theorem memAddTask_lasts {P : Sentence → Prop} (hP : Lasts P) {cfg : Cfg} {sh sh' : Shared} {s : Sentence} {cc : Bool} {mc : Rat} {now : Int}
    (h : memAddTask cfg sh s cc mc now = .ok sh') (h0 : Throughout P sh)
    (hs : s.punct = .JUGEMENT → (calcComplexity s.term : Int) ≤ cfg.maxComplexity → P s) : Throughout P sh' := by
  rcases memAddTask_cases h with ⟨_, rfl⟩ | ⟨hc, mem, rev, h1, h2⟩
  · exact h0
  · have hs' : s.punct = .JUGEMENT → P s := fun hj => hs hj hc
    obtain ⟨k1, k2⟩ := addBelief_lasts hP h1 h0.2 hs'
    have := addTasks_P (P := P) (Q := fun _ => True) h2 (sh := { sh with mem := mem })
      ⟨h0.1, fun c hc => ⟨fun b hb => (k1 c hc b (.inl hb)).1, fun b hb => (k1 c hc b (.inr hb)).1⟩, fun _ _ => ⟨fun _ _ => trivial, fun _ _ => trivial⟩⟩ ?_
    · exact ⟨this.1, by rw [addTasks_mem h2]; exact k1⟩
    · intro x hx hj
      rcases List.mem_cons.1 hx with rfl | hx
      · exact hs' hj
      · rw [Option.mem_toList] at hx
        exact k2 x hx

end Nar
