import Verif.Spec.Mem
import Verif.Lemmas.Term
import Verif.Lemmas.Stamp
import Verif.Lemmas.List
import Mathlib.Data.List.Forall2
import Mathlib.Tactic.Linarith
import Mathlib.Algebra.Order.Ring.Rat
/-! # Helper lemmas about concept memory -/
namespace Nar
open Term

deriving instance DecidableEq for Sentence
deriving instance DecidableEq for Concept

/-! ## the error monad -/

theorem R.bind_ok {α β} {x : R α} {f : α → R β} {b : β} :
    (x >>= f) = .ok b ↔ ∃ a, x = .ok a ∧ f a = .ok b := by
  cases x with
  | error e => simp [bind, Except.bind]
  | ok a => simp [bind, Except.bind]

theorem R.map_ok {α β} {x : R α} {f : α → β} {b : β} :
    x.map f = .ok b ↔ ∃ a, x = .ok a ∧ f a = b := by
  cases x with
  | error e => simp [Except.map]
  | ok a => simp [Except.map]

theorem foldlM_nil_ok {α β} {f : β → α → R β} {b b' : β} :
    ([] : List α).foldlM f b = .ok b' ↔ b = b' := by
  simp [List.foldlM, pure, Except.pure]

theorem foldlM_cons_ok {α β} {f : β → α → R β} {a : α} {l : List α} {b b' : β} :
    (a :: l).foldlM f b = .ok b' ↔ ∃ c, f b a = .ok c ∧ l.foldlM f c = .ok b' := by
  rw [List.foldlM_cons, R.bind_ok]

theorem foldlM_inv {α β} {f : β → α → R β} (P : β → Prop) {l : List α} {b b' : β}
    (h : l.foldlM f b = .ok b') (h0 : P b) (hs : ∀ a ∈ l, ∀ b b', P b → f b a = .ok b' → P b') : P b' := by
  induction l generalizing b with
  | nil => rw [foldlM_nil_ok] at h; exact h ▸ h0
  | cons a l ih =>
    obtain ⟨c, hc, h⟩ := foldlM_cons_ok.1 h
    exact ih h (hs a (by simp) b c h0 hc) (fun a ha => hs a (by simp [ha]))

theorem mapM_ok_iff {α β} {f : α → R β} {l : List α} {r : List β} :
    l.mapM f = .ok r ↔ List.Forall₂ (fun a b => f a = .ok b) l r := by
  induction l generalizing r with
  | nil => simp [pure, Except.pure, eq_comm]
  | cons a l ih =>
    rw [List.mapM_cons, R.bind_ok]
    constructor
    · rintro ⟨b, hb, h⟩
      rw [R.bind_ok] at h
      obtain ⟨bs, hbs, h⟩ := h
      cases h
      exact .cons hb (ih.1 hbs)
    · intro h
      cases h with
      | cons hb hbs =>
        refine ⟨_, hb, ?_⟩
        rw [R.bind_ok]
        exact ⟨_, ih.2 hbs, rfl⟩

/-! ## sorting -/

theorem keyed_ok_map {α} {key : α → R Rat} {l : List α} {r : List (Rat × α)} (h : keyed key l = .ok r) :
    r.map (·.2) = l ∧ ∀ p ∈ r, key p.2 = .ok p.1 := by
  unfold keyed at h
  rw [mapM_ok_iff] at h
  induction h with
  | nil => simp
  | @cons a b l r hab _ ih =>
    rw [R.bind_ok] at hab
    obtain ⟨k, hk, hb⟩ := hab
    cases hb
    constructor
    · simp [ih.1]
    · intro p hp
      rcases List.mem_cons.1 hp with rfl | hp
      · exact hk
      · exact ih.2 p hp

theorem keyed_ok_of {α} {key : α → R Rat} {l : List α} (h : ∀ a ∈ l, ∃ k, key a = .ok k) :
    ∃ r, keyed key l = .ok r := by
  induction l with
  | nil => exact ⟨[], rfl⟩
  | cons a l ih =>
    obtain ⟨k, hk⟩ := h a (by simp)
    obtain ⟨r, hr⟩ := ih (fun b hb => h b (by simp [hb]))
    refine ⟨(k, a) :: r, ?_⟩
    unfold keyed at hr ⊢
    rw [mapM_ok_iff] at hr ⊢
    refine .cons ?_ hr
    rw [hk]; rfl

theorem insertDesc_perm {α} (a : Rat × α) (l : List (Rat × α)) : (insertDesc a l).Perm (a :: l) := by
  induction l with
  | nil => exact .refl _
  | cons b l ih =>
    unfold insertDesc
    split
    · exact .refl _
    · exact (ih.cons b).trans (.swap _ _ _)

theorem sortDesc_perm {α} (l : List (Rat × α)) : (sortDesc l).Perm l := by
  induction l with
  | nil => exact .refl _
  | cons a l ih => exact (insertDesc_perm a _).trans (ih.cons a)

theorem insertDesc_sorted {α} (a : Rat × α) (l : List (Rat × α)) (h : l.Pairwise (fun a b => b.1 ≤ a.1)) :
    (insertDesc a l).Pairwise (fun a b => b.1 ≤ a.1) := by
  induction l with
  | nil => simp [insertDesc]
  | cons b l ih =>
    unfold insertDesc
    rw [List.pairwise_cons] at h
    split
    · rename_i hb
      rw [List.pairwise_cons, List.pairwise_cons]
      refine ⟨?_, h⟩
      intro c hc
      rcases List.mem_cons.1 hc with rfl | hc
      · exact hb
      · exact le_trans (h.1 c hc) hb
    · rename_i hb
      rw [List.pairwise_cons]
      refine ⟨?_, ih h.2⟩
      intro c hc
      rcases List.mem_cons.1 ((insertDesc_perm a l).mem_iff.1 hc) with rfl | hc
      · exact le_of_lt (not_le.1 hb)
      · exact h.1 c hc

theorem sortDesc_sorted {α} (l : List (Rat × α)) : (sortDesc l).Pairwise (fun a b => b.1 ≤ a.1) := by
  induction l with
  | nil => simp [sortDesc]
  | cons a l ih => exact insertDesc_sorted a _ ih

/-- a prefix of a descending list dominates the rest -/
theorem sorted_take_drop {α} {l : List (Rat × α)} (h : l.Pairwise (fun a b => b.1 ≤ a.1)) (n : Nat) :
    ∀ a ∈ l.take n, ∀ b ∈ l.drop n, b.1 ≤ a.1 := by
  have := h
  rw [← List.take_append_drop n l, List.pairwise_append] at this
  exact this.2.2

theorem take_min_length {α} (l : List α) (n : Nat) : l.take (min l.length n) = l.take n := by
  rcases Nat.le_total l.length n with h | h
  · rw [Nat.min_eq_left h, List.take_length, List.take_of_length_le h]
  · rw [Nat.min_eq_right h]

/-! ## the concept map -/

theorem Mem.get_some {m : Mem} {t : Term} {c : Concept} (h : m.get t = some c) : c ∈ m ∧ c.name = t := by
  unfold Mem.get at h
  have h2 := List.find?_some (p := fun c : Concept => checkEqTerm c.name t) h
  exact ⟨List.mem_of_find?_eq_some h, (checkEqTerm_iff _ _).1 h2⟩

theorem Mem.get_none {m : Mem} {t : Term} : m.get t = none ↔ ∀ c ∈ m, c.name ≠ t := by
  unfold Mem.get
  rw [List.find?_eq_none]
  simp [checkEqTerm_iff]

theorem Mem.set_names (m : Mem) (d : Concept) : (m.set d).map (·.name) = m.map (·.name) := by
  unfold Mem.set
  rw [List.map_map]
  apply List.map_congr_left
  intro c _
  simp only [Function.comp]
  split
  · rename_i h; exact ((checkEqTerm_iff _ _).1 h).symm
  · rfl

theorem Mem.mem_set {m : Mem} {d c : Concept} (h : c ∈ m.set d) : c = d ∨ (c ∈ m ∧ c.name ≠ d.name) := by
  unfold Mem.set at h
  rw [List.mem_map] at h
  obtain ⟨e, he, rfl⟩ := h
  by_cases hn : e.name = d.name
  · left; simp [hn, checkEqTerm_self]
  · right
    have : checkEqTerm e.name d.name = false := (checkEqTerm_false_iff _ _).2 hn
    simp [this, he, hn]

theorem Mem.set_length (m : Mem) (d : Concept) : (m.set d).length = m.length := by simp [Mem.set]

/-- key of the hash map is unique -/
def Mem.WF (m : Mem) : Prop := (m.map (·.name)).Nodup

theorem Mem.get_of_mem {m : Mem} (hw : m.WF) {c : Concept} (h : c ∈ m) : m.get c.name = some c := by
  cases hg : m.get c.name with
  | none => exact absurd rfl (Mem.get_none.1 hg c h)
  | some d =>
    have := Mem.get_some hg
    rw [eq_of_nodup_map hw d this.1 c h this.2]

theorem Mem.get_set_self {m : Mem} {c d : Concept} (h : m.get d.name = some c) :
    (m.set d).get d.name = some d := by
  cases hg : (m.set d).get d.name with
  | none =>
    exfalso
    have h1 := Mem.get_some h
    have h2 : c.name ∈ (m.set d).map (·.name) := by
      rw [Mem.set_names]; exact List.mem_map.2 ⟨c, h1.1, rfl⟩
    obtain ⟨e, he, hn⟩ := List.mem_map.1 h2
    exact Mem.get_none.1 hg e he (hn.trans h1.2)
  | some e =>
    have := Mem.get_some hg
    rcases Mem.mem_set this.1 with rfl | ⟨_, hne⟩
    · rfl
    · exact absurd this.2 hne

theorem Mem.get_set_ne {m : Mem} {d : Concept} {t : Term} (h : t ≠ d.name) : (m.set d).get t = m.get t := by
  unfold Mem.get Mem.set
  induction m with
  | nil => rfl
  | cons c m ih =>
    rw [List.map_cons, List.find?_cons, List.find?_cons]
    by_cases hc : c.name = d.name
    · have h1 : checkEqTerm c.name d.name = true := (checkEqTerm_iff _ _).2 hc
      have h2 : checkEqTerm d.name t = false := (checkEqTerm_false_iff _ _).2 (Ne.symm h)
      have h3 : checkEqTerm c.name t = false := by rw [hc]; exact h2
      rw [if_pos h1, h2, h3]; exact ih
    · have h1 : ¬ checkEqTerm c.name d.name = true := by rw [checkEqTerm_iff]; exact hc
      rw [if_neg h1]
      cases checkEqTerm c.name t
      · exact ih
      · rfl

theorem Mem.set_same {m : Mem} (hw : m.WF) {c : Concept} (h : c ∈ m) : m.set c = m := by
  unfold Mem.set
  conv_rhs => rw [← List.map_id m]
  apply List.map_congr_left
  intro d hd
  by_cases hn : d.name = c.name
  · rw [if_pos ((checkEqTerm_iff _ _).2 hn), eq_of_nodup_map hw d hd c h hn]; rfl
  · rw [if_neg (by rw [checkEqTerm_iff]; exact hn)]; rfl

theorem Mem.get_append {m : Mem} {d : Concept} {t : Term} (h : m.get d.name = none) :
    Mem.get (m ++ [d]) t = if t = d.name then some d else m.get t := by
  unfold Mem.get at *
  rw [List.find?_append]
  by_cases ht : t = d.name
  · subst ht
    simp [h, checkEqTerm_self]
  · have h2 : checkEqTerm d.name t = false := (checkEqTerm_false_iff _ _).2 (Ne.symm ht)
    simp [h2, ht]

/-! ## storing -/

theorem dependentBelief_iff (table : List Sentence) (s : Sentence) :
    dependentBelief table s = true ↔ ∃ b ∈ table, SameStatement b s ∧ SharesEvidence b s := by
  unfold dependentBelief SameStatement SharesEvidence
  simp only [List.any_eq_true, Bool.and_eq_true, checkEqTerm_iff, Stamp.checkOverlap_iff]

theorem shallowCopy_eq (s : Sentence) : shallowCopySentence s = s := rfl

theorem storeTable_cases {key : Sentence → R Rat} {table : List Sentence} {s : Sentence} {n : Nat}
    {table' : List Sentence} (h : storeTable key table s n = .ok table') :
    (dependentBelief table s = true ∧ table' = table) ∨
    (dependentBelief table s = false ∧ ∃ sorted : List (Rat × Sentence),
      (sorted.map (·.2)).Perm (table ++ [s]) ∧ sorted.Pairwise (fun a b => b.1 ≤ a.1) ∧
      (∀ p ∈ sorted, key p.2 = .ok p.1) ∧ table' = (sorted.map (·.2)).take n) := by
  unfold storeTable at h
  split at h
  · rename_i hd; cases h; exact .inl ⟨hd, rfl⟩
  · rename_i hd
    rw [R.bind_ok] at h
    obtain ⟨temp, ht, h⟩ := h
    cases h
    obtain ⟨h1, h2⟩ := keyed_ok_map ht
    refine .inr ⟨by simpa using hd, sortDesc temp, ?_, sortDesc_sorted temp, ?_, take_min_length _ _⟩
    · rw [← shallowCopy_eq s, ← h1]
      exact (sortDesc_perm temp).map _
    · intro p hp
      exact h2 p ((sortDesc_perm temp).mem_iff.1 hp)

theorem storeTable_mem {key : Sentence → R Rat} {table : List Sentence} {s : Sentence} {n : Nat}
    {table' : List Sentence} (h : storeTable key table s n = .ok table') :
    ∀ b ∈ table', b ∈ table ∨ b = s := by
  rcases storeTable_cases h with ⟨_, rfl⟩ | ⟨_, sorted, hp, _, _, rfl⟩
  · intro b hb; exact .inl hb
  · intro b hb
    have := hp.mem_iff.1 (List.mem_of_mem_take hb)
    simpa using this

theorem storeTable_length {key : Sentence → R Rat} {table : List Sentence} {s : Sentence} {n k : Nat}
    {table' : List Sentence} (h : storeTable key table s n = .ok table') (hk : n ≤ k)
    (hl : table.length ≤ k) : table'.length ≤ k := by
  rcases storeTable_cases h with ⟨_, rfl⟩ | ⟨_, sorted, _, _, _, rfl⟩
  · exact hl
  · rw [List.length_take]; omega

theorem storeAt_cases {s : Sentence} {n : Nat} {now : Int} {m m' : Mem} {t : Term}
    (h : storeAt s n now m t = .ok m') :
    (∃ c e u, m.get t = some c ∧ storeTable expOf c.beliefsByExp s n = .ok e ∧
      storeTable (usefulOf now) c.beliefsByUsage s n = .ok u ∧
      m' = m.set { c with beliefsByExp := e, beliefsByUsage := u }) ∨
    (m.get t = none ∧ m' = m ++ [⟨t, [s], [s]⟩]) := by
  unfold storeAt at h
  split at h
  · rename_i c hc
    rw [R.bind_ok] at h
    obtain ⟨e, he, h⟩ := h
    rw [R.bind_ok] at h
    obtain ⟨u, hu, h⟩ := h
    cases h
    exact .inl ⟨c, e, u, hc, he, hu, rfl⟩
  · rename_i hc
    cases h
    exact .inr ⟨hc, rfl⟩

theorem storeAt_wf {s : Sentence} {n : Nat} {now : Int} {m m' : Mem} {t : Term}
    (h : storeAt s n now m t = .ok m') (hw : m.WF) : m'.WF := by
  rcases storeAt_cases h with ⟨c, e, u, _, _, _, rfl⟩ | ⟨hn, rfl⟩
  · unfold Mem.WF; rw [Mem.set_names]; exact hw
  · unfold Mem.WF
    rw [List.map_append, List.nodup_append]
    refine ⟨hw, by simp, ?_⟩
    intro a ha b hb
    obtain ⟨c, hc, rfl⟩ := List.mem_map.1 ha
    simp at hb
    rw [hb]; exact Mem.get_none.1 hn c hc

/-- lifts a property of the two tables of a concept through storing -/
theorem storeAt_inv (P : List Sentence → List Sentence → Prop) {s : Sentence} {n : Nat} {now : Int}
    {m m' : Mem} {t : Term} (h : storeAt s n now m t = .ok m')
    (hm : ∀ c ∈ m, P c.beliefsByExp c.beliefsByUsage) (hnew : P [s] [s])
    (hstep : ∀ c ∈ m, c.name = t → ∀ e u, storeTable expOf c.beliefsByExp s n = .ok e →
      storeTable (usefulOf now) c.beliefsByUsage s n = .ok u → P e u) :
    ∀ c ∈ m', P c.beliefsByExp c.beliefsByUsage := by
  rcases storeAt_cases h with ⟨c, e, u, hg, he, hu, rfl⟩ | ⟨_, rfl⟩
  · intro d hd
    rcases Mem.mem_set hd with rfl | ⟨hd, _⟩
    · exact hstep c (Mem.get_some hg).1 (Mem.get_some hg).2 e u he hu
    · exact hm d hd
  · intro d hd
    rcases List.mem_append.1 hd with hd | hd
    · exact hm d hd
    · simp at hd; subst hd; exact hnew

theorem storeInConcepts2_cases {m m' : Mem} {s : Sentence} {sub : List Term} {n : Nat} {now : Int}
    (h : storeInConcepts2 m s sub n now = .ok m') :
    (s.punct ≠ .JUGEMENT ∧ m' = m) ∨ (s.punct = .JUGEMENT ∧ sub.foldlM (storeAt s n now) m = .ok m') := by
  unfold storeInConcepts2 at h
  split at h
  · rename_i hp; cases h; exact .inl ⟨hp, rfl⟩
  · rename_i hp; exact .inr ⟨by simpa using hp, h⟩

/-! ## revising -/

theorem reviseTable_cases {cell : List Int} {table : List Sentence} {s : Sentence} {r : List Sentence × Option Sentence}
    (h : reviseTable cell table s = .ok r) :
    ((∀ b ∈ table, SameStatement b s → SharesEvidence b s) ∧ r = (table, none)) ∨
    (∃ pre b post add, table = pre ++ b :: post ∧ SameStatement b s ∧ ¬ SharesEvidence b s ∧
      (∀ x ∈ pre, SameStatement x s → SharesEvidence x s) ∧
      revisedBelief cell b s = .ok add ∧ r = (pre ++ post ++ [add], some add)) := by
  unfold reviseTable at h
  split at h
  · rename_i hf
    cases h
    refine .inl ⟨?_, rfl⟩
    rw [List.findIdx?_eq_none_iff] at hf
    intro b hb hs
    have := hf b hb
    rw [(checkEqTerm_iff _ _).2 hs] at this
    simp at this
    exact (Stamp.checkOverlap_iff _ _).1 this
  · rename_i i hf
    rw [R.bind_ok] at h
    obtain ⟨b, hb, h⟩ := h
    rw [R.bind_ok] at h
    obtain ⟨add, ha, h⟩ := h
    cases h
    rw [List.findIdx?_eq_some_iff_getElem] at hf
    obtain ⟨hi, hp, hpre⟩ := hf
    have hbi : table[i] = b := by
      unfold indexAt at hb
      rw [List.getElem?_eq_getElem hi] at hb
      cases hb; rfl
    rw [hbi] at hp
    simp only [Bool.and_eq_true, Bool.not_eq_true', checkEqTerm_iff] at hp
    refine .inr ⟨table.take i, b, table.drop (i+1), add, ?_, hp.1, ?_, ?_, ha, ?_⟩
    · rw [← hbi, List.getElem_cons_drop, List.take_append_drop]
    · intro hsh
      have := (Stamp.checkOverlap_iff _ _).2 hsh
      rw [hp.2] at this; cases this
    · intro x hx hsx
      obtain ⟨j, hj, rfl⟩ := List.mem_iff_getElem.1 hx
      rw [List.length_take] at hj
      rw [List.getElem_take] at hsx ⊢
      have := hpre j (by omega)
      simp only [Bool.and_eq_true, Bool.not_eq_true', checkEqTerm_iff, not_and] at this
      have := this hsx
      exact (Stamp.checkOverlap_iff _ _).1 (by simpa using this)
    · rw [List.eraseIdx_eq_take_drop_succ]

theorem revisedBelief_ok {cell : List Int} {b s r : Sentence} (h : revisedBelief cell b s = .ok r) :
    ∃ ta tb tv, retTv b = .ok (some ta) ∧ retTv s = .ok (some tb) ∧ Tv.rev ta tb = some tv ∧
      r = { term := b.term, t := b.t, punct := b.punct, stamp := Stamp.merge b.stamp s.stamp,
            expDt := b.expDt, evi := some (.TV tv), usage := ⟨0, 0, cell⟩ } := by
  unfold revisedBelief at h
  simp only [R.bind_ok] at h
  obtain ⟨oa, h1, ta, h2, ob, h3, tb, h4, h⟩ := h
  cases oa with
  | none => cases h2
  | some ta' =>
    cases ob with
    | none => cases h4
    | some tb' =>
      cases h2; cases h4
      split at h
      · cases h
      · rename_i tv htv
        cases h
        exact ⟨ta, tb, tv, h1, h3, htv, rfl⟩

theorem reviseTable_length {cell : List Int} {table : List Sentence} {s : Sentence} {r : List Sentence × Option Sentence}
    (h : reviseTable cell table s = .ok r) : r.1.length = table.length := by
  rcases reviseTable_cases h with ⟨_, rfl⟩ | ⟨pre, b, post, add, rfl, _, _, _, _, rfl⟩
  · rfl
  · simp

theorem reviseTable_terms {cell : List Int} {table : List Sentence} {s : Sentence} {r : List Sentence × Option Sentence}
    (h : reviseTable cell table s = .ok r) : (r.1.map (·.term)).Perm (table.map (·.term)) := by
  rcases reviseTable_cases h with ⟨_, rfl⟩ | ⟨pre, b, post, add, rfl, _, _, _, hr, rfl⟩
  · exact List.Perm.refl _
  · obtain ⟨_, _, _, _, _, _, rfl⟩ := revisedBelief_ok hr
    simp only [List.map_append, List.map_cons, List.map_nil, List.append_assoc]
    apply List.Perm.append_left
    exact List.perm_append_comm

theorem reviseAt_cases {s : Sentence} {st st' : Mem × Option Sentence} {t : Term}
    (h : reviseAt s st t = .ok st') :
    (st.1.get t = none ∧ st' = st) ∨
    (∃ c r1 r2, st.1.get t = some c ∧ reviseTable (nextCell s st.2) c.beliefsByExp s = .ok r1 ∧
      reviseTable (nextCell s (r1.2.or st.2)) c.beliefsByUsage s = .ok r2 ∧
      st' = (st.1.set { c with beliefsByExp := r1.1, beliefsByUsage := r2.1 }, r2.2.or (r1.2.or st.2))) := by
  unfold reviseAt at h
  split at h
  · rename_i c hc
    rw [R.bind_ok] at h
    obtain ⟨r1, h1, h⟩ := h
    rw [R.bind_ok] at h
    obtain ⟨r2, h2, h⟩ := h
    cases h
    exact .inr ⟨c, r1, r2, hc, h1, h2, rfl⟩
  · rename_i hc; cases h; exact .inl ⟨hc, rfl⟩

theorem reviseAt_wf {s : Sentence} {st st' : Mem × Option Sentence} {t : Term}
    (h : reviseAt s st t = .ok st') (hw : st.1.WF) : st'.1.WF := by
  rcases reviseAt_cases h with ⟨_, rfl⟩ | ⟨c, r1, r2, _, _, _, rfl⟩
  · exact hw
  · unfold Mem.WF; rw [Mem.set_names]; exact hw

theorem reviseAt_inv (P : List Sentence → List Sentence → Prop) {s : Sentence}
    {st st' : Mem × Option Sentence} {t : Term} (h : reviseAt s st t = .ok st')
    (hm : ∀ c ∈ st.1, P c.beliefsByExp c.beliefsByUsage)
    (hstep : ∀ c ∈ st.1, c.name = t → ∀ cell1 cell2 r1 r2, reviseTable cell1 c.beliefsByExp s = .ok r1 →
      reviseTable cell2 c.beliefsByUsage s = .ok r2 → P r1.1 r2.1) :
    ∀ c ∈ st'.1, P c.beliefsByExp c.beliefsByUsage := by
  rcases reviseAt_cases h with ⟨_, rfl⟩ | ⟨c, r1, r2, hg, h1, h2, rfl⟩
  · exact hm
  · intro d hd
    rcases Mem.mem_set hd with rfl | ⟨hd, _⟩
    · exact hstep c (Mem.get_some hg).1 (Mem.get_some hg).2 _ _ r1 r2 h1 h2
    · exact hm d hd

theorem memReviseBelief_cases {m : Mem} {s : Sentence} {st : Mem × Option Sentence}
    (h : memReviseBelief m s = .ok st) :
    (s.punct ≠ .JUGEMENT ∧ st = (m, none)) ∨
    (s.punct = .JUGEMENT ∧ (retSubterms s.term).foldlM (reviseAt s) (m, none) = .ok st) := by
  unfold memReviseBelief at h
  split at h
  · rename_i hp; cases h; exact .inl ⟨hp, rfl⟩
  · rename_i hp; exact .inr ⟨by simpa using hp, h⟩

theorem reviseTable_none {cell : List Int} {table : List Sentence} {s : Sentence} {r : List Sentence × Option Sentence}
    (h : reviseTable cell table s = .ok r) (hr : r.2 = none) :
    r.1 = table ∧ ∀ b ∈ table, SameStatement b s → SharesEvidence b s := by
  rcases reviseTable_cases h with ⟨h1, rfl⟩ | ⟨pre, b, post, add, rfl, _, _, _, _, rfl⟩
  · exact ⟨rfl, h1⟩
  · cases hr

theorem reviseAt_none {s : Sentence} {st st' : Mem × Option Sentence} {t : Term}
    (h : reviseAt s st t = .ok st') (hw : st.1.WF) (hn : st'.2 = none) :
    st' = st ∧ ∀ c ∈ st.1, c.name = t → (∀ b ∈ c.beliefsByExp, SameStatement b s → SharesEvidence b s) ∧
      (∀ b ∈ c.beliefsByUsage, SameStatement b s → SharesEvidence b s) := by
  rcases reviseAt_cases h with ⟨hg, rfl⟩ | ⟨c, r1, r2, hg, h1, h2, rfl⟩
  · exact ⟨rfl, fun c hc hcn => absurd hcn (Mem.get_none.1 hg c hc)⟩
  · simp only [Option.or_eq_none_iff] at hn
    obtain ⟨e1, p1⟩ := reviseTable_none h1 hn.2.1
    obtain ⟨e2, p2⟩ := reviseTable_none h2 hn.1
    have hc := Mem.get_some hg
    constructor
    · rw [e1, e2, hn.1, hn.2.1]
      simp only [Option.none_or]
      rw [Mem.set_same hw hc.1]
    · intro d hd hdn
      rw [eq_of_nodup_map hw d hd c hc.1 (hdn.trans hc.2.symm)]
      exact ⟨p1, p2⟩

theorem reviseAt_none_mono {s : Sentence} {st st' : Mem × Option Sentence} {t : Term}
    (h : reviseAt s st t = .ok st') (hn : st'.2 = none) : st.2 = none := by
  rcases reviseAt_cases h with ⟨_, rfl⟩ | ⟨c, r1, r2, _, _, _, rfl⟩
  · exact hn
  · simp only [Option.or_eq_none_iff] at hn; exact hn.2.2

theorem reviseFold_none_mono {s : Sentence} {ts : List Term} {st st' : Mem × Option Sentence}
    (h : ts.foldlM (reviseAt s) st = .ok st') (hn : st'.2 = none) : st.2 = none := by
  induction ts generalizing st with
  | nil => rw [foldlM_nil_ok] at h; rw [h]; exact hn
  | cons t ts ih =>
    obtain ⟨st1, h1, h⟩ := foldlM_cons_ok.1 h
    exact reviseAt_none_mono h1 (ih h)

/-- nothing revised: memory unchanged and all beliefs about the statement share evidence -/
theorem reviseFold_none {s : Sentence} {ts : List Term} {st st' : Mem × Option Sentence}
    (h : ts.foldlM (reviseAt s) st = .ok st') (hw : st.1.WF) (hn : st'.2 = none) :
    st' = st ∧ ∀ c ∈ st.1, c.name ∈ ts → (∀ b ∈ c.beliefsByExp, SameStatement b s → SharesEvidence b s) ∧
      (∀ b ∈ c.beliefsByUsage, SameStatement b s → SharesEvidence b s) := by
  induction ts generalizing st with
  | nil => rw [foldlM_nil_ok] at h; rw [h]; exact ⟨rfl, by simp⟩
  | cons t ts ih =>
    obtain ⟨st1, h1, h2⟩ := foldlM_cons_ok.1 h
    have hn1 := reviseFold_none_mono h2 hn
    obtain ⟨e1, p1⟩ := reviseAt_none h1 hw hn1
    rw [e1] at h2
    obtain ⟨e2, p2⟩ := ih h2 hw
    refine ⟨e2, ?_⟩
    intro c hc hcn
    rcases List.mem_cons.1 hcn with h3 | h3
    · exact p1 c hc h3
    · exact p2 c hc h3

theorem addBelief_cases {m m' : Mem} {s : Sentence} {n : Nat} {now : Int} {r : Option Sentence}
    (h : addBelief m s n now = .ok (m', r)) :
    (∃ x, r = some x ∧ memReviseBelief m s = .ok (m', some x)) ∨
    (r = none ∧ ∃ m1, memReviseBelief m s = .ok (m1, none) ∧ storeInConcepts m1 s n now = .ok m') := by
  unfold addBelief at h
  rw [R.bind_ok] at h
  obtain ⟨⟨m1, r1⟩, h1, h⟩ := h
  cases r1 with
  | some x =>
    simp only at h
    cases h
    exact .inl ⟨x, rfl, h1⟩
  | none =>
    simp only [R.bind_ok] at h
    obtain ⟨m2, h2, h⟩ := h
    cases h
    exact .inr ⟨rfl, m1, h1, h2⟩

end Nar
