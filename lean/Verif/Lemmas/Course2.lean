import Verif.Lemmas.Course1
/-! # Helper lemmas: the same statements in another order -/
namespace Nar
open Term

/-- lists with the same images up to order can be lined up -/
theorem lined_up {α β : Type} (f : α → β) : ∀ {l l1 : List α}, (l.map f).Perm (l1.map f) → ∃ l2 : List α, l2.Perm l1 ∧ l2.map f = l.map f := by
  intro l
  induction l with
  | nil =>
    intro l1 h
    have : l1 = [] := by simpa using h.nil_eq.symm
    exact ⟨[], by rw [this], rfl⟩
  | cons a l ih =>
    intro l1 h
    have : f a ∈ l1.map f := h.subset (by simp)
    obtain ⟨b, hb, e⟩ := List.mem_map.1 this
    obtain ⟨s, t, rfl⟩ := List.append_of_mem hb
    have hp : (s ++ b :: t).Perm (b :: (s ++ t)) := List.perm_middle
    have h1 : (f a :: l.map f).Perm (f a :: (s ++ t).map f) := by
      have := h.trans (hp.map f)
      simpa [e] using this
    obtain ⟨l2, k1, k2⟩ := ih h1.cons_inv
    exact ⟨b :: l2, (k1.cons b).trans hp.symm, by simp [k2, e]⟩

/-- if the statements of one course are among those of another, the evidence can be renamed -/
theorem renumbered {l l' : List (Nat × Term × Tv)} (hn : (l'.map (·.1)).Nodup) (h : (l.map (·.2.1)).Subperm (l'.map (·.2.1))) :
    ∃ R : Int → Int → Prop, (∀ e f x, R e x → R f x → e = f) ∧
      ∀ p ∈ l, ∃ p' ∈ l', p'.2.1 = p.2.1 ∧ R p.1 p'.1 := by
  obtain ⟨m, h1, h2⟩ := h
  obtain ⟨l1, h3, rfl⟩ := List.sublist_map_iff.1 h2
  obtain ⟨l2, h4, h5⟩ := lined_up _ h1.symm
  have hn2 : (l2.map (·.1)).Nodup := (h4.map _).nodup_iff.2 ((h3.map _).nodup hn)
  refine ⟨fun e x => ∃ (i : Nat) (p q : Nat × Term × Tv), l[i]? = some p ∧ l2[i]? = some q ∧ e = p.1 ∧ x = q.1, ?_, ?_⟩
  · rintro e f x ⟨i, p, q, a1, a2, rfl, rfl⟩ ⟨j, p', q', b1, b2, rfl, hq⟩
    have hq : q.1 = q'.1 := by exact_mod_cast hq
    have hi : i < (l2.map (·.1)).length := by simpa using (List.getElem?_eq_some_iff.1 a2).1
    have : i = j := (List.getElem?_inj hi hn2).1 (by simp [a2, b2, hq])
    subst this
    rw [a1] at b1; cases b1; rfl
  · intro p hp
    obtain ⟨i, hi⟩ := List.getElem?_of_mem hp
    have h6 : (l2.map (·.2.1))[i]? = some p.2.1 := by rw [h5]; simp [hi]
    rw [List.getElem?_map, Option.map_eq_some_iff] at h6
    obtain ⟨q, hq, e⟩ := h6
    exact ⟨q, h3.subset (h4.subset (List.mem_of_getElem? hq)), e, i, p, q, hi, hq, rfl, rfl⟩

/-- whoever is told at least as much can deduce at least as much -/
theorem deducible_told {cfg : Cfg} {as as' : List Lecture} (h : (toldTerms as).Subperm (toldTerms as')) {t : Term} {E : List Int}
    (hd : Deducible cfg (Lectured as) t E) : ∃ E', Deducible cfg (Lectured as') t E' := by
  obtain ⟨R, h1, h2⟩ := renumbered (numberedIn_nodup as' 0) h
  obtain ⟨F, k, _⟩ := hd.moved (cfg' := cfg) rfl (told' := Lectured as') h1 (by
    rintro s ⟨p, hp, rfl⟩ _
    obtain ⟨p', q1, q2, q3⟩ := h2 p hp
    refine ⟨_, ⟨p', q1, rfl⟩, rfl, q2, fun x hx => ?_⟩
    have : x = (p'.1 : Int) := by simpa [toldAs, newEternalSentenceByTv] using hx
    exact ⟨p.1, by simp [toldAs, newEternalSentenceByTv], this ▸ q3⟩)
  exact ⟨F, k⟩

theorem CourseSim.deducible {k : Nat} {as : List Lecture} {cfg cfg' : Cfg} {ops : List SysOp} (h : CourseSim k as cfg ops)
    (hc : cfg'.maxComplexity = cfg.maxComplexity) {t : Term} {E : List Int} :
    Deducible cfg (PutIn ops) t E → ∃ F, Deducible cfg' (Lectured as) t F ∧ ∀ e ∈ F, e ∈ E := by
  intro hd
  obtain ⟨F, h1, h2⟩ := hd.moved (R := Eq) hc (told' := Lectured as) (fun e f x h1 h2 => h1.trans h2.symm) (fun s h1 h2 =>
    ⟨s, h.told s h1 h2, h2, rfl, fun x hx => ⟨x, hx, rfl⟩⟩)
  exact ⟨F, h1, fun e he => by obtain ⟨x, hx, rfl⟩ := h2 e he; exact hx⟩

theorem CourseSim.deduced {k : Nat} {as : List Lecture} {cfg cfg' : Cfg} {ops : List SysOp} (h : CourseSim k as cfg ops)
    (hc : cfg'.maxComplexity = cfg.maxComplexity) {t : Term} {E : List Int} :
    Deducible cfg' (Lectured as) t E → ∃ F, Deducible cfg (PutIn ops) t F ∧ ∀ e ∈ F, e ∈ E := by
  intro hd
  obtain ⟨F, h1, h2⟩ := hd.moved (R := Eq) hc.symm (told' := PutIn ops) (fun e f x h1 h2 => h1.trans h2.symm) (fun s h1 h2 =>
    ⟨s, h.heard s h1, h2, rfl, fun x hx => ⟨x, hx, rfl⟩⟩)
  exact ⟨F, h1, fun e he => by obtain ⟨x, hx, rfl⟩ := h2 e he; exact hx⟩

theorem CourseSim.recalls {k : Nat} {as : List Lecture} {cfg : Cfg} {ops : List SysOp} {s : Sys} (h : CourseSim k as cfg ops)
    (hr : runSys cfg ops = .ok s) : Recalls s.sh := by
  refine Recalls.more (s := { sh := createShared, queue := [], log := [] }) h.beliefs hr ?_ .init
  intro x cc mc now hx hj
  obtain ⟨tv, h1, h2, h3⟩ := h.sane _ hx hj
  exact ⟨hj, ⟨tv, h1, h3⟩, h2⟩

theorem CourseSim.silent {k : Nat} {as : List Lecture} {cfg : Cfg} {ops : List SysOp} {s : Sys} (h : CourseSim k as cfg ops)
    (hr : runSys cfg ops = .ok s) (hq : NoQuestions as) : s.sh.questionTasks = [] ∧ s.log = [] := by
  refine silent_sys (s := { sh := createShared, queue := [], log := [] }) h.beliefs hr ?_ .init rfl
  intro x cc mc now hx
  have hj := h.asks hq x ⟨_, _, _, hx⟩
  obtain ⟨tv, h1, h2, h3⟩ := h.sane _ hx hj
  exact ⟨hj, ⟨tv, h1, h3⟩, h2⟩

theorem lectured_facts {as : List Lecture} (h : ∀ t ∈ toldTerms as, FactOrRule t) : ∀ s, Lectured as s → FactOrRule s.term := by
  rintro s ⟨p, hp, rfl⟩
  exact h _ (List.mem_map.2 ⟨p, hp, rfl⟩)

end Nar
