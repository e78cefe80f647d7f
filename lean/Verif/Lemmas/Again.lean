import Mathlib.Data.List.Perm.Subperm
import Verif.Spec.Again
import Verif.Lemmas.Course2
import Verif.Lemmas.Term
/-! # Helper lemmas: what follows if statements may be used again and again -/
namespace Nar
open Term

theorem Deducible.implied {cfg : Cfg} {told : Sentence → Prop} {told' : Term → Prop} (h : ∀ s, told s → told' s.term) {t : Term} {E : List Int}
    (hd : Deducible cfg told t E) : Implied cfg told' t := by
  induction hd with
  | told s h1 _ h3 => exact .told _ (h s h1) h3
  | alone a c E _ h1 h2 ih => exact .alone a c ih h1 h2
  | both a b c E F _ _ _ h2 h3 h4 ih1 ih2 => exact .both a b c ih1 ih2 h2 h3 h4

theorem Implied.mono {cfg : Cfg} {told told' : Term → Prop} {t : Term} (h : Implied cfg told t) (hs : ∀ x, told x → told' x) :
    Implied cfg told' t := by
  induction h with
  | told t h1 h2 => exact .told t (hs t h1) h2
  | alone a c _ h1 h2 ih => exact .alone a c ih h1 h2
  | both a b c _ _ h1 h2 h3 ih1 ih2 => exact .both a b c ih1 ih2 h1 h2 h3

/-- the statements used, each as often as it is used -/
theorem Implied.used {cfg : Cfg} {told : Term → Prop} {t : Term} (h : Implied cfg told t) : ∃ l : List Term, (∀ x ∈ l, told x) ∧
    ∀ (ps : List (Nat × Term × Tv)) (told' : Sentence → Prop), ps.map (·.2.1) = l → (ps.map (·.1)).Nodup → (∀ p ∈ ps, told' (toldAs p.1 p.2)) →
      ∃ E, Deducible cfg told' t E ∧ ∀ e ∈ E, ∃ p ∈ ps, e = (p.1 : Int) := by
  induction h with
  | told t h1 h2 =>
    refine ⟨[t], by simpa using h1, fun ps told' e _ hp => ?_⟩
    obtain ⟨p, rfl, e1⟩ := List.map_eq_singleton_iff.1 e
    have hd : Deducible cfg told' (toldAs p.1 p.2).term (toldAs p.1 p.2).stamp.ids := .told _ (hp p (by simp)) rfl (by
      show (calcComplexity p.2.1 : Int) ≤ _
      rw [e1]; exact h2)
    have ht : (toldAs p.1 p.2).term = t := e1
    rw [ht] at hd
    exact ⟨_, hd, fun x hx => ⟨p, by simp, by simpa [toldAs, newEternalSentenceByTv] using hx⟩⟩
  | alone a c _ h1 h2 ih =>
    obtain ⟨l, k1, k2⟩ := ih
    refine ⟨l, k1, fun ps told' e hn hp => ?_⟩
    obtain ⟨E, d, hE⟩ := k2 ps told' e hn hp
    exact ⟨E, .alone a c E d h1 h2, hE⟩
  | both a b c _ _ h1 h2 h3 ih1 ih2 =>
    obtain ⟨l1, k1, k2⟩ := ih1
    obtain ⟨l2, k1', k2'⟩ := ih2
    refine ⟨l1 ++ l2, fun x hx => (List.mem_append.1 hx).elim (k1 x) (k1' x), fun ps told' e hn hp => ?_⟩
    obtain ⟨p1, p2, rfl, e1, e2⟩ := List.map_eq_append_iff.1 e
    rw [List.map_append] at hn
    obtain ⟨n1, n2, n3⟩ := List.nodup_append.1 hn
    obtain ⟨E, d, hE⟩ := k2 p1 told' e1 n1 (fun p h => hp p (by simp [h]))
    obtain ⟨F, d', hF⟩ := k2' p2 told' e2 n2 (fun p h => hp p (by simp [h]))
    refine ⟨E ++ F, .both a b c E F d d' ?_ h1 h2 h3, fun x hx => ?_⟩
    · intro x hx hx'
      obtain ⟨p, hp, rfl⟩ := hE x hx
      obtain ⟨q, hq, e⟩ := hF _ hx'
      exact n3 p.1 (List.mem_map.2 ⟨p, hp, rfl⟩) q.1 (List.mem_map.2 ⟨q, hq, rfl⟩) (by exact_mod_cast e)
    · rcases List.mem_append.1 hx with hx | hx
      · obtain ⟨p, hp, rfl⟩ := hE x hx
        exact ⟨p, by simp [hp], rfl⟩
      · obtain ⟨p, hp, rfl⟩ := hF x hx
        exact ⟨p, by simp [hp], rfl⟩

/-- what is implied is deduced if everything is told often enough -/
theorem Implied.often {cfg : Cfg} {told : Term → Prop} {t : Term} (h : Implied cfg told t) : ∃ n, ∀ as : List Lecture,
    (∀ x, told x → n ≤ (toldTerms as).count x) → ∃ E, Deducible cfg (Lectured as) t E := by
  obtain ⟨l, h1, h2⟩ := h.used
  refine ⟨l.length, fun as hc => ?_⟩
  have hs : l.Subperm (toldTerms as) := List.subperm_ext_iff.2 (fun x hx => List.count_le_length.trans (hc x (h1 x hx)))
  obtain ⟨m, g1, g2⟩ := hs
  obtain ⟨l1, h3, rfl⟩ := List.sublist_map_iff.1 g2
  obtain ⟨l2, h4, h5⟩ := lined_up (l := l.map (fun x => (0, x, (⟨0, 0⟩ : Tv)))) (l1 := l1) (fun p : Nat × Term × Tv => p.2.1)
    (by simpa [Function.comp_def] using g1.symm)
  obtain ⟨E, d, _⟩ := h2 l2 (Lectured as) (by simpa [Function.comp_def] using h5)
    ((h4.map _).nodup_iff.2 ((h3.map _).nodup (numberedIn_nodup as 0))) (fun p hp => ⟨p, h3.subset (h4.subset hp), rfl⟩)
  exact ⟨E, d⟩

end Nar
