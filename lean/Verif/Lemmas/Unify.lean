import Verif.Lemmas.Term
import Verif.Spec.Unify
/-! # Helper lemmas about unification -/
namespace Nar
open Term

theorem instL_eq_map (θ : Term → Term) (ts : List Term) : instL θ ts = ts.map (inst θ) := by
  induction ts with
  | nil => rfl
  | cons t ts ih => simp [instL, ih]

theorem unifySubstL_eq_map (σ : List Asgnment) (ts : List Term) :
    unifySubstL σ ts = ts.map (unifySubst σ) := by
  induction ts with
  | nil => rfl
  | cons t ts ih => simp [unifySubstL, ih]

/-- substituting is instantiating with the first-match lookup. -/
theorem unifySubst_eq_inst (σ : List Asgnment) (t : Term) :
    unifySubst σ t = inst (fun v => substVar v σ) t := by
  induction t using Term.ind <;>
    simp_all [unifySubst, inst, unifySubstL_eq_map, instL_eq_map, List.map_inj_left]

theorem substVar_append_of_mem (v : Term) (σ τ : List Asgnment) (h : ∃ a ∈ σ, a.var = v) :
    substVar v (σ ++ τ) = substVar v σ := by
  induction σ with
  | nil => simp at h
  | cons a σ ih =>
    simp only [List.cons_append, substVar]
    split
    · rfl
    · rename_i hn
      apply ih
      obtain ⟨x, hx, hxv⟩ := h
      rcases List.mem_cons.1 hx with rfl | hx
      · exact absurd ((checkEqTerm_iff _ _).2 hxv.symm) hn
      · exact ⟨x, hx, hxv⟩

theorem substVar_append_of_not_mem (v : Term) (σ τ : List Asgnment) (h : ∀ a ∈ σ, a.var ≠ v) :
    substVar v (σ ++ τ) = substVar v τ := by
  induction σ with
  | nil => rfl
  | cons a σ ih =>
    simp only [List.cons_append, substVar]
    have : checkEqTerm v a.var = false := by
      rw [checkEqTerm_false_iff]; exact fun e => h a (by simp) e.symm
    rw [this]
    simpa using ih (fun x hx => h x (by simp [hx]))

theorem substVar_not_mem (v : Term) (σ : List Asgnment) (h : ∀ a ∈ σ, a.var ≠ v) :
    substVar v σ = v := by
  have := substVar_append_of_not_mem v σ [] h
  simpa [substVar] using this

theorem substVar_mem (v : Term) (σ : List Asgnment) (h : ∃ a ∈ σ, a.var = v) :
    ∃ a ∈ σ, a.var = v ∧ substVar v σ = a.val := by
  induction σ with
  | nil => simp at h
  | cons a σ ih =>
    simp only [substVar]
    by_cases hc : v = a.var
    · exact ⟨a, by simp, hc.symm, by simp [hc]⟩
    · obtain ⟨x, hx, hxv⟩ := h
      rcases List.mem_cons.1 hx with rfl | hx
      · exact absurd hxv.symm hc
      · obtain ⟨y, hy, h1, h2⟩ := ih ⟨x, hx, hxv⟩
        refine ⟨y, by simp [hy], h1, ?_⟩
        rw [if_neg (by simpa [checkEqTerm_iff] using hc), h2]

theorem checkAssigned_iff (v : Term) (σ : List Asgnment) :
    checkAssigned v σ = true ↔ ∃ a ∈ σ, a.var = v := by
  simp [checkAssigned, checkEqTerm_iff]

theorem checkSameVal_iff (v b : Term) (σ : List Asgnment) :
    checkSameVal v b σ = true ↔ (∃ a ∈ σ, a.var = v) ∧ substVar v σ = b := by
  induction σ with
  | nil => simp [checkSameVal]
  | cons a σ ih =>
    simp only [checkSameVal, substVar]
    by_cases hc : a.var = v
    · subst hc; simp [checkEqTerm_iff]
    · have hc' : ¬ v = a.var := fun e => hc e.symm
      rw [if_neg (by simpa [checkEqTerm_iff] using hc), ih,
        if_neg (by simpa [checkEqTerm_iff] using hc')]
      simp [hc]

/-- keys of the binding list are pairwise different -/
def KeysNodup (σ : List Asgnment) : Prop := (σ.map (·.var)).Nodup

/-- What a successful run of `unify2 a b` from `σ` to `σ'` guarantees. -/
structure UnifyOk (σ σ' : List Asgnment) (avars : Term → Prop) (bsub : Term → Prop) : Prop where
  prefix_ : ∃ δ, σ' = σ ++ δ ∧ ∀ x ∈ δ, IsVar x.var ∧ avars x.var ∧ ¬ IsVar x.val ∧ bsub x.val
  nodup : KeysNodup σ → KeysNodup σ'

theorem UnifyOk.refl (σ : List Asgnment) (p q : Term → Prop) : UnifyOk σ σ p q :=
  ⟨⟨[], by simp⟩, id⟩

theorem UnifyOk.trans {σ1 σ2 σ3 : List Asgnment} {p1 p2 p q1 q2 q : Term → Prop}
    (h1 : UnifyOk σ1 σ2 p1 q1) (h2 : UnifyOk σ2 σ3 p2 q2)
    (hp1 : ∀ x, p1 x → p x) (hp2 : ∀ x, p2 x → p x)
    (hq1 : ∀ x, q1 x → q x) (hq2 : ∀ x, q2 x → q x) : UnifyOk σ1 σ3 p q := by
  obtain ⟨⟨δ1, e1, d1⟩, n1⟩ := h1
  obtain ⟨⟨δ2, e2, d2⟩, n2⟩ := h2
  refine ⟨⟨δ1 ++ δ2, by rw [e2, e1]; simp, ?_⟩, fun h => n2 (n1 h)⟩
  intro x hx
  rcases List.mem_append.1 hx with hx | hx
  · obtain ⟨a, b, c, d⟩ := d1 x hx; exact ⟨a, hp1 _ b, c, hq1 _ d⟩
  · obtain ⟨a, b, c, d⟩ := d2 x hx; exact ⟨a, hp2 _ b, c, hq2 _ d⟩

theorem UnifyOk.mono {σ1 σ2 : List Asgnment} {p1 p q1 q : Term → Prop}
    (h1 : UnifyOk σ1 σ2 p1 q1)
    (hp1 : ∀ x, p1 x → p x) (hq1 : ∀ x, q1 x → q x) : UnifyOk σ1 σ2 p q :=
  h1.trans (UnifyOk.refl σ2 p q) hp1 (fun _ h => h) hq1 (fun _ h => h)

theorem UnifyOk.subst_prefix {σ σ' : List Asgnment} {p q : Term → Prop} (h : UnifyOk σ σ' p q) :
    σ <+: σ' := by
  obtain ⟨⟨δ, e, _⟩, _⟩ := h; exact ⟨δ, e.symm⟩

/-- Full soundness package of `unify2`. -/
def Sound (a b : Term) : Prop := ∀ σ σ', unify2 a b σ = some σ' →
  UnifyOk σ σ' (fun x => IsSubterm x a) (fun x => IsSubterm x b) ∧
  ∀ τ, σ' <+: τ → unifySubst τ a = b

theorem unifyVar_eq (a b : Term) (σ : List Asgnment) :
    unifyVar a b σ = if IsVar b then none else
      if checkAssigned a σ then (if checkSameVal a b σ then some σ else none)
      else some (σ ++ [⟨a, b⟩]) := by
  cases b <;> simp [unifyVar, IsVar]

theorem unifyVar_sound {a b : Term} (ha : IsVar a) {σ σ' : List Asgnment}
    (h : unifyVar a b σ = some σ') :
    UnifyOk σ σ' (fun x => IsSubterm x a) (fun x => IsSubterm x b) ∧
    (∀ τ, σ' <+: τ → substVar a τ = b) := by
  rw [unifyVar_eq] at h
  split at h
  · cases h
  · rename_i hb
    split at h
    · rename_i hasg
      split at h
      · rename_i hsame
        cases h
        rw [checkSameVal_iff] at hsame
        refine ⟨UnifyOk.refl _ _ _, ?_⟩
        rintro τ ⟨δ, rfl⟩
        rw [substVar_append_of_mem _ _ _ hsame.1]; exact hsame.2
      · cases h
    · rename_i hna
      cases h
      have hna' : ∀ x ∈ σ, x.var ≠ a := by
        intro x hx e; exact hna ((checkAssigned_iff a σ).2 ⟨x, hx, e⟩)
      refine ⟨⟨⟨[⟨a, b⟩], rfl, ?_⟩, ?_⟩, ?_⟩
      · intro x hx; simp at hx; subst hx
        exact ⟨ha, .refl _, hb, .refl _⟩
      · intro hk
        unfold KeysNodup at *
        rw [List.map_append, List.nodup_append]
        refine ⟨hk, by simp, ?_⟩
        intro y hy z hz
        simp at hz; subst hz
        obtain ⟨x, hx, rfl⟩ := List.mem_map.1 hy
        exact hna' x hx
      · rintro τ ⟨δ, rfl⟩
        rw [List.append_assoc, substVar_append_of_not_mem _ _ _ hna']
        simp [substVar]

theorem unify2L_sound (as : List Term) (ih : ∀ a ∈ as, ∀ b, Sound a b) :
    ∀ bs σ σ', as.length = bs.length → unify2L as bs σ = some σ' →
      UnifyOk σ σ' (fun x => ∃ a ∈ as, IsSubterm x a) (fun x => ∃ b ∈ bs, IsSubterm x b) ∧
      ∀ τ, σ' <+: τ → as.map (unifySubst τ) = bs := by
  induction as with
  | nil =>
    intro bs σ σ' hl h
    cases bs with
    | nil => simp [unify2L] at h; subst h; exact ⟨UnifyOk.refl _ _ _, by simp⟩
    | cons => simp at hl
  | cons a as iha =>
    intro bs σ σ' hl h
    cases bs with
    | nil => simp at hl
    | cons b bs =>
      simp only [unify2L, Option.bind_eq_bind, Option.bind_eq_some_iff] at h
      obtain ⟨σ1, h1, h2⟩ := h
      obtain ⟨o1, s1⟩ := ih a (by simp) b σ σ1 h1
      obtain ⟨o2, s2⟩ := iha (fun a ha => ih a (by simp [ha])) bs σ1 σ' (by simpa using hl) h2
      refine ⟨o1.trans o2 ?_ ?_ ?_ ?_, ?_⟩
      · exact fun x hx => ⟨a, by simp, hx⟩
      · rintro x ⟨c, hc, hx⟩; exact ⟨c, by simp [hc], hx⟩
      · exact fun x hx => ⟨b, by simp, hx⟩
      · rintro x ⟨c, hc, hx⟩; exact ⟨c, by simp [hc], hx⟩
      · intro τ hτ
        simp only [List.map_cons, List.cons.injEq]
        exact ⟨s1 τ (o2.subst_prefix.trans hτ), s2 τ hτ⟩

theorem unify2_list_case {as : List Term} (ih : ∀ a ∈ as, ∀ b, Sound a b)
    {bs : List Term} {σ σ' : List Asgnment}
    (h : (if as.length == bs.length then unify2L as bs σ else none) = some σ') :
    UnifyOk σ σ' (fun x => ∃ a ∈ as, IsSubterm x a) (fun x => ∃ b ∈ bs, IsSubterm x b) ∧
      ∀ τ, σ' <+: τ → as.map (unifySubst τ) = bs := by
  split at h
  · rename_i hl
    exact unify2L_sound as ih bs σ σ' (by simpa using hl) h
  · cases h

theorem unify2_sound (a : Term) : ∀ b, Sound a b := by
  induction a using Term.ind with
  | qvar n | depvar n | indepvar n =>
    intro b σ σ' h
    simp only [unify2] at h
    obtain ⟨h1, h2⟩ := unifyVar_sound (by simp [IsVar]) h
    exact ⟨h1, by simpa [unifySubst] using h2⟩
  | name n =>
    intro b σ σ' h
    cases b <;> simp [unify2] at h
    obtain ⟨h1, rfl⟩ := h
    exact ⟨UnifyOk.refl _ _ _, by simp [unifySubst, h1]⟩
  | neg t ih =>
    intro b σ σ' h
    cases b <;> simp only [unify2, reduceCtorEq] at h
    rename_i t'
    obtain ⟨h1, h2⟩ := ih t' σ σ' h
    refine ⟨h1.mono ?_ ?_, ?_⟩
    · exact fun x hx => .inside (by simp [parts]) hx
    · exact fun x hx => .inside (by simp [parts]) hx
    · intro τ hτ; simp [unifySubst, h2 τ hτ]
  | stmt c s p ihs ihp =>
    intro b σ σ' h
    cases b <;> simp only [unify2, reduceCtorEq] at h
    rename_i c' s' p'
    split at h
    · rename_i hc
      simp only [Option.bind_eq_bind, Option.bind_eq_some_iff] at h
      obtain ⟨σ1, h1, h2⟩ := h
      obtain ⟨o1, s1⟩ := ihs s' σ σ1 h1
      obtain ⟨o2, s2⟩ := ihp p' σ1 σ' h2
      refine ⟨o1.trans o2 ?_ ?_ ?_ ?_, ?_⟩
      · exact fun x hx => .inside (by simp [parts]) hx
      · exact fun x hx => .inside (c := p) (by simp [parts]) hx
      · exact fun x hx => .inside (by simp [parts]) hx
      · exact fun x hx => .inside (c := p') (by simp [parts]) hx
      · intro τ hτ
        simp [unifySubst, s1 τ (o2.subst_prefix.trans hτ), s2 τ hτ, eq_of_beq hc]
    · cases h
  | img r i ts ihr ihts =>
    intro b σ σ' h
    cases b <;> simp only [unify2, reduceCtorEq] at h
    rename_i r' i' ts'
    split at h
    · rename_i hc
      simp only [Option.bind_eq_bind, Option.bind_eq_some_iff] at h
      obtain ⟨σ1, h1, h2⟩ := h
      obtain ⟨o1, s1⟩ := ihr r' σ σ1 h1
      obtain ⟨o2, s2⟩ := unify2_list_case ihts h2
      refine ⟨o1.trans o2 ?_ ?_ ?_ ?_, ?_⟩
      · exact fun x hx => .inside (by simp [parts]) hx
      · rintro x ⟨c, hc, hx⟩; exact .inside (by simp [parts, hc]) hx
      · exact fun x hx => .inside (by simp [parts]) hx
      · rintro x ⟨c, hc, hx⟩; exact .inside (by simp [parts, hc]) hx
      · intro τ hτ
        simp [unifySubst, unifySubstL_eq_map, s1 τ (o2.subst_prefix.trans hτ), s2 τ hτ,
          eq_of_beq hc]
    · cases h
  | seq ts ih | setInt ts ih | setExt ts ih | conj ts ih | prod ts ih
  | intInt ts ih | extInt ts ih | par ts ih =>
    intro b σ σ' h
    cases b <;> simp only [unify2, reduceCtorEq] at h
    obtain ⟨o, s⟩ := unify2_list_case ih h
    refine ⟨o.mono ?_ ?_, ?_⟩
    · rintro x ⟨c, hc, hx⟩; exact .inside (by simp [parts, hc]) hx
    · rintro x ⟨c, hc, hx⟩; exact .inside (by simp [parts, hc]) hx
    · intro τ hτ; simp [unifySubst, unifySubstL_eq_map, s τ hτ]

/-! ## completeness -/

/-- every binding agrees with `θ` -/
def Agrees (σ : List Asgnment) (θ : Term → Term) : Prop := ∀ x ∈ σ, θ x.var = x.val

def Complete (a : Term) : Prop := ∀ (θ : Term → Term) (b : Term) σ, Agrees σ θ →
  (∀ v, IsVar v → IsSubterm v b → False) → inst θ a = b →
  ∃ σ', unify2 a b σ = some σ' ∧ Agrees σ' θ ∧ σ <+: σ' ∧
    ∀ v, IsVar v → IsSubterm v a → ∃ x ∈ σ', x.var = v

theorem unifyVar_complete {a b : Term} {θ : Term → Term} {σ : List Asgnment} (hσ : Agrees σ θ)
    (hb : ¬ IsVar b) (h : θ a = b) (ha : IsVar a):
    ∃ σ', unifyVar a b σ = some σ' ∧ Agrees σ' θ ∧ σ <+: σ' ∧
      ∀ v, IsVar v → IsSubterm v a → ∃ x ∈ σ', x.var = v := by
  have hsub : ∀ v, IsSubterm v a → v = a := by
    intro v hv; rw [isSubterm_iff] at hv
    rcases hv with h | ⟨c, hc, _⟩
    · exact h
    · cases a <;> simp [IsVar, parts] at ha hc
  rw [unifyVar_eq, if_neg hb]
  split
  · rename_i hasg
    have hm := (checkAssigned_iff _ _).1 hasg
    obtain ⟨x, hx, hxv, hxs⟩ := substVar_mem a σ hm
    have : checkSameVal a b σ = true := by
      rw [checkSameVal_iff]; refine ⟨hm, ?_⟩
      rw [hxs, ← hσ x hx, hxv, h]
    rw [if_pos this]
    exact ⟨σ, rfl, hσ, List.prefix_rfl, fun v _ hv => by rw [hsub v hv]; exact hm⟩
  · refine ⟨_, rfl, ?_, ⟨_, rfl⟩, ?_⟩
    · intro x hx
      rcases List.mem_append.1 hx with hx | hx
      · exact hσ x hx
      · simp at hx; subst hx; exact h
    · intro v _ hv; rw [hsub v hv]; exact ⟨⟨a, b⟩, by simp, rfl⟩

theorem unify2L_complete (as : List Term) (ih : ∀ a ∈ as, Complete a) (θ : Term → Term) :
    ∀ bs σ, Agrees σ θ → (∀ b ∈ bs, ∀ v, IsVar v → IsSubterm v b → False) →
      as.map (inst θ) = bs →
      ∃ σ', unify2L as bs σ = some σ' ∧ Agrees σ' θ ∧ σ <+: σ' ∧
        ∀ a ∈ as, ∀ v, IsVar v → IsSubterm v a → ∃ x ∈ σ', x.var = v := by
  induction as with
  | nil => intro bs σ hσ _ h; simp at h; subst h; exact ⟨σ, by simp [unify2L], hσ, List.prefix_rfl, by simp⟩
  | cons a as iha =>
    intro bs σ hσ hg h
    subst h
    obtain ⟨σ1, e1, g1, p1, c1⟩ := ih a (by simp) θ _ σ hσ (hg _ (by simp)) rfl
    obtain ⟨σ2, e2, g2, p2, c2⟩ := iha (fun a ha => ih a (by simp [ha])) (as.map (inst θ)) σ1 g1
      (fun b hb => hg b (by simp at hb ⊢; exact Or.inr hb)) rfl
    refine ⟨σ2, by simp [unify2L, e1, e2], g2, p1.trans p2, ?_⟩
    intro a' ha' v hv hva
    rcases List.mem_cons.1 ha' with rfl | ha'
    · obtain ⟨x, hx, e⟩ := c1 v hv hva; exact ⟨x, p2.subset hx, e⟩
    · exact c2 a' ha' v hv hva

theorem isVar_part {v t : Term} (hv : IsVar v) (ht : ¬ IsVar t) (h : IsSubterm v t) :
    ∃ c ∈ parts t, IsSubterm v c := by
  rw [isSubterm_iff] at h
  rcases h with rfl | h
  · exact absurd hv ht
  · exact h

theorem unify2_complete (a : Term) : Complete a := by
  induction a using Term.ind with
  | qvar n | depvar n | indepvar n =>
    intro θ b σ hσ hg h
    simp only [unify2]
    exact unifyVar_complete hσ (fun hb => hg b hb (.refl b)) (by simpa [inst] using h) (by simp [IsVar])
  | name n =>
    intro θ b σ hσ hg h
    simp only [inst] at h; subst h
    refine ⟨σ, by simp [unify2], hσ, List.prefix_rfl, ?_⟩
    intro v hv hva
    obtain ⟨c, hc, _⟩ := isVar_part hv (by simp [IsVar]) hva
    simp [parts] at hc
  | neg t ih =>
    intro θ b σ hσ hg h
    simp only [inst] at h; subst h
    obtain ⟨σ1, e1, g1, p1, c1⟩ := ih θ _ σ hσ
      (fun v hv hs => hg v hv (.inside (by simp [parts]) hs)) rfl
    refine ⟨σ1, by simp [unify2, e1], g1, p1, ?_⟩
    intro v hv hva
    obtain ⟨c, hc, hvc⟩ := isVar_part hv (by simp [IsVar]) hva
    simp [parts] at hc; subst hc; exact c1 v hv hvc
  | stmt c s p ihs ihp =>
    intro θ b σ hσ hg h
    simp only [inst] at h; subst h
    obtain ⟨σ1, e1, g1, p1, c1⟩ := ihs θ _ σ hσ
      (fun v hv hs => hg v hv (.inside (by simp [parts]) hs)) rfl
    obtain ⟨σ2, e2, g2, p2, c2⟩ := ihp θ _ σ1 g1
      (fun v hv hs => hg v hv (.inside (c := inst θ p) (by simp [parts]) hs)) rfl
    refine ⟨σ2, by simp [unify2, e1, e2], g2, p1.trans p2, ?_⟩
    intro v hv hva
    obtain ⟨c, hc, hvc⟩ := isVar_part hv (by simp [IsVar]) hva
    simp [parts] at hc
    rcases hc with rfl | rfl
    · obtain ⟨x, hx, e⟩ := c1 v hv hvc; exact ⟨x, p2.subset hx, e⟩
    · exact c2 v hv hvc
  | img r i ts ihr ihts =>
    intro θ b σ hσ hg h
    simp only [inst, instL_eq_map] at h; subst h
    obtain ⟨σ1, e1, g1, p1, c1⟩ := ihr θ _ σ hσ
      (fun v hv hs => hg v hv (.inside (by simp [parts]) hs)) rfl
    obtain ⟨σ2, e2, g2, p2, c2⟩ := unify2L_complete ts ihts θ _ σ1 g1
      (fun b hb v hv hs => hg v hv (.inside (c := b) (List.mem_cons_of_mem _ hb) hs)) rfl
    refine ⟨σ2, by simp [unify2, e1, e2], g2, p1.trans p2, ?_⟩
    intro v hv hva
    obtain ⟨c, hc, hvc⟩ := isVar_part hv (by simp [IsVar]) hva
    simp only [parts, List.mem_cons] at hc
    rcases hc with rfl | hc
    · obtain ⟨x, hx, e⟩ := c1 v hv hvc; exact ⟨x, p2.subset hx, e⟩
    · exact c2 c hc v hv hvc
  | seq ts ih | setInt ts ih | setExt ts ih | conj ts ih | prod ts ih
  | intInt ts ih | extInt ts ih | par ts ih =>
    intro θ b σ hσ hg h
    simp only [inst, instL_eq_map] at h; subst h
    obtain ⟨σ2, e2, g2, p2, c2⟩ := unify2L_complete ts ih θ (ts.map (inst θ)) σ hσ
      (fun b hb v hv hs => hg v hv (.inside (c := b) hb hs)) rfl
    refine ⟨σ2, by simp [unify2, e2], g2, p2, ?_⟩
    intro v hv hva
    obtain ⟨c, hc, hvc⟩ := isVar_part hv (by simp [IsVar]) hva
    exact c2 c hc v hv hvc

end Nar
