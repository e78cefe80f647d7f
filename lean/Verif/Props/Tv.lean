import Verif.Lemmas.Tv
import Mathlib.Tactic.NormNum
/-! # Property theorems about truth values (C07, C08, C09) -/
namespace Nar.Props
open Nar Tv

/-- C07: one application of any truth function keeps truth values in range. -/
theorem C07_truth_functions_in_range (a b : Tv) (ha : InRange a) (hb : InRange b) :
    InRange (ded a b) ∧ InRange (dedGoal a b) ∧ InRange (abd a b) ∧ InRange (ind a b) ∧
    InRange (comp a b) ∧ InRange (int a b) ∧ InRange (neg a) ∧
    (0 ≤ calcExp a ∧ calcExp a ≤ 1) :=
  ⟨ded_range ha hb, dedGoal_range ha hb, (abd_range ha hb).1, (abd_range hb ha).1,
    (comp_range ha hb).1, (int_range ha hb).1, neg_range ha, exp_range ha⟩

/-- C07: revision of truth values in range with confidence below one is defined and in range with
confidence below one. -/
theorem C07_revision_in_range (a b : Tv) (ha : Sane a) (hb : Sane b) :
    ∃ r, rev a b = some r ∧ Sane r := rev_sane ha hb

/-- two opposite opinions of different strength -/
example : ∃ r, rev ⟨1, 9/10⟩ ⟨0, 1/2⟩ = some r ∧ Sane r :=
  C07_revision_in_range _ _ (by unfold Sane; decide +kernel) (by unfold Sane; decide +kernel)

/-- C07: revision with a premise of confidence exactly one has no numeric result. -/
theorem C07_revision_undefined_at_one (a b : Tv) : rev a b = none ↔ a.c = 1 ∨ b.c = 1 := by
  unfold rev c2w
  by_cases h1 : a.c = 1
  · simp [h1]
  · by_cases h2 : b.c = 1
    · simp [h2]
    · have e1 : ¬ (1 - a.c = 0) := fun e => h1 (by linarith)
      have e2 : ¬ (1 - b.c = 0) := fun e => h2 (by linarith)
      simp [h1, h2, e1, e2]

/-- C07: derivation chains of any length stay in range, with confidence below one. -/
theorem C07_chains_in_range (given : Tv → Prop) (hg : ∀ a, given a → Sane a) (r : Tv)
    (h : Derivable given r) : Sane r := by
  induction h with
  | base h => exact hg _ h
  | ded _ _ ha hb =>
    exact sane_of_range (ded_range ha.range hb.range)
      (lt_of_le_of_lt (ded_c_le_left ha.range hb.range) ha.2.2.2)
  | dedGoal _ _ ha hb =>
    exact sane_of_range (dedGoal_range ha.range hb.range)
      (lt_of_le_of_lt (dedGoal_c_le ha.range hb.range).1 ha.2.2.2)
  | abd _ _ ha hb =>
    have := abd_range ha.range hb.range
    exact sane_of_range this.1 (lt_of_le_of_lt this.2.2.1 ha.2.2.2)
  | ind _ _ ha hb =>
    have := abd_range hb.range ha.range
    exact sane_of_range this.1 (lt_of_le_of_lt this.2.2.1 hb.2.2.2)
  | comp _ _ ha hb =>
    have := comp_range ha.range hb.range
    exact sane_of_range this.1 (lt_of_le_of_lt this.2.2.1 ha.2.2.2)
  | int _ _ ha hb =>
    have := int_range ha.range hb.range
    exact sane_of_range this.1 (lt_of_le_of_lt this.2.1 ha.2.2.2)
  | neg _ ha => exact sane_of_range (neg_range ha.range) ha.2.2.2
  | rev _ _ h ha hb =>
    obtain ⟨r', e, hr⟩ := rev_sane ha hb
    rw [h] at e; cases e; exact hr

/-- C07: folding a whole vector by revision stays in range. -/
theorem C07_fold_in_range (v : List Tv) (h : ∀ a ∈ v, Sane a) : ∃ r, foldVec v = some r ∧ Sane r := by
  unfold foldVec
  have key : ∀ (v : List Tv) (acc : Tv), Sane acc → (∀ a ∈ v, Sane a) →
      ∃ r, v.foldlM rev acc = some r ∧ Sane r := by
    intro v
    induction v with
    | nil => intro acc ha _; exact ⟨acc, rfl, ha⟩
    | cons x v ih =>
      intro acc ha hv
      obtain ⟨r, e, hr⟩ := rev_sane ha (hv x (by simp))
      obtain ⟨r2, e2, hr2⟩ := ih r hr (fun a h => hv a (by simp [h]))
      exact ⟨r2, by simp [List.foldlM_cons, e, e2], hr2⟩
  exact key v ⟨0, 0⟩ ⟨by norm_num, by norm_num, by norm_num, by norm_num⟩ h

/-- four opinions, one of them without evidence -/
example : ∃ r, foldVec [⟨1, 9/10⟩, ⟨0, 1/2⟩, ⟨1, 0⟩, ⟨1/3, 99/100⟩] = some r ∧ Sane r := by
  refine C07_fold_in_range _ ?_
  intro a ha
  simp only [List.mem_cons, List.not_mem_nil, or_false] at ha
  rcases ha with rfl | rfl | rfl | rfl <;> (unfold Sane; decide +kernel)

example : Sane ⟨9/10, 8/10⟩ ∧ Sane ⟨1, 99/100⟩ ∧ InRange ⟨1, 1⟩ ∧
    Derivable Sane (ded (neg ⟨9/10, 8/10⟩) ⟨1, 99/100⟩) := by
  have h1 : Sane ⟨9/10, 8/10⟩ := by decide +kernel
  have h2 : Sane ⟨1, 99/100⟩ := by decide +kernel
  exact ⟨h1, h2, by decide +kernel, .ded (.neg (.base h1)) (.base h2)⟩

/-- C08: revision is commutative. -/
theorem C08_rev_comm (a b : Tv) : rev a b = rev b a := by
  unfold rev c2w
  by_cases h1 : 1 - a.c = 0 <;> by_cases h2 : 1 - b.c = 0 <;> simp [h1, h2]
  rw [add_comm (b.c / (1 - b.c)) (a.c / (1 - a.c)),
    add_comm (b.c / (1 - b.c) * b.f) (a.c / (1 - a.c) * a.f)]
  exact ⟨rfl, rfl⟩

/-- C08: revision is associative. -/
theorem C08_rev_assoc (a b c : Tv) (ha : Sane a) (hb : Sane b) (hc : Sane c) :
    (rev a b).bind (fun ab => rev ab c) = (rev b c).bind (fun bc => rev a bc) := by
  have wa := wt_nonneg ha.2.2.1 ha.2.2.2
  have wb := wt_nonneg hb.2.2.1 hb.2.2.2
  have wc := wt_nonneg hc.2.2.1 hc.2.2.2
  rw [rev_eq ha.2.2.2 hb.2.2.2, rev_eq hb.2.2.2 hc.2.2.2]
  simp only [Option.bind_some]
  have wab : 0 ≤ wt a.c + wt b.c := by linarith
  have wbc : 0 ≤ wt b.c + wt c.c := by linarith
  rw [rev_eq (w2c_lt_one wab) hc.2.2.2, rev_eq ha.2.2.2 (w2c_lt_one wbc)]
  dsimp only
  rw [wt_w2c wab, wt_w2c wbc]
  have e : wt a.c + wt b.c + wt c.c = wt a.c + (wt b.c + wt c.c) := by ring
  rw [e]
  congr 2
  by_cases hp : wt a.c + (wt b.c + wt c.c) > 0
  · rw [if_pos hp, if_pos hp]
    congr 1
    have key : ∀ x y f g : Rat, 0 ≤ x → 0 ≤ y →
        (x + y) * (if x + y > 0 then (x * f + y * g) / (x + y) else 0) = x * f + y * g := by
      intro x y f g hx hy
      split
      · rename_i h; field_simp
      · have hx0 : x = 0 := by linarith
        have hy0 : y = 0 := by linarith
        simp [hx0, hy0]
    rw [key _ _ _ _ wa wb, key _ _ _ _ wb wc]
    ring
  · rw [if_neg hp, if_neg hp]

/-- three opinions with different frequencies and confidences -/
example : (rev ⟨1, 9/10⟩ ⟨0, 1/2⟩).bind (fun ab => rev ab ⟨1/3, 3/4⟩) =
    (rev ⟨0, 1/2⟩ ⟨1/3, 3/4⟩).bind (fun bc => rev ⟨1, 9/10⟩ bc) :=
  C08_rev_assoc _ _ _ (by unfold Sane; decide +kernel) (by unfold Sane; decide +kernel)
    (by unfold Sane; decide +kernel)

/-- C08: confidence of a revision is at least that of each input, and strictly more than the one
whose partner carries evidence. -/
theorem C08_rev_confidence_grows (a b r : Tv) (ha : Sane a) (hb : Sane b) (h : rev a b = some r) :
    a.c ≤ r.c ∧ b.c ≤ r.c ∧ (0 < b.c → a.c < r.c) ∧ (0 < a.c → b.c < r.c) := by
  have wa := wt_nonneg ha.2.2.1 ha.2.2.2
  have wb := wt_nonneg hb.2.2.1 hb.2.2.2
  rw [rev_eq ha.2.2.2 hb.2.2.2] at h
  cases h
  dsimp only
  have ea := w2c_wt ha.2.2.2
  have eb := w2c_wt hb.2.2.2
  refine ⟨?_, ?_, fun hp => ?_, fun hp => ?_⟩
  · conv_lhs => rw [← ea]
    exact w2c_mono wa (by linarith)
  · conv_lhs => rw [← eb]
    exact w2c_mono wb (by linarith)
  · conv_lhs => rw [← ea]
    exact w2c_strictMono wa (by linarith [wt_pos hp hb.2.2.2])
  · conv_lhs => rw [← eb]
    exact w2c_strictMono wb (by linarith [wt_pos hp ha.2.2.2])

/-- nine observations against one: `10/11` is more than `9/10` and more than `1/2` -/
example : (9/10 : Rat) < 10/11 ∧ (1/2 : Rat) < 10/11 :=
  have h := C08_rev_confidence_grows ⟨1, 9/10⟩ ⟨0, 1/2⟩ ⟨9/10, 10/11⟩ (by unfold Sane; decide +kernel)
    (by unfold Sane; decide +kernel) (by decide +kernel)
  ⟨h.2.2.1 (by decide +kernel), h.2.2.2 (by decide +kernel)⟩

/-- C08: the pooled amount of evidence is the sum of the amounts (in evidence counts, where a
confidence `c` stands for `n` observations with `c = n/(n+1)`). -/
theorem C08_rev_adds_evidence (m n : Rat) (f g : Rat) (hm : 0 ≤ m) (hn : 0 ≤ n) (r : Tv)
    (h : rev ⟨f, m / (m + 1)⟩ ⟨g, n / (n + 1)⟩ = some r) :
    r.c = (m + n) / (m + n + 1) ∧ (m + n) * r.f = m * f + n * g := by
  have e1 : m / (m + 1) = w2c m := rfl
  have e2 : n / (n + 1) = w2c n := rfl
  rw [e1, e2, rev_eq (w2c_lt_one hm) (w2c_lt_one hn)] at h
  dsimp only at h
  rw [wt_w2c hm, wt_w2c hn] at h
  cases h
  refine ⟨rfl, ?_⟩
  dsimp only
  split
  · rename_i hp; field_simp
  · have hx0 : m = 0 := by linarith
    have hy0 : n = 0 := by linarith
    simp [hx0, hy0]

/-- nine positive observations and one negative one are ten observations, nine of them positive -/
example : (10/11 : Rat) = (9 + 1) / (9 + 1 + 1) ∧ (9 + 1) * (9/10 : Rat) = 9 * 1 + 1 * 0 :=
  C08_rev_adds_evidence 9 1 1 0 (by norm_num) (by norm_num) ⟨9/10, 10/11⟩ (by decide +kernel)

/-- C08: the frequency of a revision lies between the input frequencies as soon as one input
carries evidence. -/
theorem C08_rev_frequency_between (a b r : Tv) (ha : Sane a) (hb : Sane b) (h : rev a b = some r)
    (hev : 0 < a.c ∨ 0 < b.c) : min a.f b.f ≤ r.f ∧ r.f ≤ max a.f b.f := by
  have wa := wt_nonneg ha.2.2.1 ha.2.2.2
  have wb := wt_nonneg hb.2.2.1 hb.2.2.2
  rw [rev_eq ha.2.2.2 hb.2.2.2] at h
  cases h
  dsimp only
  have hp : wt a.c + wt b.c > 0 := by
    rcases hev with h | h
    · linarith [wt_pos h ha.2.2.2]
    · linarith [wt_pos h hb.2.2.2]
  rw [if_pos hp]
  constructor
  · rw [le_div_iff₀ hp]
    have h1 := mul_le_mul_of_nonneg_left (min_le_left a.f b.f) wa
    have h2 := mul_le_mul_of_nonneg_left (min_le_right a.f b.f) wb
    nlinarith
  · rw [div_le_iff₀ hp]
    have h1 := mul_le_mul_of_nonneg_left (le_max_left a.f b.f) wa
    have h2 := mul_le_mul_of_nonneg_left (le_max_right a.f b.f) wb
    nlinarith

/-- nine observations against one -/
example : min (1 : Rat) 0 ≤ 9/10 ∧ (9/10 : Rat) ≤ max 1 0 :=
  C08_rev_frequency_between ⟨1, 9/10⟩ ⟨0, 1/2⟩ ⟨9/10, 10/11⟩ (by unfold Sane; decide +kernel)
    (by unfold Sane; decide +kernel) (by decide +kernel) (.inl (by decide +kernel))

/-- C08 (boundary): without any evidence the frequency is set to zero, not kept. -/
theorem C08_rev_without_evidence : rev ⟨1, 0⟩ ⟨1, 0⟩ = some ⟨0, 0⟩ := by decide +kernel

example : rev ⟨1, 9/10⟩ ⟨0, 9/10⟩ = some ⟨1/2, 18/19⟩ ∧ Sane ⟨1, 9/10⟩ ∧ Sane ⟨0, 9/10⟩ := by decide +kernel

/-- C08: pooling a whole list of observations adds up their evidence, whatever the order: `l` lists frequencies
and amounts of evidence. -/
theorem C08_fold_adds_evidence (l : List (Rat × Rat)) (hl : ∀ p ∈ l, 0 ≤ p.2) (r : Tv)
    (h : foldVec (l.map (fun p => ⟨p.1, p.2 / (p.2 + 1)⟩)) = some r) :
    r.c = (l.map (·.2)).sum / ((l.map (·.2)).sum + 1) ∧
    (l.map (·.2)).sum * r.f = (l.map (fun p => p.2 * p.1)).sum := by
  have key : ∀ (l : List (Rat × Rat)) (n g : Rat), 0 ≤ n → (∀ p ∈ l, 0 ≤ p.2) → ∀ r,
      (l.map (fun p => (⟨p.1, p.2 / (p.2 + 1)⟩ : Tv))).foldlM rev ⟨g, n / (n + 1)⟩ = some r →
      r.c = (n + (l.map (·.2)).sum) / (n + (l.map (·.2)).sum + 1) ∧
      (n + (l.map (·.2)).sum) * r.f = n * g + (l.map (fun p => p.2 * p.1)).sum := by
    intro l
    induction l with
    | nil =>
      intro n g _ _ r h
      simp only [List.map_nil, List.foldlM_nil] at h
      cases h
      simp
    | cons p l ih =>
      intro n g hn hl r h
      simp only [List.map_cons, List.foldlM_cons] at h
      cases h1 : rev ⟨g, n / (n + 1)⟩ ⟨p.1, p.2 / (p.2 + 1)⟩ with
      | none => rw [h1] at h; cases h
      | some q =>
        rw [h1] at h
        have hp := hl p (by simp)
        obtain ⟨q1, q2⟩ := C08_rev_adds_evidence n p.2 g p.1 hn hp q h1
        have e : q = ⟨q.f, (n + p.2) / (n + p.2 + 1)⟩ := by rw [← q1]
        rw [e] at h
        obtain ⟨r1, r2⟩ := ih (n + p.2) q.f (by linarith) (fun x hx => hl x (by simp [hx])) r h
        simp only [List.map_cons, List.sum_cons, ← add_assoc]
        refine ⟨r1, ?_⟩
        rw [r2, q2]
  have := key l 0 0 (le_refl _) hl r (by simpa [foldVec] using h)
  simpa using this

example : foldVec [⟨1, 1/2⟩, ⟨0, 1/2⟩, ⟨1, 1/2⟩] = some ⟨2/3, 3/4⟩ := by decide +kernel

/-- C09: conclusions are never more confident than the less confident premise. -/
theorem C09_confidence_not_invented (a b : Tv) (ha : InRange a) (hb : InRange b) :
    (ded a b).c ≤ min a.c b.c ∧ (abd a b).c ≤ min a.c b.c ∧ (ind a b).c ≤ min a.c b.c ∧
    (comp a b).c ≤ min a.c b.c ∧ (int a b).c ≤ min a.c b.c ∧ (dedGoal a b).c ≤ min a.c b.c ∧
    (neg a).c = a.c := by
  have hab := abd_range ha hb
  have hba := abd_range hb ha
  have hc := comp_range ha hb
  have hi := int_range ha hb
  have hg := dedGoal_c_le ha hb
  exact ⟨le_min (ded_c_le_left ha hb) (ded_c_le_right ha hb), le_min hab.2.2.1 hab.2.2.2,
    le_min hba.2.2.2 hba.2.2.1, le_min hc.2.2.1 hc.2.2.2, le_min hi.2.1 hi.2.2,
    le_min hg.1 hg.2, rfl⟩

/-- a confident and a less confident premise -/
example : (abd ⟨1, 9/10⟩ ⟨1/2, 3/4⟩).c ≤ min (9/10) (3/4) ∧ (comp ⟨1, 9/10⟩ ⟨1/2, 3/4⟩).c ≤ 1 / 2 :=
  have ha : InRange ⟨1, 9/10⟩ := by unfold InRange; decide +kernel
  have hb : InRange ⟨1/2, 3/4⟩ := by unfold InRange; decide +kernel
  ⟨(C09_confidence_not_invented _ _ ha hb).2.1, (comp_range ha hb).2.1⟩

/-- C09: abduction, induction and comparison are weak: confidence at most one half. -/
theorem C09_weak_rules (a b : Tv) (ha : InRange a) (hb : InRange b) :
    (abd a b).c ≤ 1 / 2 ∧ (ind a b).c ≤ 1 / 2 ∧ (comp a b).c ≤ 1 / 2 :=
  ⟨(abd_range ha hb).2.1, (abd_range hb ha).2.1, (comp_range ha hb).2.1⟩

/-- C09: negation is an involution and mirrors expectation. -/
theorem C09_negation (a : Tv) : neg (neg a) = a ∧ calcExp (neg a) = 1 - calcExp a := by
  constructor
  · cases a; simp [neg]
  · unfold calcExp neg; dsimp only; ring

/-- C09: goal deduction is the more confident of its two readings ("the effect is wanted" and
"the absence of the effect is unwanted"). -/
theorem C09_goal_deduction_picks_stronger (a b : Tv) :
    (dedGoal a b = ded a b ∨ dedGoal a b = neg (ded (neg a) b)) ∧
    (ded a b).c ≤ (dedGoal a b).c ∧ (neg (ded (neg a) b)).c ≤ (dedGoal a b).c := by
  refine ⟨dedGoal_cases a b, ?_⟩
  unfold dedGoal; dsimp only
  split
  · rename_i h; exact ⟨le_refl _, h⟩
  · rename_i h; exact ⟨(not_le.1 h).le, le_refl _⟩

example : dedGoal ⟨0, 9/10⟩ ⟨1, 9/10⟩ = ⟨0, 81/100⟩ ∧ dedGoal ⟨1, 9/10⟩ ⟨1, 9/10⟩ = ⟨1, 81/100⟩ := by
  decide +kernel

/-- C60: deduction and intersection multiply frequencies; deduction keeps confidence only as far as both
premises are true; negation mirrors the frequency; expectation weighs the distance from 1/2 by confidence. -/
theorem C60_strong_rules (a b : Tv) :
    (ded a b).f = a.f * b.f ∧ (ded a b).c = (a.f * b.f) * (a.c * b.c) ∧
    (int a b).f = a.f * b.f ∧ (int a b).c = a.c * b.c ∧
    (neg a).f = 1 - a.f ∧ (neg a).c = a.c ∧
    calcExp a = a.c * a.f + (1 - a.c) * (1 / 2) := by
  refine ⟨rfl, ?_, rfl, rfl, rfl, rfl, ?_⟩
  · unfold ded; ring
  · unfold calcExp; ring

/-- C60: abduction, induction and comparison count evidence.  In abduction the second premise decides how
much evidence there is and the first one how much of it is positive; induction exchanges the roles;
comparison counts what is in at least one of both and what is in both. -/
theorem C60_weak_rules (a b : Tv) :
    (0 < b.f * (a.c * b.c) → abd a b = ofEvidence (a.f * b.f * (a.c * b.c)) (b.f * (a.c * b.c))) ∧
    (0 < a.f * (a.c * b.c) → ind a b = ofEvidence (a.f * b.f * (a.c * b.c)) (a.f * (a.c * b.c))) ∧
    (1 / 100000000 ≤ a.f + b.f - a.f * b.f → 0 < a.c * b.c →
      comp a b = ofEvidence (a.f * b.f * (a.c * b.c)) ((a.f + b.f - a.f * b.f) * (a.c * b.c))) := by
  have key : ∀ x y : Tv, 0 < y.f * (x.c * y.c) →
      abd x y = ofEvidence (x.f * y.f * (x.c * y.c)) (y.f * (x.c * y.c)) := by
    intro x y h
    have e1 : x.f * y.f * (x.c * y.c) / (y.f * (x.c * y.c)) = x.f := by
      rw [mul_assoc x.f, mul_div_assoc, div_self h.ne', mul_one]
    have e2 : y.f * x.c * y.c = y.f * (x.c * y.c) := by ring
    unfold abd ofEvidence w2c
    simp only [e1, e2]
  refine ⟨key a b, ?_, ?_⟩
  · intro h
    have e := key b a (by rw [mul_comm b.c]; exact h)
    rw [mul_comm b.c a.c, mul_comm b.f a.f] at e
    exact e
  · intro h hc
    have e0 : or a.f b.f = a.f + b.f - a.f * b.f := by unfold Tv.or; ring
    have hpos : 0 < a.f + b.f - a.f * b.f := by linarith
    have hn : ¬ (a.f + b.f - a.f * b.f < 1 / 100000000) := by linarith
    unfold comp ofEvidence w2c fabs
    simp only [e0, if_neg (not_lt.2 hpos.le), if_neg hn]
    rw [mul_div_mul_right _ _ hc.ne', ← mul_assoc]

/-- all three premises of the counting rules hold for two ordinary truth values -/
example : ind ⟨1, 9/10⟩ ⟨1/2, 9/10⟩ = ofEvidence (81/200) (81/100) ∧
    comp ⟨1, 9/10⟩ ⟨1/2, 9/10⟩ = ofEvidence (81/200) (81/100) := by
  have h := C60_weak_rules ⟨1, 9/10⟩ ⟨1/2, 9/10⟩
  refine ⟨?_, ?_⟩
  · rw [h.2.1 (by norm_num)]; norm_num
  · rw [h.2.2 (by norm_num) (by norm_num)]; norm_num

/-- C60: without any evidence the weak rules give confidence 0, and comparison of two premises which are
(nearly) always false gives frequency 0. -/
theorem C60_no_evidence (a b : Tv) :
    (b.f * (a.c * b.c) = 0 → (abd a b).c = 0) ∧ (a.f * (a.c * b.c) = 0 → (ind a b).c = 0) ∧
    (a.c * b.c = 0 → (comp a b).c = 0) ∧
    (InRange a → InRange b → a.f + b.f - a.f * b.f < 1 / 100000000 → (comp a b).f = 0) := by
  have key : ∀ x y : Tv, y.f * (x.c * y.c) = 0 → (abd x y).c = 0 := by
    intro x y h
    have : y.f * x.c * y.c = 0 := by rw [mul_assoc]; exact h
    simp [abd, w2c, this]
  refine ⟨key a b, fun h => key b a (by rw [mul_comm b.c]; exact h), ?_, ?_⟩
  · intro h
    have : or a.f b.f * a.c * b.c = 0 := by rw [mul_assoc, h, mul_zero]
    simp [comp, w2c, this]
  · intro ha hb h
    have e0 : or a.f b.f = a.f + b.f - a.f * b.f := by unfold Tv.or; ring
    have h0 : 0 ≤ a.f + b.f - a.f * b.f := by nlinarith [ha.1, ha.2.1, hb.1, hb.2.1, mul_le_mul ha.2.1 hb.2.1 hb.1 (by norm_num : (0:Rat) ≤ 1)]
    unfold comp fabs
    simp only [e0, if_neg (not_lt.2 h0), if_pos h]

/-- nothing is observed of something always false; two such things share nothing -/
example : (abd ⟨1, 9/10⟩ ⟨0, 9/10⟩).c = 0 ∧ (comp ⟨0, 9/10⟩ ⟨0, 3/4⟩).f = 0 :=
  ⟨(C60_no_evidence ⟨1, 9/10⟩ ⟨0, 9/10⟩).1 (by norm_num),
    (C60_no_evidence ⟨0, 9/10⟩ ⟨0, 3/4⟩).2.2.2 (by unfold InRange; decide +kernel) (by unfold InRange; decide +kernel)
      (by norm_num)⟩

example : abd ⟨1, 9/10⟩ ⟨1/2, 9/10⟩ = ⟨1, 81/281⟩ ∧ comp ⟨1/2, 9/10⟩ ⟨1/2, 9/10⟩ = ⟨1/3, 243/643⟩ := by decide +kernel

end Nar.Props
