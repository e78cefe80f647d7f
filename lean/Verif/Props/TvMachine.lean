import Verif.Lemmas.Rnd64
import Verif.Lemmas.TvNear
/-! # Property theorems about truth values in machine arithmetic (C91, C92) -/
namespace Nar.Props
open Nar Tv

/-- C91: the rounding of `f64` has all the properties used. -/
theorem C91_f64 : Machine rnd64 := machine_rnd64

/-- C91: one application of any truth function keeps truth values in range, whatever the rounding, and the results are machine
numbers again. -/
theorem C91_truth_functions_in_range (rnd : Rat → Rat) (M : Machine rnd) (a b : Tv) (ha : InRange a) (hb : InRange b)
    (na : TvM.IsTv rnd a) (nb : TvM.IsTv rnd b) :
    (InRange (TvM.ded rnd a b) ∧ TvM.IsTv rnd (TvM.ded rnd a b)) ∧
    (InRange (TvM.dedGoal rnd a b) ∧ TvM.IsTv rnd (TvM.dedGoal rnd a b)) ∧
    (InRange (TvM.abd rnd a b) ∧ TvM.IsTv rnd (TvM.abd rnd a b)) ∧
    (InRange (TvM.ind rnd a b) ∧ TvM.IsTv rnd (TvM.ind rnd a b)) ∧
    (InRange (TvM.comp rnd a b) ∧ TvM.IsTv rnd (TvM.comp rnd a b)) ∧
    (InRange (TvM.int rnd a b) ∧ TvM.IsTv rnd (TvM.int rnd a b)) ∧
    (InRange (TvM.neg rnd a) ∧ TvM.IsTv rnd (TvM.neg rnd a)) ∧
    (0 ≤ TvM.calcExp rnd a ∧ TvM.calcExp rnd a ≤ 1) := by
  have h1 := TvM.ded_range M ha hb na nb
  have h2 := TvM.dedGoal_range M ha hb na nb
  have h3 := TvM.abd_range M ha hb na nb
  have h4 := TvM.abd_range M hb ha nb na
  have h5 := TvM.comp_range M ha hb na nb
  have h6 := TvM.int_range M ha hb na nb
  have h7 := TvM.neg_range M ha na
  exact ⟨⟨h1.1, h1.2.1⟩, ⟨h2.1, h2.2.1⟩, ⟨h3.1, h3.2.1⟩, ⟨h4.1, h4.2.1⟩, ⟨h5.1, h5.2.1⟩, ⟨h6.1, h6.2.1⟩, ⟨h7.1, h7.2.1⟩,
    TvM.exp_range M ha⟩

/-- C91: revision is defined exactly when no confidence is one, and its result is in range. -/
theorem C91_revision (rnd : Rat → Rat) (M : Machine rnd) (a b : Tv) (ha : InRange a) (hb : InRange b)
    (na : TvM.IsTv rnd a) (nb : TvM.IsTv rnd b) :
    (TvM.rev rnd a b = none ↔ a.c = 1 ∨ b.c = 1) ∧
    ∀ r, TvM.rev rnd a b = some r → InRange r ∧ TvM.IsTv rnd r := by
  refine ⟨TvM.rev_none M ha hb na nb, fun r h => ?_⟩
  exact TvM.derivable_range M (given := fun x => x = a ∨ x = b)
    (fun x hx => by rcases hx with rfl | rfl <;> exact ⟨by assumption, by assumption⟩)
    (.rev (.base (Or.inl rfl)) (.base (Or.inr rfl)) h)

/-- C91: derivation chains of any length stay in range. -/
theorem C91_chains_in_range (rnd : Rat → Rat) (M : Machine rnd) (given : Tv → Prop)
    (hg : ∀ a, given a → InRange a ∧ TvM.IsTv rnd a) (r : Tv) (h : TvM.Derivable rnd given r) :
    InRange r ∧ TvM.IsTv rnd r := TvM.derivable_range M hg h

/-- C91: folding a vector of any length stays in range, and a vector without any evidence folds to no evidence. -/
theorem C91_fold_in_range (rnd : Rat → Rat) (M : Machine rnd) (v : List Tv) (hv : ∀ a ∈ v, InRange a ∧ TvM.IsTv rnd a) (r : Tv)
    (h : TvM.foldVec rnd v = some r) : InRange r ∧ TvM.IsTv rnd r ∧ ((∀ a ∈ v, a.c = 0) → r.c = 0) := by
  have key : ∀ (v : List Tv) (s r : Tv), (InRange s ∧ TvM.IsTv rnd s) → (∀ a ∈ v, InRange a ∧ TvM.IsTv rnd a) →
      v.foldlM (TvM.rev rnd) s = some r → InRange r ∧ TvM.IsTv rnd r ∧ (s.c = 0 → (∀ a ∈ v, a.c = 0) → r.c = 0) := by
    intro v
    induction v with
    | nil =>
      intro s r hs _ h
      simp only [List.foldlM_nil, Option.pure_def, Option.some.injEq] at h
      subst h
      exact ⟨hs.1, hs.2, fun h0 _ => h0⟩
    | cons a v ih =>
      intro s r hs hv h
      rw [List.foldlM_cons] at h
      obtain ⟨s', h1, h2⟩ := Option.bind_eq_some_iff.1 h
      have ha := hv a List.mem_cons_self
      have hs' := (C91_revision rnd M s a hs.1 ha.1 hs.2 ha.2).2 s' h1
      obtain ⟨k1, k2, k3⟩ := ih s' r hs' (fun x hx => hv x (List.mem_cons_of_mem _ hx)) h2
      refine ⟨k1, k2, fun h0 hz => k3 ?_ (fun x hx => hz x (List.mem_cons_of_mem _ hx))⟩
      have e1 : TvM.c2w rnd 0 = some 0 := by unfold TvM.c2w; norm_num [M.one, M.zero]
      have e2 := hz a List.mem_cons_self
      unfold TvM.rev at h1
      rw [h0, e2, e1] at h1
      simp only [Option.bind_eq_bind, Option.bind_some, add_zero, M.zero, Option.some.injEq] at h1
      subst h1
      simp [TvM.w2c, M.zero]
  obtain ⟨h1, h2, h3⟩ := key v ⟨0, 0⟩ r ⟨⟨by norm_num, by norm_num, by norm_num, by norm_num⟩, M.zero, M.zero⟩ hv h
  exact ⟨h1, h2, h3 rfl⟩

example : ∃ r, TvM.foldVec rnd64 [⟨1, 1/2⟩, ⟨0, 1/4⟩, ⟨1, rnd64 (1/10)⟩] = some r ∧ 1/2 < r.c :=
  ⟨(TvM.foldVec rnd64 [⟨1, 1/2⟩, ⟨0, 1/4⟩, ⟨1, rnd64 (1/10)⟩]).getD ⟨0, 0⟩, by decide +kernel, by decide +kernel⟩

/-- C91: no function but revision yields more confidence than a premise has; abduction, induction and comparison yield at most
one half. -/
theorem C91_no_invented_confidence (rnd : Rat → Rat) (M : Machine rnd) (a b : Tv) (ha : InRange a) (hb : InRange b)
    (na : TvM.IsTv rnd a) (nb : TvM.IsTv rnd b) :
    (TvM.ded rnd a b).c ≤ min a.c b.c ∧ (TvM.dedGoal rnd a b).c ≤ min a.c b.c ∧
    (TvM.abd rnd a b).c ≤ min (min a.c b.c) (1/2) ∧ (TvM.ind rnd a b).c ≤ min (min a.c b.c) (1/2) ∧
    (TvM.comp rnd a b).c ≤ min (min a.c b.c) (1/2) ∧ (TvM.int rnd a b).c ≤ min a.c b.c ∧
    (TvM.neg rnd a).c = a.c := by
  have h1 := TvM.ded_range M ha hb na nb
  have h2 := TvM.dedGoal_range M ha hb na nb
  have h3 := TvM.abd_range M ha hb na nb
  have h4 := TvM.abd_range M hb ha nb na
  have h5 := TvM.comp_range M ha hb na nb
  have h6 := TvM.int_range M ha hb na nb
  exact ⟨le_min h1.2.2.1 h1.2.2.2, le_min h2.2.2.1 h2.2.2.2, le_min (le_min h3.2.2.1 h3.2.2.2.1) h3.2.2.2.2,
    le_min (le_min h4.2.2.2.1 h4.2.2.1) h4.2.2.2.2, le_min (le_min h5.2.2.1 h5.2.2.2.1) h5.2.2.2.2,
    le_min h6.2.2.1 h6.2.2.2, rfl⟩

/-- C91: revision does not depend on the order of its premises. -/
theorem C91_revision_commutes (rnd : Rat → Rat) (a b : Tv) : TvM.rev rnd a b = TvM.rev rnd b a := TvM.rev_comm a b

/-- the largest `f64` below one, 0.9999999999999999 -/
def almostOne : Rat := 1 - pow2 (-53)

/-- the `f64` nearest to `n`/100 -/
def hundredth (n : Nat) : Rat := rnd64 (n / 100)

/-- C91 is violated for the limit of the confidence: a statement with confidence 0.9999999999999999, which is below one, revised
by one with the default confidence 0.9, has confidence exactly one; the next revision has no numeric result. -/
theorem C91_confidence_one :
    TvM.IsTv rnd64 ⟨1, almostOne⟩ ∧ TvM.IsTv rnd64 ⟨1, hundredth 90⟩ ∧ Sane ⟨1, almostOne⟩ ∧ Sane ⟨1, hundredth 90⟩ ∧
    TvM.rev rnd64 ⟨1, almostOne⟩ ⟨1, hundredth 90⟩ = some ⟨1, 1⟩ ∧ TvM.rev rnd64 ⟨1, 1⟩ ⟨1, hundredth 90⟩ = none := by
  refine ⟨⟨by decide +kernel, by decide +kernel⟩, ⟨by decide +kernel, by decide +kernel⟩, by decide +kernel, by decide +kernel,
    by decide +kernel, by decide +kernel⟩

/-- C91 is violated for the growth of confidence: a revision by a statement without any evidence lowers a confidence of 0.6. -/
theorem C91_confidence_lost :
    ∃ r, TvM.rev rnd64 ⟨1, hundredth 60⟩ ⟨1, 0⟩ = some r ∧ r.c < hundredth 60 :=
  ⟨(TvM.rev rnd64 ⟨1, hundredth 60⟩ ⟨1, 0⟩).getD ⟨0, 0⟩, by decide +kernel, by decide +kernel⟩

/-- C91 is violated for grouping: revision in `f64` is not associative. -/
theorem C91_not_associative :
    (TvM.rev rnd64 ⟨1, hundredth 60⟩ ⟨1, hundredth 90⟩).bind (fun ab => TvM.rev rnd64 ab ⟨1, 1/2⟩) ≠
    (TvM.rev rnd64 ⟨1, hundredth 90⟩ ⟨1, 1/2⟩).bind (fun bc => TvM.rev rnd64 ⟨1, hundredth 60⟩ bc) := by
  decide +kernel

example : ∃ r, TvM.rev rnd64 ⟨1, hundredth 90⟩ ⟨hundredth 30, hundredth 80⟩ = some r ∧
    TvM.Derivable rnd64 (fun a => a = ⟨1, hundredth 90⟩ ∨ a = ⟨hundredth 30, hundredth 80⟩) (TvM.ded rnd64 r (TvM.neg rnd64 r)) ∧
    (TvM.ded rnd64 r (TvM.neg rnd64 r)) ≠ Tv.ded r (Tv.neg r) := by
  refine ⟨(TvM.rev rnd64 ⟨1, hundredth 90⟩ ⟨hundredth 30, hundredth 80⟩).getD ⟨0, 0⟩, by decide +kernel, ?_, by decide +kernel⟩
  have h : TvM.Derivable rnd64 (fun a => a = ⟨1, hundredth 90⟩ ∨ a = ⟨hundredth 30, hundredth 80⟩)
      ((TvM.rev rnd64 ⟨1, hundredth 90⟩ ⟨hundredth 30, hundredth 80⟩).getD ⟨0, 0⟩) :=
    .rev (.base (Or.inl rfl)) (.base (Or.inr rfl)) (by decide +kernel)
  exact .ded h (.neg h)

/-! ## C92 -/

/-- C92: without rounding the machine computes the exact functions. -/
theorem C92_exact (a b : Tv) :
    TvM.ded id a b = ded a b ∧ TvM.dedGoal id a b = dedGoal a b ∧ TvM.abd id a b = abd a b ∧ TvM.ind id a b = ind a b ∧
    TvM.comp id a b = comp a b ∧ TvM.int id a b = int a b ∧ TvM.neg id a = neg a ∧ TvM.rev id a b = rev a b ∧
    TvM.calcExp id a = calcExp a ∧ ∀ v, TvM.foldVec id v = foldVec v := ⟨rfl, rfl, rfl, rfl, rfl, rfl, rfl, rfl, rfl, fun _ => rfl⟩

/-- the bound of the rounding errors, about 1.4 · 10⁻¹⁴ -/
def tiny : Rat := 1 / 2 ^ 46

theorem within_of {e : Rat} {a b : Tv} (h : TvM.Within e a b) (he : e ≤ tiny) : TvM.Within tiny a b :=
  ⟨le_trans h.1 he, le_trans h.2 he⟩

/-- C92: the results of the machine differ from the exact results by at most 2⁻⁴⁶. -/
theorem C92_truth_functions_close (rnd : Rat → Rat) (M : Machine rnd) (a b : Tv) (ha : InRange a) (hb : InRange b) :
    TvM.Within tiny (TvM.ded rnd a b) (ded a b) ∧ TvM.Within tiny (TvM.abd rnd a b) (abd a b) ∧
    TvM.Within tiny (TvM.ind rnd a b) (ind a b) ∧ TvM.Within tiny (TvM.int rnd a b) (int a b) ∧
    TvM.Within tiny (TvM.neg rnd a) (neg a) ∧ |TvM.calcExp rnd a - calcExp a| ≤ tiny :=
  ⟨within_of (TvM.ded_near M ha hb) (by norm_num [tiny]), within_of (TvM.abd_near M ha hb) (by norm_num [tiny]),
    within_of (TvM.abd_near M hb ha) (by norm_num [tiny]), within_of (TvM.int_near M ha hb) (by norm_num [tiny]),
    within_of (TvM.neg_near M ha) (by norm_num [tiny]), le_trans (TvM.exp_near M ha) (by norm_num [tiny])⟩

/-- C92: so does revision, unless the confidences are so small that digits are lost below the smallest machine numbers. -/
theorem C92_revision_close (rnd : Rat → Rat) (M : Machine rnd) (a b : Tv) (ha : Sane a) (hb : Sane b)
    (na : TvM.IsTv rnd a) (nb : TvM.IsTv rnd b)
    (hw : (a.c = 0 ∧ b.c = 0) ∨ 1 / 2 ^ 100 ≤ a.c ∨ 1 / 2 ^ 100 ≤ b.c) :
    ∃ r s, TvM.rev rnd a b = some r ∧ rev a b = some s ∧ TvM.Within tiny r s := by
  obtain ⟨r, hr, -⟩ := TvM.rev_range M ha.range hb.range na nb ha.2.2.2 hb.2.2.2
  obtain ⟨s, hs, -⟩ := rev_sane ha hb
  exact ⟨r, s, hr, hs, TvM.rev_near M ha.range hb.range na nb ha.2.2.2 hb.2.2.2 hw hr hs⟩

/-- C92: comparison replaces the frequency by zero below a limit of 10⁻⁸, which rounding may move; its results are close up to
twice that limit. -/
theorem C92_comparison_close (rnd : Rat → Rat) (M : Machine rnd) (a b : Tv) (ha : InRange a) (hb : InRange b) :
    |(TvM.comp rnd a b).f - (comp a b).f| ≤ 2 / 100000000 ∧ |(TvM.comp rnd a b).c - (comp a b).c| ≤ tiny :=
  ⟨TvM.compF_near M ha hb, le_trans (TvM.compC_near M ha hb) (by norm_num [tiny])⟩

/-- C92: deduction for goals chooses between two candidates; the machine result is close to one of them. -/
theorem C92_goal_deduction_partial (rnd : Rat → Rat) (M : Machine rnd) (a b : Tv) (ha : InRange a) (hb : InRange b) :
    TvM.Within tiny (TvM.dedGoal rnd a b) (ded a b) ∨ TvM.Within tiny (TvM.dedGoal rnd a b) (neg (ded (neg a) b)) := by
  rcases TvM.dedGoal_near M ha hb with h | h
  · exact Or.inl (within_of h (by norm_num [tiny]))
  · exact Or.inr (within_of h (by norm_num [tiny]))

/-- C92 is violated for that choice: with a goal of frequency just below one half the machine takes the other candidate, and the
frequency of the new goal is 0.45 instead of 0.55. -/
theorem C92_goal_choice_flips :
    let a : Tv := ⟨1/2 - pow2 (-54), hundredth 90⟩
    let b : Tv := ⟨hundredth 90, hundredth 3⟩
    TvM.IsTv rnd64 a ∧ TvM.IsTv rnd64 b ∧ (TvM.dedGoal rnd64 a b).f < 451/1000 ∧ 549/1000 < (dedGoal a b).f := by
  refine ⟨⟨by decide +kernel, by decide +kernel⟩, ⟨by decide +kernel, by decide +kernel⟩, by decide +kernel, by decide +kernel⟩

example : InRange ⟨hundredth 90, hundredth 80⟩ ∧ InRange ⟨hundredth 70, hundredth 90⟩ ∧
    TvM.IsTv rnd64 ⟨hundredth 90, hundredth 80⟩ ∧ TvM.IsTv rnd64 ⟨hundredth 70, hundredth 90⟩ ∧
    TvM.ded rnd64 ⟨hundredth 90, hundredth 80⟩ ⟨hundredth 70, hundredth 90⟩ ≠
      ded ⟨hundredth 90, hundredth 80⟩ ⟨hundredth 70, hundredth 90⟩ ∧
    TvM.comp rnd64 ⟨hundredth 90, hundredth 80⟩ ⟨hundredth 70, hundredth 90⟩ ≠
      comp ⟨hundredth 90, hundredth 80⟩ ⟨hundredth 70, hundredth 90⟩ ∧
    1 / 2 ^ 100 ≤ hundredth 80 := by
  refine ⟨by decide +kernel, by decide +kernel, ⟨by decide +kernel, by decide +kernel⟩, ⟨by decide +kernel, by decide +kernel⟩,
    by decide +kernel, by decide +kernel, by decide +kernel⟩

end Nar.Props
