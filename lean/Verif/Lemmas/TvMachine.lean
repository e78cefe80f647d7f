import Verif.Spec.TvMachine
import Verif.Lemmas.Tv
import Mathlib.Tactic.NormNum
/-! # Helper lemmas: truth values in machine arithmetic -/
namespace Nar
namespace TvM
open Tv (InRange)

variable {rnd : Rat → Rat}

theorem rnd_nonneg (M : Machine rnd) {x : Rat} (h : 0 ≤ x) : 0 ≤ rnd x := by
  have := M.mono 0 x h; rwa [M.zero] at this

theorem rnd_le_one (M : Machine rnd) {x : Rat} (h : x ≤ 1) : rnd x ≤ 1 := by
  have := M.mono x 1 h; rwa [M.one] at this

theorem one_le_rnd (M : Machine rnd) {x : Rat} (h : 1 ≤ x) : 1 ≤ rnd x := by
  have := M.mono 1 x h; rwa [M.one] at this

/-- below a machine number -/
theorem rnd_le (M : Machine rnd) {x y : Rat} (hy : rnd y = y) (h : x ≤ y) : rnd x ≤ y := by
  have := M.mono x y h; rwa [hy] at this

theorem le_rnd (M : Machine rnd) {x y : Rat} (hy : rnd y = y) (h : y ≤ x) : y ≤ rnd x := by
  have := M.mono y x h; rwa [hy] at this

theorem mul_le_left' {a b : Rat} (ha : 0 ≤ a) (hb1 : b ≤ 1) : a * b ≤ a := by nlinarith
theorem mul_le_right' {a b : Rat} (hb : 0 ≤ b) (ha1 : a ≤ 1) : a * b ≤ b := by nlinarith

/-- rounded products of machine numbers in [0,1] -/
theorem prod_range (M : Machine rnd) {a b : Rat} (ha : 0 ≤ a) (ha1 : a ≤ 1) (hb : 0 ≤ b) (hb1 : b ≤ 1)
    (na : rnd a = a) (nb : rnd b = b) : 0 ≤ rnd (a * b) ∧ rnd (a * b) ≤ a ∧ rnd (a * b) ≤ b :=
  ⟨rnd_nonneg M (mul_nonneg ha hb), rnd_le M na (mul_le_left' ha hb1), rnd_le M nb (mul_le_right' hb ha1)⟩

theorem w2c_nonneg (M : Machine rnd) {w : Rat} (h : 0 ≤ w) : 0 ≤ w2c rnd w := by
  have : 1 ≤ rnd (w + 1) := one_le_rnd M (by linarith)
  exact rnd_nonneg M (div_nonneg h (by linarith))

theorem w2c_le_self (M : Machine rnd) {w : Rat} (h : 0 ≤ w) (n : rnd w = w) : w2c rnd w ≤ w := by
  have : 1 ≤ rnd (w + 1) := one_le_rnd M (by linarith)
  refine rnd_le M n ?_
  rw [div_le_iff₀ (by linarith)]; nlinarith

theorem w2c_le_one (M : Machine rnd) {w : Rat} (h : 0 ≤ w) (n : rnd w = w) : w2c rnd w ≤ 1 := by
  have h1 : 1 ≤ rnd (w + 1) := one_le_rnd M (by linarith)
  have h2 : w ≤ rnd (w + 1) := le_rnd M n (by linarith)
  refine rnd_le_one M ?_
  rw [div_le_one (by linarith)]; exact h2

theorem w2c_le_half (M : Machine rnd) {w : Rat} (h : 0 ≤ w) (h1 : w ≤ 1) (n : rnd w = w) : w2c rnd w ≤ 1/2 := by
  have h1 : 1 ≤ rnd (w + 1) := one_le_rnd M (by linarith)
  have h2 : 2 * w ≤ rnd (w + 1) := le_rnd M (M.double w n) (by linarith)
  refine rnd_le M M.half ?_
  rw [div_le_div_iff₀ (by linarith) (by norm_num)]; linarith

theorem w2c_num (M : Machine rnd) (w : Rat) : rnd (w2c rnd w) = w2c rnd w := M.idem _

/-- the distance to one is not rounded away -/
theorem oneSub_pos (M : Machine rnd) {c : Rat} (h : c < 1) (n : rnd c = c) : 0 < rnd (1 - c) := by
  have hg := M.gap c n h
  have hn := (abs_le.1 (M.near (1 / 2 ^ 60))).1
  have hm := M.mono (1 / 2 ^ 60) (1 - c) (by linarith)
  rw [abs_of_pos (by positivity)] at hn
  have : (0 : Rat) < 1 / 2 ^ 60 - (1 / 2 ^ 60 / 2 ^ 52 + 1 / 2 ^ 200) := by norm_num
  linarith

theorem c2w_some (M : Machine rnd) {c : Rat} (h0 : 0 ≤ c) (h : c < 1) (n : rnd c = c) :
    c2w rnd c = some (rnd (c / rnd (1 - c))) ∧ 0 ≤ rnd (c / rnd (1 - c)) := by
  have hp := oneSub_pos M h n
  unfold c2w
  rw [if_neg hp.ne', one_mul, n]
  exact ⟨rfl, rnd_nonneg M (div_nonneg h0 hp.le)⟩

theorem c2w_one (M : Machine rnd) : c2w rnd 1 = none := by
  unfold c2w; rw [if_pos]; rw [sub_self]; exact M.zero

/-! ## range -/

theorem ded_range (M : Machine rnd) {a b : Tv} (ha : InRange a) (hb : InRange b) (na : IsTv rnd a) (nb : IsTv rnd b) :
    InRange (ded rnd a b) ∧ IsTv rnd (ded rnd a b) ∧ (ded rnd a b).c ≤ a.c ∧ (ded rnd a b).c ≤ b.c := by
  have hf := prod_range M ha.1 ha.2.1 hb.1 hb.2.1 na.1 nb.1
  have hc := prod_range M ha.2.2.1 ha.2.2.2 hb.2.2.1 hb.2.2.2 na.2 nb.2
  have hr := prod_range M hc.1 (le_trans hc.2.1 ha.2.2.2) hf.1 (le_trans hf.2.1 ha.2.1) (M.idem _) (M.idem _)
  exact ⟨⟨hf.1, le_trans hf.2.1 ha.2.1, hr.1, le_trans hr.2.1 (le_trans hc.2.1 ha.2.2.2)⟩, ⟨M.idem _, M.idem _⟩,
    le_trans hr.2.1 hc.2.1, le_trans hr.2.1 hc.2.2⟩

theorem neg_range (M : Machine rnd) {a : Tv} (ha : InRange a) (na : IsTv rnd a) :
    InRange (neg rnd a) ∧ IsTv rnd (neg rnd a) ∧ (neg rnd a).c = a.c :=
  ⟨⟨rnd_nonneg M (by linarith [ha.2.1]), rnd_le_one M (by linarith [ha.1]), ha.2.2.1, ha.2.2.2⟩, ⟨M.idem _, na.2⟩, rfl⟩

theorem dedGoal_range (M : Machine rnd) {a b : Tv} (ha : InRange a) (hb : InRange b) (na : IsTv rnd a) (nb : IsTv rnd b) :
    InRange (dedGoal rnd a b) ∧ IsTv rnd (dedGoal rnd a b) ∧ (dedGoal rnd a b).c ≤ a.c ∧ (dedGoal rnd a b).c ≤ b.c := by
  have h1 := ded_range M ha hb na nb
  have hn := neg_range M ha na
  have h2 := ded_range M hn.1 hb hn.2.1 nb
  have h3 := neg_range M h2.1 h2.2.1
  unfold dedGoal
  split
  · exact h1
  · exact ⟨h3.1, h3.2.1, h2.2.2.1, h2.2.2.2⟩

theorem abd_range (M : Machine rnd) {a b : Tv} (ha : InRange a) (hb : InRange b) (na : IsTv rnd a) (nb : IsTv rnd b) :
    InRange (abd rnd a b) ∧ IsTv rnd (abd rnd a b) ∧ (abd rnd a b).c ≤ a.c ∧ (abd rnd a b).c ≤ b.c ∧
    (abd rnd a b).c ≤ 1/2 := by
  have h1 := prod_range M hb.1 hb.2.1 ha.2.2.1 ha.2.2.2 nb.1 na.2
  have h1' := le_trans h1.2.2 ha.2.2.2
  have h2 := prod_range M h1.1 h1' hb.2.2.1 hb.2.2.2 (M.idem _) nb.2
  have h2' := le_trans h2.2.2 hb.2.2.2
  have hw := w2c_le_self M h2.1 (M.idem _)
  have hh := w2c_le_half M h2.1 h2' (M.idem _)
  exact ⟨⟨ha.1, ha.2.1, w2c_nonneg M h2.1, le_trans hw h2'⟩, ⟨na.1, M.idem _⟩,
    le_trans hw (le_trans h2.2.1 h1.2.2), le_trans hw h2.2.2, hh⟩

theorem int_range (M : Machine rnd) {a b : Tv} (ha : InRange a) (hb : InRange b) (na : IsTv rnd a) (nb : IsTv rnd b) :
    InRange (int rnd a b) ∧ IsTv rnd (int rnd a b) ∧ (int rnd a b).c ≤ a.c ∧ (int rnd a b).c ≤ b.c := by
  have hf := prod_range M ha.1 ha.2.1 hb.1 hb.2.1 na.1 nb.1
  have hc := prod_range M ha.2.2.1 ha.2.2.2 hb.2.2.1 hb.2.2.2 na.2 nb.2
  exact ⟨⟨hf.1, le_trans hf.2.1 ha.2.1, hc.1, le_trans hc.2.1 ha.2.2.2⟩, ⟨M.idem _, M.idem _⟩, hc.2.1, hc.2.2⟩

theorem exp_range (M : Machine rnd) {a : Tv} (ha : InRange a) : 0 ≤ calcExp rnd a ∧ calcExp rnd a ≤ 1 := by
  have h1 : rnd (a.f - 1/2) ≤ 1/2 := rnd_le M M.half (by linarith [ha.2.1])
  have h2 : -(1/2) ≤ rnd (a.f - 1/2) := le_rnd M M.negHalf (by linarith [ha.1])
  have h3 : rnd (a.c * rnd (a.f - 1/2)) ≤ 1/2 := rnd_le M M.half (by nlinarith [ha.2.2.1, ha.2.2.2])
  have h4 : -(1/2) ≤ rnd (a.c * rnd (a.f - 1/2)) := le_rnd M M.negHalf (by nlinarith [ha.2.2.1, ha.2.2.2])
  exact ⟨rnd_nonneg M (by linarith), rnd_le_one M (by linarith)⟩

theorem or_range (M : Machine rnd) {a b : Rat} (ha : 0 ≤ a) (ha1 : a ≤ 1) (hb : 0 ≤ b) (hb1 : b ≤ 1) :
    0 ≤ or rnd a b ∧ or rnd a b ≤ 1 ∧ rnd (or rnd a b) = or rnd a b := by
  have p1 := rnd_nonneg M (show 0 ≤ 1 - a by linarith)
  have p2 := rnd_nonneg M (show 0 ≤ 1 - b by linarith)
  have q1 := rnd_le_one M (show 1 - a ≤ 1 by linarith)
  have q2 := rnd_le_one M (show 1 - b ≤ 1 by linarith)
  have := prod_range M p1 q1 p2 q2 (M.idem _) (M.idem _)
  exact ⟨rnd_nonneg M (by linarith), rnd_le_one M (by linarith), M.idem _⟩

theorem or_comm (a b : Rat) : or rnd a b = or rnd b a := by unfold or; rw [mul_comm (rnd (1 - a))]

/-- above the cut-off the alternative is not below the conjunction -/
theorem and_le_or (M : Machine rnd) {a b : Rat} (ha : 0 ≤ a) (hb1 : b ≤ 1) (hab : a ≤ b)
    (nb : rnd b = b) (h0 : rnd (1 / 100000000) ≤ or rnd a b) : rnd (a * b) ≤ or rnd a b := by
  have hb : 0 ≤ b := le_trans ha hab
  have ha1 : a ≤ 1 := le_trans hab hb1
  have p1 := rnd_nonneg M (show 0 ≤ 1 - a by linarith)
  have p2 := rnd_nonneg M (show 0 ≤ 1 - b by linarith)
  have q1 := rnd_le_one M (show 1 - a ≤ 1 by linarith)
  have q2 := rnd_le_one M (show 1 - b ≤ 1 by linarith)
  have hP := prod_range M p1 q1 p2 q2 (M.idem _) (M.idem _)
  rcases lt_or_eq_of_le hb1 with hlt | heq
  · have hg := M.gap b nb hlt
    have hn := abs_le.1 (M.near (1 - b))
    rw [abs_of_pos (by linarith)] at hn
    by_cases hsmall : b < 1 / 2 ^ 50
    · -- both are tiny: below the cut-off
      exfalso
      have m1 : rnd (1 - b) ≤ rnd (1 - a) := M.mono _ _ (by linarith)
      have lb : 1 - 1 / 2 ^ 49 ≤ rnd (1 - b) := by
        have : (1 : Rat) - 1 / 2 ^ 50 - (1 / 2 ^ 52 + 1 / 2 ^ 200) ≥ 1 - 1 / 2 ^ 49 := by norm_num
        have h1 : (1 - b) / 2 ^ 52 ≤ 1 / 2 ^ 52 := by
          apply div_le_div_of_nonneg_right (by linarith) (by positivity)
        linarith
      have pr : 1 - 1 / 2 ^ 48 ≤ rnd (1 - a) * rnd (1 - b) := by
        have : (1 - 1 / 2 ^ 49 : Rat) * (1 - 1 / 2 ^ 49) ≥ 1 - 1 / 2 ^ 48 := by norm_num
        nlinarith
      have hPn := (abs_le.1 (M.near (rnd (1 - a) * rnd (1 - b)))).1
      have hprod : rnd (1 - a) * rnd (1 - b) ≤ 1 := by nlinarith
      rw [abs_of_nonneg (mul_nonneg p1 p2)] at hPn
      have hPd : rnd (1 - a) * rnd (1 - b) / 2 ^ 52 ≤ 1 / 2 ^ 52 :=
        div_le_div_of_nonneg_right hprod (by positivity)
      have hP2 : 1 - rnd (rnd (1 - a) * rnd (1 - b)) ≤ 1 / 2 ^ 47 := by
        have : (1 : Rat) / 2 ^ 48 + (1 / 2 ^ 52 + 1 / 2 ^ 200) ≤ 1 / 2 ^ 47 := by norm_num
        linarith
      have hor : or rnd a b ≤ rnd (1 / 2 ^ 47) := M.mono _ _ hP2
      have hn1 := (abs_le.1 (M.near (1 / 2 ^ 47))).2
      have hn2 := (abs_le.1 (M.near (1 / 100000000))).1
      rw [abs_of_pos (by positivity)] at hn1 hn2
      have : (1 : Rat) / 2 ^ 47 + (1 / 2 ^ 47 / 2 ^ 52 + 1 / 2 ^ 200) <
          1 / 100000000 - (1 / 100000000 / 2 ^ 52 + 1 / 2 ^ 200) := by norm_num
      linarith
    · -- the error of `1 - b` is smaller than what is missing
      have hsm := not_lt.1 hsmall
      apply M.mono
      have hu : rnd (rnd (1 - a) * rnd (1 - b)) ≤ rnd (1 - b) := hP.2.2
      have he : 1 / 2 ^ 200 ≤ (1 - b) / 2 ^ 52 := by
        have : (1 : Rat) / 2 ^ 200 ≤ 1 / 2 ^ 60 / 2 ^ 52 := by norm_num
        refine le_trans this (div_le_div_of_nonneg_right (by linarith) (by positivity))
      have hub : rnd (1 - b) ≤ (1 - b) * (1 + 1 / 2 ^ 50) := by
        have e : (1 - b) * (1 + 1 / 2 ^ 50) = (1 - b) + 4 * ((1 - b) / 2 ^ 52) := by ring
        rw [e]
        have : 0 ≤ (1 - b) / 2 ^ 52 := div_nonneg (by linarith) (by positivity)
        linarith
      have : a * b ≤ b * b := mul_le_mul_of_nonneg_right hab hb
      nlinarith [mul_nonneg (show 0 ≤ 1 - b by linarith) (show 0 ≤ b - 1 / 2 ^ 50 by linarith)]
  · subst heq
    unfold or
    rw [sub_self, M.zero, mul_zero, M.zero, sub_zero, mul_one, M.one]
    exact rnd_le_one M ha1

theorem comp_range (M : Machine rnd) {a b : Tv} (ha : InRange a) (hb : InRange b) (na : IsTv rnd a) (nb : IsTv rnd b) :
    InRange (comp rnd a b) ∧ IsTv rnd (comp rnd a b) ∧ (comp rnd a b).c ≤ a.c ∧ (comp rnd a b).c ≤ b.c ∧
    (comp rnd a b).c ≤ 1/2 := by
  have ho := or_range M ha.1 ha.2.1 hb.1 hb.2.1
  have h1 := prod_range M ho.1 ho.2.1 ha.2.2.1 ha.2.2.2 ho.2.2 na.2
  have h1' := le_trans h1.2.2 ha.2.2.2
  have h2 := prod_range M h1.1 h1' hb.2.2.1 hb.2.2.2 (M.idem _) nb.2
  have h2' := le_trans h2.2.2 hb.2.2.2
  have hw := w2c_le_self M h2.1 (M.idem _)
  have hh := w2c_le_half M h2.1 h2' (M.idem _)
  have hfr : 0 ≤ (comp rnd a b).f ∧ (comp rnd a b).f ≤ 1 ∧ rnd (comp rnd a b).f = (comp rnd a b).f := by
    unfold comp
    dsimp only
    have hab : Tv.fabs (or rnd a.f b.f) = or rnd a.f b.f := by unfold Tv.fabs; rw [if_neg (not_lt.2 ho.1)]
    rw [hab]
    split
    · exact ⟨le_refl _, by norm_num, M.zero⟩
    · rename_i hcut
      have hcut := not_lt.1 hcut
      have hle : rnd (a.f * b.f) ≤ or rnd a.f b.f := by
        rcases le_total a.f b.f with h | h
        · exact and_le_or M ha.1 hb.2.1 h nb.1 hcut
        · rw [mul_comm, or_comm]
          exact and_le_or M hb.1 ha.2.1 h na.1 (by rw [or_comm]; exact hcut)
      refine ⟨rnd_nonneg M (div_nonneg (rnd_nonneg M (mul_nonneg ha.1 hb.1)) ho.1), rnd_le_one M ?_, M.idem _⟩
      exact div_le_one_of_le₀ hle ho.1
  exact ⟨⟨hfr.1, hfr.2.1, w2c_nonneg M h2.1, le_trans hw h2'⟩, ⟨hfr.2.2, M.idem _⟩,
    le_trans hw (le_trans h2.2.1 h1.2.2), le_trans hw h2.2.2, hh⟩

/-- weighted means stay between 0 and 1 -/
theorem rev_range (M : Machine rnd) {a b : Tv} (ha : InRange a) (hb : InRange b) (na : IsTv rnd a) (nb : IsTv rnd b)
    (h1 : a.c < 1) (h2 : b.c < 1) : ∃ r, rev rnd a b = some r ∧ InRange r ∧ IsTv rnd r := by
  obtain ⟨e1, p1⟩ := c2w_some M ha.2.2.1 h1 na.2
  obtain ⟨e2, p2⟩ := c2w_some M hb.2.2.1 h2 nb.2
  unfold rev
  rw [e1, e2]
  have n1 : rnd (rnd (a.c / rnd (1 - a.c))) = rnd (a.c / rnd (1 - a.c)) := M.idem _
  have n2 : rnd (rnd (b.c / rnd (1 - b.c))) = rnd (b.c / rnd (1 - b.c)) := M.idem _
  generalize rnd (a.c / rnd (1 - a.c)) = w1 at *
  generalize rnd (b.c / rnd (1 - b.c)) = w2 at *
  refine ⟨_, rfl, ?_, ?_⟩
  · have hw : 0 ≤ rnd (w1 + w2) := rnd_nonneg M (by linarith)
    refine ⟨?_, ?_, w2c_nonneg M hw, w2c_le_one M hw (M.idem _)⟩
    · split
      · exact rnd_nonneg M (div_nonneg (rnd_nonneg M (add_nonneg (rnd_nonneg M (mul_nonneg p1 ha.1))
          (rnd_nonneg M (mul_nonneg p2 hb.1)))) hw)
      · exact le_refl _
    · split
      · have a1 : rnd (w1 * a.f) ≤ w1 := rnd_le M n1 (mul_le_left' p1 ha.2.1)
        have a2 : rnd (w2 * b.f) ≤ w2 := rnd_le M n2 (mul_le_left' p2 hb.2.1)
        have a3 : rnd (rnd (w1 * a.f) + rnd (w2 * b.f)) ≤ rnd (w1 + w2) := M.mono _ _ (by linarith)
        exact rnd_le_one M (div_le_one_of_le₀ a3 hw)
      · norm_num
  · refine ⟨?_, M.idem _⟩
    split
    · exact M.idem _
    · exact M.zero

theorem rev_none (M : Machine rnd) {a b : Tv} (ha : InRange a) (hb : InRange b) (na : IsTv rnd a) (nb : IsTv rnd b) :
    rev rnd a b = none ↔ a.c = 1 ∨ b.c = 1 := by
  constructor
  · intro h
    by_contra hc
    rw [not_or] at hc
    obtain ⟨r, e, -⟩ := rev_range M ha hb na nb (lt_of_le_of_ne ha.2.2.2 hc.1) (lt_of_le_of_ne hb.2.2.2 hc.2)
    rw [h] at e; cases e
  · rintro (h | h)
    · unfold rev; rw [h, c2w_one M]; rfl
    · unfold rev; rw [h, c2w_one M]; cases c2w rnd a.c <;> rfl

theorem rev_comm (a b : Tv) : rev rnd a b = rev rnd b a := by
  unfold rev
  cases h1 : c2w rnd a.c with
  | none => cases h2 : c2w rnd b.c <;> rfl
  | some w1 =>
    cases h2 : c2w rnd b.c with
    | none => rfl
    | some w2 =>
      show some _ = some _
      rw [add_comm w1 w2, add_comm (rnd (w1 * a.f))]

theorem derivable_range (M : Machine rnd) {given : Tv → Prop} (hg : ∀ a, given a → InRange a ∧ IsTv rnd a) {r : Tv}
    (h : Derivable rnd given r) : InRange r ∧ IsTv rnd r := by
  induction h with
  | base h => exact hg _ h
  | ded _ _ ha hb => have := ded_range M ha.1 hb.1 ha.2 hb.2; exact ⟨this.1, this.2.1⟩
  | dedGoal _ _ ha hb => have := dedGoal_range M ha.1 hb.1 ha.2 hb.2; exact ⟨this.1, this.2.1⟩
  | abd _ _ ha hb => have := abd_range M ha.1 hb.1 ha.2 hb.2; exact ⟨this.1, this.2.1⟩
  | ind _ _ ha hb => have := abd_range M hb.1 ha.1 hb.2 ha.2; exact ⟨this.1, this.2.1⟩
  | comp _ _ ha hb => have := comp_range M ha.1 hb.1 ha.2 hb.2; exact ⟨this.1, this.2.1⟩
  | int _ _ ha hb => have := int_range M ha.1 hb.1 ha.2 hb.2; exact ⟨this.1, this.2.1⟩
  | neg _ ha => have := neg_range M ha.1 ha.2; exact ⟨this.1, this.2.1⟩
  | @rev a b r _ _ h ha hb =>
    have h1 : a.c < 1 := lt_of_le_of_ne ha.1.2.2.2 fun e => by
      rw [(rev_none M ha.1 hb.1 ha.2 hb.2).2 (Or.inl e)] at h; cases h
    have h2 : b.c < 1 := lt_of_le_of_ne hb.1.2.2.2 fun e => by
      rw [(rev_none M ha.1 hb.1 ha.2 hb.2).2 (Or.inr e)] at h; cases h
    obtain ⟨r', e, hr, nr⟩ := rev_range M ha.1 hb.1 ha.2 hb.2 h1 h2
    rw [h] at e; cases e; exact ⟨hr, nr⟩

end TvM
end Nar
