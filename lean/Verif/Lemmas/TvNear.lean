import Verif.Lemmas.TvMachine
/-! # Helper lemmas: machine arithmetic is close to exact arithmetic -/
namespace Nar
namespace TvM
open Tv (InRange wt)

variable {rnd : Rat → Rat}

theorem near_one (M : Machine rnd) {x : Rat} (h : |x| ≤ 1) : |rnd x - x| ≤ 1 / 2 ^ 51 := by
  have h1 := M.near x
  have h2 : |x| / 2 ^ 52 ≤ 1 / 2 ^ 52 := div_le_div_of_nonneg_right h (by positivity)
  have : (1 : Rat) / 2 ^ 52 + 1 / 2 ^ 200 ≤ 1 / 2 ^ 51 := by norm_num
  linarith

theorem near_two (M : Machine rnd) {x : Rat} (h : |x| ≤ 2) : |rnd x - x| ≤ 2 / 2 ^ 51 := by
  have h1 := M.near x
  have h2 : |x| / 2 ^ 52 ≤ 2 / 2 ^ 52 := div_le_div_of_nonneg_right h (by positivity)
  have : (2 : Rat) / 2 ^ 52 + 1 / 2 ^ 200 ≤ 2 / 2 ^ 51 := by norm_num
  linarith

theorem abs_sub_le_of {a b c d e : Rat} (h1 : |a - b| ≤ d) (h2 : |b - c| ≤ e) : |a - c| ≤ d + e := by
  rw [abs_le] at *; constructor <;> linarith [h1.1, h1.2, h2.1, h2.2]

theorem mul_err {p p' q q' d1 d2 : Rat} (hp' : |p'| ≤ 1) (hq : |q| ≤ 1) (h1 : |p' - p| ≤ d1) (h2 : |q' - q| ≤ d2) :
    |p' * q' - p * q| ≤ d1 + d2 := by
  have e : p' * q' - p * q = p' * (q' - q) + (p' - p) * q := by ring
  rw [e]
  refine le_trans (abs_add_le _ _) ?_
  rw [abs_mul, abs_mul]
  have a1 : |p'| * |q' - q| ≤ d2 := by nlinarith [abs_nonneg (q' - q), abs_nonneg p']
  have a2 : |p' - p| * |q| ≤ d1 := by nlinarith [abs_nonneg (p' - p), abs_nonneg q]
  linarith

theorem abs_le_one_of {x : Rat} (h0 : 0 ≤ x) (h1 : x ≤ 1) : |x| ≤ 1 := by rw [abs_of_nonneg h0]; exact h1

theorem abs_mul_le_one {x y : Rat} (hx : |x| ≤ 1) (hy : |y| ≤ 1) : |x * y| ≤ 1 := by
  rw [abs_mul]; nlinarith [abs_nonneg x, abs_nonneg y]

/-- a rounded product -/
theorem mul_near (M : Machine rnd) {p p' q q' d1 d2 : Rat} (hp' : |p'| ≤ 1) (hq' : |q'| ≤ 1) (hq : |q| ≤ 1)
    (h1 : |p' - p| ≤ d1) (h2 : |q' - q| ≤ d2) : |rnd (p' * q') - p * q| ≤ 1 / 2 ^ 51 + (d1 + d2) :=
  abs_sub_le_of (near_one M (abs_mul_le_one hp' hq')) (mul_err hp' hq h1 h2)

theorem self_near (x : Rat) : |x - x| ≤ 0 := by simp

theorem w2c_near (M : Machine rnd) {w w' : Rat} (h : 0 ≤ w) (h' : 0 ≤ w') :
    |w2c rnd w' - Tv.w2c w| ≤ 4 / 2 ^ 51 + |w' - w| / (w + 1) := by
  have hD := abs_le.1 (M.near (w' + 1))
  rw [abs_of_pos (by linarith)] at hD
  have hs : (1 : Rat) / 2 ^ 200 ≤ 1 / 2 ^ 52 := by norm_num
  have h52 : (w' + 1) / 2 ^ 52 = (w' + 1) * (1 / 2 ^ 52) := by ring
  have hDl : (w' + 1) / 2 ≤ rnd (w' + 1) := by
    have : (1 : Rat) / 2 ^ 52 ≤ 1 / 8 := by norm_num
    nlinarith [hD.1]
  have hDe : |w' + 1 - rnd (w' + 1)| ≤ 2 / 2 ^ 52 * (w' + 1) := by
    have : (1 : Rat) / 2 ^ 52 ≤ 1 / 2 ^ 52 * (w' + 1) := by nlinarith [show (0 : Rat) < 1 / 2 ^ 52 by positivity]
    rw [abs_le]; constructor <;> nlinarith [hD.1, hD.2]
  have hD1 : 1 ≤ rnd (w' + 1) := one_le_rnd M (by linarith)
  have hq : |w' / rnd (w' + 1)| ≤ 2 := by
    rw [abs_of_nonneg (div_nonneg h' (by linarith)), div_le_iff₀ (by linarith)]; linarith
  have h1 := near_two M hq
  have h2 : |w' / rnd (w' + 1) - w / (w + 1)| ≤ 4 / 2 ^ 52 + |w' - w| / (w + 1) := by
    have e : w' / rnd (w' + 1) - w / (w + 1)
        = (w' - w) / (w + 1) / rnd (w' + 1) + w / (w + 1) * ((w' + 1 - rnd (w' + 1)) / rnd (w' + 1)) := by
      have : rnd (w' + 1) ≠ 0 := by linarith
      have : w + 1 ≠ 0 := by linarith
      field_simp; ring
    rw [e]
    refine le_trans (abs_add_le _ _) ?_
    have a1 : |(w' - w) / (w + 1) / rnd (w' + 1)| ≤ |w' - w| / (w + 1) := by
      rw [abs_div, abs_div, abs_of_pos (show 0 < w + 1 by linarith), abs_of_pos (show 0 < rnd (w' + 1) by linarith)]
      exact div_le_self (div_nonneg (abs_nonneg _) (by linarith)) hD1
    have a2 : |w / (w + 1) * ((w' + 1 - rnd (w' + 1)) / rnd (w' + 1))| ≤ 4 / 2 ^ 52 := by
      rw [abs_mul]
      have b1 : |w / (w + 1)| ≤ 1 := by
        rw [abs_of_nonneg (div_nonneg h (by linarith))]; exact div_le_one_of_le₀ (by linarith) (by linarith)
      have b2 : |(w' + 1 - rnd (w' + 1)) / rnd (w' + 1)| ≤ 4 / 2 ^ 52 := by
        rw [abs_div, abs_of_pos (show 0 < rnd (w' + 1) by linarith), div_le_iff₀ (by linarith)]
        nlinarith
      nlinarith [abs_nonneg (w / (w + 1)), abs_nonneg ((w' + 1 - rnd (w' + 1)) / rnd (w' + 1))]
    linarith
  have := abs_sub_le_of h1 h2
  have e : Tv.w2c w = w / (w + 1) := rfl
  rw [e]
  refine le_trans this ?_
  have : (2 : Rat) / 2 ^ 51 + 4 / 2 ^ 52 = 4 / 2 ^ 51 := by norm_num
  linarith

theorem w2c_near' (M : Machine rnd) {w w' d : Rat} (h : 0 ≤ w) (h' : 0 ≤ w') (hd : |w' - w| ≤ d) :
    |w2c rnd w' - Tv.w2c w| ≤ 4 / 2 ^ 51 + d := by
  have := w2c_near M h h'
  have : |w' - w| / (w + 1) ≤ |w' - w| := div_le_self (abs_nonneg _) (by linarith)
  linarith

theorem ded_near (M : Machine rnd) {a b : Tv} (ha : InRange a) (hb : InRange b) :
    Within (3 / 2 ^ 51) (ded rnd a b) (Tv.ded a b) := by
  have f1 := abs_le_one_of ha.1 ha.2.1
  have f2 := abs_le_one_of hb.1 hb.2.1
  have c1 := abs_le_one_of ha.2.2.1 ha.2.2.2
  have c2 := abs_le_one_of hb.2.2.1 hb.2.2.2
  have hf := mul_near M f1 f2 f2 (self_near a.f) (self_near b.f)
  have hc := mul_near M c1 c2 c2 (self_near a.c) (self_near b.c)
  have rf0 := rnd_nonneg M (mul_nonneg ha.1 hb.1)
  have rf1 := rnd_le_one M (show a.f * b.f ≤ 1 by nlinarith [ha.1, ha.2.1, hb.1, hb.2.1])
  have rc0 := rnd_nonneg M (mul_nonneg ha.2.2.1 hb.2.2.1)
  have rc1 := rnd_le_one M (show a.c * b.c ≤ 1 by nlinarith [ha.2.2.1, ha.2.2.2, hb.2.2.1, hb.2.2.2])
  have hr := mul_near M (abs_le_one_of rc0 rc1) (abs_le_one_of rf0 rf1) (abs_mul_le_one f1 f2) hc hf
  refine ⟨le_trans hf (by norm_num), le_trans hr (by norm_num)⟩

theorem neg_near (M : Machine rnd) {a : Tv} (ha : InRange a) : Within (1 / 2 ^ 51) (neg rnd a) (Tv.neg a) := by
  refine ⟨near_one M (abs_le_one_of (by linarith [ha.2.1]) (by linarith [ha.1])), ?_⟩
  show |a.c - a.c| ≤ _
  simp

theorem int_near (M : Machine rnd) {a b : Tv} (ha : InRange a) (hb : InRange b) :
    Within (1 / 2 ^ 51) (int rnd a b) (Tv.int a b) := by
  have f1 := abs_le_one_of ha.1 ha.2.1
  have f2 := abs_le_one_of hb.1 hb.2.1
  have c1 := abs_le_one_of ha.2.2.1 ha.2.2.2
  have c2 := abs_le_one_of hb.2.2.1 hb.2.2.2
  exact ⟨near_one M (abs_mul_le_one f1 f2), near_one M (abs_mul_le_one c1 c2)⟩

theorem abd_near (M : Machine rnd) {a b : Tv} (ha : InRange a) (hb : InRange b) :
    Within (6 / 2 ^ 51) (abd rnd a b) (Tv.abd a b) := by
  have f2 := abs_le_one_of hb.1 hb.2.1
  have c1 := abs_le_one_of ha.2.2.1 ha.2.2.2
  have c2 := abs_le_one_of hb.2.2.1 hb.2.2.2
  have h1 := mul_near M f2 c1 c1 (self_near b.f) (self_near a.c)
  have r0 := rnd_nonneg M (mul_nonneg hb.1 ha.2.2.1)
  have r1 := rnd_le_one M (show b.f * a.c ≤ 1 by nlinarith [hb.1, hb.2.1, ha.2.2.1, ha.2.2.2])
  have h2 := mul_near M (abs_le_one_of r0 r1) c2 c2 h1 (self_near b.c)
  have hw := w2c_near' M (mul_nonneg (mul_nonneg hb.1 ha.2.2.1) hb.2.2.1) (rnd_nonneg M (mul_nonneg r0 hb.2.2.1)) h2
  refine ⟨?_, ?_⟩
  · show |a.f - a.f| ≤ _
    rw [sub_self, abs_zero]; norm_num
  · refine le_trans hw (by norm_num)

theorem exp_near (M : Machine rnd) {a : Tv} (ha : InRange a) : |calcExp rnd a - Tv.calcExp a| ≤ 3 / 2 ^ 51 := by
  have hd : |a.f - 1/2| ≤ 1 := by rw [abs_le]; constructor <;> linarith [ha.1, ha.2.1]
  have h1 : |rnd (a.f - 1/2) - (a.f - 1/2)| ≤ 1 / 2 ^ 51 := near_one M hd
  have u1 : rnd (a.f - 1/2) ≤ 1/2 := rnd_le M M.half (by linarith [ha.2.1])
  have l1 : -(1/2) ≤ rnd (a.f - 1/2) := le_rnd M M.negHalf (by linarith [ha.1])
  have c1 := abs_le_one_of ha.2.2.1 ha.2.2.2
  have h2 := mul_near M c1 (show |rnd (a.f - 1/2)| ≤ 1 by rw [abs_le]; constructor <;> linarith) hd (self_near a.c) h1
  have u2 : rnd (a.c * rnd (a.f - 1/2)) ≤ 1/2 := rnd_le M M.half (by nlinarith [ha.2.2.1, ha.2.2.2])
  have l2 : -(1/2) ≤ rnd (a.c * rnd (a.f - 1/2)) := le_rnd M M.negHalf (by nlinarith [ha.2.2.1, ha.2.2.2])
  have h3 : |rnd (rnd (a.c * rnd (a.f - 1/2)) + 1/2) - (rnd (a.c * rnd (a.f - 1/2)) + 1/2)| ≤ 1 / 2 ^ 51 :=
    near_one M (by rw [abs_le]; constructor <;> linarith)
  have h4 : |rnd (a.c * rnd (a.f - 1/2)) + 1/2 - (a.c * (a.f - 1/2) + 1/2)| ≤ 1 / 2 ^ 51 + (0 + 1 / 2 ^ 51) := by
    rw [show rnd (a.c * rnd (a.f - 1/2)) + 1/2 - (a.c * (a.f - 1/2) + 1/2)
      = rnd (a.c * rnd (a.f - 1/2)) - a.c * (a.f - 1/2) by ring]
    exact h2
  refine le_trans (abs_sub_le_of h3 h4) (by norm_num)

/-- goal deduction: one of the two candidates -/
theorem dedGoal_near (M : Machine rnd) {a b : Tv} (ha : InRange a) (hb : InRange b) :
    Within (6 / 2 ^ 51) (dedGoal rnd a b) (Tv.ded a b) ∨
    Within (6 / 2 ^ 51) (dedGoal rnd a b) (Tv.neg (Tv.ded (Tv.neg a) b)) := by
  unfold dedGoal
  split
  · left
    have := ded_near M ha hb
    exact ⟨le_trans this.1 (by norm_num), le_trans this.2 (by norm_num)⟩
  · right
    have hn : InRange (neg rnd a) :=
      ⟨rnd_nonneg M (by linarith [ha.2.1]), rnd_le_one M (by linarith [ha.1]), ha.2.2.1, ha.2.2.2⟩
    have hn' : InRange (Tv.neg a) :=
      ⟨by show 0 ≤ 1 - a.f; linarith [ha.2.1], by show 1 - a.f ≤ 1; linarith [ha.1], ha.2.2.1, ha.2.2.2⟩
    have h1 := ded_near M hn hb
    have hf0 := near_one M (abs_le_one_of (show 0 ≤ 1 - a.f by linarith [ha.2.1]) (by linarith [ha.1]))
    -- exact deduction from the rounded negation
    have f2 := abs_le_one_of hb.1 hb.2.1
    have c1 := abs_le_one_of ha.2.2.1 ha.2.2.2
    have c2 := abs_le_one_of hb.2.2.1 hb.2.2.2
    have hf : |(Tv.ded (neg rnd a) b).f - (Tv.ded (Tv.neg a) b).f| ≤ 1 / 2 ^ 51 + 0 :=
      mul_err (abs_le_one_of hn.1 hn.2.1) f2 hf0 (self_near b.f)
    have hc : |(Tv.ded (neg rnd a) b).c - (Tv.ded (Tv.neg a) b).c| ≤ 0 + (1 / 2 ^ 51 + 0) := by
      refine mul_err (abs_mul_le_one c1 c2) ?_ ?_ hf
      · exact abs_mul_le_one (abs_le_one_of hn'.1 hn'.2.1) f2
      · exact self_near (a.c * b.c)
    have g1 := abs_sub_le_of h1.1 hf
    have g2 := abs_sub_le_of h1.2 hc
    have rr : InRange (ded rnd (neg rnd a) b) := by
      refine ⟨rnd_nonneg M (mul_nonneg hn.1 hb.1), rnd_le_one M ?_, rnd_nonneg M (mul_nonneg (rnd_nonneg M
        (mul_nonneg hn.2.2.1 hb.2.2.1)) (rnd_nonneg M (mul_nonneg hn.1 hb.1))), rnd_le_one M ?_⟩
      · nlinarith [hn.1, hn.2.1, hb.1, hb.2.1]
      · have x0 := rnd_nonneg M (mul_nonneg hn.2.2.1 hb.2.2.1)
        have x1 := rnd_le_one M (show (neg rnd a).c * b.c ≤ 1 by nlinarith [hn.2.2.1, hn.2.2.2, hb.2.2.1, hb.2.2.2])
        have y0 := rnd_nonneg M (mul_nonneg hn.1 hb.1)
        have y1 := rnd_le_one M (show (neg rnd a).f * b.f ≤ 1 by nlinarith [hn.1, hn.2.1, hb.1, hb.2.1])
        nlinarith
    have h2 := neg_near M rr
    refine ⟨?_, ?_⟩
    · have : |(Tv.neg (ded rnd (neg rnd a) b)).f - (Tv.neg (Tv.ded (Tv.neg a) b)).f| ≤ 3 / 2 ^ 51 + (1 / 2 ^ 51 + 0) := by
        show |1 - _ - (1 - _)| ≤ _
        rw [show ∀ x y : Rat, 1 - x - (1 - y) = -(x - y) by intros; ring, abs_neg]
        exact g1
      refine le_trans (abs_sub_le_of h2.1 this) (by norm_num)
    · refine le_trans (show |(neg rnd (ded rnd (neg rnd a) b)).c - (Tv.neg (Tv.ded (Tv.neg a) b)).c| ≤ _ from g2)
        (by norm_num)

/-! ## comparison -/

theorem or_near (M : Machine rnd) {a b : Rat} (ha : 0 ≤ a) (ha1 : a ≤ 1) (hb : 0 ≤ b) (hb1 : b ≤ 1) :
    |or rnd a b - Tv.or a b| ≤ 4 / 2 ^ 51 := by
  have h1 := near_one M (abs_le_one_of (show 0 ≤ 1 - a by linarith) (by linarith))
  have h2 := near_one M (abs_le_one_of (show 0 ≤ 1 - b by linarith) (by linarith))
  have p1 := rnd_nonneg M (show 0 ≤ 1 - a by linarith)
  have p2 := rnd_nonneg M (show 0 ≤ 1 - b by linarith)
  have q1 := rnd_le_one M (show 1 - a ≤ 1 by linarith)
  have q2 := rnd_le_one M (show 1 - b ≤ 1 by linarith)
  have h3 := mul_near M (abs_le_one_of p1 q1) (abs_le_one_of p2 q2)
    (abs_le_one_of (show 0 ≤ 1 - b by linarith) (by linarith)) h1 h2
  have x0 := rnd_nonneg M (mul_nonneg p1 p2)
  have x1 := rnd_le_one M (show rnd (1 - a) * rnd (1 - b) ≤ 1 by nlinarith)
  have h4 := near_one M (abs_le_one_of (show 0 ≤ 1 - rnd (rnd (1 - a) * rnd (1 - b)) by linarith) (by linarith))
  have h5 : |1 - rnd (rnd (1 - a) * rnd (1 - b)) - (1 - (1 - a) * (1 - b))| ≤ 1 / 2 ^ 51 + (1 / 2 ^ 51 + 1 / 2 ^ 51) := by
    rw [show ∀ x y : Rat, 1 - x - (1 - y) = -(x - y) by intros; ring, abs_neg]
    exact h3
  exact le_trans (abs_sub_le_of h4 h5) (by norm_num)

theorem le_or_left {a b : Rat} (ha1 : a ≤ 1) (hb : 0 ≤ b) : a ≤ Tv.or a b := by
  unfold Tv.or; nlinarith
theorem le_or_right {a b : Rat} (ha : 0 ≤ a) (hb1 : b ≤ 1) : b ≤ Tv.or a b := by
  unfold Tv.or; nlinarith

/-- frequency of the comparison -/
theorem compF_near (M : Machine rnd) {a b : Tv} (ha : InRange a) (hb : InRange b) :
    |(comp rnd a b).f - (Tv.comp a b).f| ≤ 2 / 100000000 := by
  have ho := or_near M ha.1 ha.2.1 hb.1 hb.2.1
  have hM := or_range M ha.1 ha.2.1 hb.1 hb.2.1
  have la := le_or_left ha.2.1 hb.1
  have lb := le_or_right ha.1 hb.2.1
  have f0 : 0 ≤ Tv.or a.f b.f := le_trans ha.1 la
  have ht := abs_le.1 (M.near (1 / 100000000))
  rw [abs_of_pos (by positivity)] at ht
  have hp := abs_le.1 (M.near (a.f * b.f))
  rw [abs_of_nonneg (mul_nonneg ha.1 hb.1)] at hp
  have rp0 := rnd_nonneg M (mul_nonneg ha.1 hb.1)
  have hpsq : a.f * b.f ≤ Tv.or a.f b.f * Tv.or a.f b.f := mul_le_mul la lb hb.1 f0
  have p0 := mul_nonneg ha.1 hb.1
  unfold comp Tv.comp
  dsimp only
  rw [show Tv.fabs (or rnd a.f b.f) = or rnd a.f b.f by unfold Tv.fabs; rw [if_neg (not_lt.2 hM.1)],
    show Tv.fabs (Tv.or a.f b.f) = Tv.or a.f b.f by unfold Tv.fabs; rw [if_neg (not_lt.2 f0)]]
  generalize or rnd a.f b.f = x at *
  generalize Tv.or a.f b.f = y at *
  generalize rnd (a.f * b.f) = p' at *
  generalize a.f * b.f = p at *
  generalize rnd (1 / 100000000) = t at *
  rw [abs_le] at ho
  have hdiv : p / 2 ^ 52 = p * (1 / 2 ^ 52) := by ring
  rw [hdiv] at hp
  have eNum : (4 : Rat) / 2 ^ 51 ≤ 1 / 100000000 / 1000 := by norm_num
  have tNum : (1 / 100000000 : Rat) / 2 ^ 52 + 1 / 2 ^ 200 ≤ 1 / 100000000 / 1000 := by norm_num
  by_cases hx : x < t
  · rw [if_pos hx]
    split
    · rw [sub_self, abs_zero]; norm_num
    · rename_i hy
      have hy := not_lt.1 hy
      have hyp : 0 < y := lt_of_lt_of_le (by norm_num) hy
      have : p / y ≤ y := by rw [div_le_iff₀ hyp]; exact hpsq
      have h0 : 0 ≤ p / y := div_nonneg p0 hyp.le
      rw [abs_le]; constructor <;> linarith [ho.1, ho.2, ht.1, ht.2]
  · rw [if_neg hx]
    have hx := not_lt.1 hx
    have hxp : 0 < x := by linarith [ht.1]
    have hxl : (1 : Rat) / 200000000 ≤ x := by linarith [ht.1]
    have hxy : y ≤ x * (1 + 1 / 400) := by linarith [ho.1, ho.2, ht.1]
    have hx1 := hM.2.1
    have hysq : y * y ≤ x * x * (1 + 1 / 100) := by
      have := mul_le_mul hxy hxy f0 (by positivity : (0 : Rat) ≤ x * (1 + 1 / 400))
      nlinarith [mul_nonneg hxp.le hxp.le]
    have hdel : (1 : Rat) / 2 ^ 200 ≤ 1 / 2 ^ 100 * x := by
      have : (1 : Rat) / 2 ^ 200 ≤ 1 / 2 ^ 100 * (1 / 200000000) := by norm_num
      nlinarith [show (0 : Rat) < 1 / 2 ^ 100 by positivity]
    have peps : p * (1 / 2 ^ 52) ≤ 2 / 2 ^ 52 * x := by
      have h1 : p ≤ 2 * x := by nlinarith [mul_nonneg hxp.le hxp.le]
      have := mul_le_mul_of_nonneg_right h1 (show (0 : Rat) ≤ 1 / 2 ^ 52 by positivity)
      linarith
    have pdiv : p' / x ≤ x * (1 + 1 / 100) + 1 / 2 ^ 50 := by
      rw [div_le_iff₀ hxp]
      have : (2 : Rat) / 2 ^ 52 * x + 1 / 2 ^ 100 * x ≤ 1 / 2 ^ 50 * x := by
        rw [← add_mul]; exact mul_le_mul_of_nonneg_right (by norm_num) hxp.le
      nlinarith [hp.2]
    have pdiv0 : 0 ≤ p' / x := div_nonneg rp0 hxp.le
    have small50 : (1 : Rat) / 2 ^ 50 ≤ 1 / 100000000 / 1000 := by norm_num
    have hr := abs_le.1 (near_two M (show |p' / x| ≤ 2 by rw [abs_of_nonneg pdiv0]; linarith))
    have rnum : (2 : Rat) / 2 ^ 51 ≤ 1 / 100000000 / 1000 := by norm_num
    by_cases hy : y < 1 / 100000000
    · rw [if_pos hy, sub_zero, abs_le]
      constructor <;> linarith [hr.1, hr.2, ho.1, ho.2]
    · rw [if_neg hy]
      have hy := not_lt.1 hy
      have hyp : 0 < y := lt_of_lt_of_le (by norm_num) hy
      have key : |p' / x - p / y| ≤ 1 / 100000000 := by
        have e : p' / x - p / y = (p' - p) / x + p / y * ((y - x) / x) := by
          field_simp; ring
        rw [e]
        refine le_trans (abs_add_le _ _) ?_
        have a1 : |(p' - p) / x| ≤ 1 / 2 ^ 50 := by
          rw [abs_div, abs_of_pos hxp, div_le_iff₀ hxp, abs_le]
          have : (2 : Rat) / 2 ^ 52 * x + 1 / 2 ^ 100 * x ≤ 1 / 2 ^ 50 * x := by
            rw [← add_mul]; exact mul_le_mul_of_nonneg_right (by norm_num) hxp.le
          constructor <;> linarith [hp.1, hp.2]
        have a2 : |p / y * ((y - x) / x)| ≤ 8 / 2 ^ 51 := by
          rw [abs_mul, abs_div (y - x), abs_of_pos hxp, ← mul_div_assoc, div_le_iff₀ hxp]
          have b1 : |p / y| ≤ 2 * x := by
            rw [abs_of_nonneg (div_nonneg p0 hyp.le), div_le_iff₀ hyp]
            nlinarith
          have b2 : |y - x| ≤ 4 / 2 ^ 51 := by rw [abs_le]; constructor <;> linarith [ho.1, ho.2]
          have := mul_le_mul b1 b2 (abs_nonneg _) (by linarith)
          linarith
        have : (1 : Rat) / 2 ^ 50 + 8 / 2 ^ 51 ≤ 1 / 100000000 := by norm_num
        linarith
      rw [abs_le] at key ⊢
      constructor <;> linarith [key.1, key.2, hr.1, hr.2]

theorem compC_near (M : Machine rnd) {a b : Tv} (ha : InRange a) (hb : InRange b) :
    |(comp rnd a b).c - (Tv.comp a b).c| ≤ 10 / 2 ^ 51 := by
  have ho := or_near M ha.1 ha.2.1 hb.1 hb.2.1
  have hM := or_range M ha.1 ha.2.1 hb.1 hb.2.1
  have c1 := abs_le_one_of ha.2.2.1 ha.2.2.2
  have c2 := abs_le_one_of hb.2.2.1 hb.2.2.2
  have f0 : 0 ≤ Tv.or a.f b.f := le_trans ha.1 (le_or_left ha.2.1 hb.1)
  have h1 := mul_near M (abs_le_one_of hM.1 hM.2.1) c1 c1 ho (self_near a.c)
  have r0 := rnd_nonneg M (mul_nonneg hM.1 ha.2.2.1)
  have r1 := rnd_le_one M (show or rnd a.f b.f * a.c ≤ 1 by nlinarith [hM.1, hM.2.1, ha.2.2.1, ha.2.2.2])
  have h2 := mul_near M (abs_le_one_of r0 r1) c2 c2 h1 (self_near b.c)
  have hw := w2c_near' M (mul_nonneg (mul_nonneg f0 ha.2.2.1) hb.2.2.1) (rnd_nonneg M (mul_nonneg r0 hb.2.2.1)) h2
  exact le_trans hw (by norm_num)

/-! ## revision -/

/-- the amount of evidence of a confidence -/
theorem c2w_near (M : Machine rnd) {c : Rat} (h0 : 0 ≤ c) (h : c < 1) (n : rnd c = c) :
    |rnd (c / rnd (1 - c)) - wt c| ≤ 5 / 2 ^ 52 * wt c + 1 / 2 ^ 200 := by
  have hg := M.gap c n h
  have hd := abs_le.1 (M.near (1 - c))
  rw [abs_of_pos (by linarith)] at hd
  have hdel : (1 : Rat) / 2 ^ 200 ≤ (1 - c) / 2 ^ 52 := by
    have : (1 : Rat) / 2 ^ 200 ≤ 1 / 2 ^ 60 / 2 ^ 52 := by norm_num
    exact le_trans this (div_le_div_of_nonneg_right (by linarith) (by positivity))
  have hdp := oneSub_pos M h n
  have hq := abs_le.1 (M.near (c / rnd (1 - c)))
  rw [abs_of_nonneg (div_nonneg h0 hdp.le)] at hq
  unfold wt
  generalize rnd (1 - c) = d at *
  have h1c : 0 < 1 - c := by linarith
  have hdl : (1 - c) * (1 - 2 / 2 ^ 52) ≤ d := by
    have e : (1 - c) * (1 - 2 / 2 ^ 52) = (1 - c) - 2 * ((1 - c) / 2 ^ 52) := by ring
    rw [e]; linarith [hd.1]
  have hdu : d ≤ (1 - c) * (1 + 2 / 2 ^ 52) := by
    have e : (1 - c) * (1 + 2 / 2 ^ 52) = (1 - c) + 2 * ((1 - c) / 2 ^ 52) := by ring
    rw [e]; linarith [hd.2]
  have hw0 : 0 ≤ c / (1 - c) := div_nonneg h0 h1c.le
  have e : c / d = c / (1 - c) * ((1 - c) / d) := by field_simp
  have r1 : (1 - c) / d ≤ 1 + 3 / 2 ^ 52 := by
    rw [div_le_iff₀ hdp]
    have : (1 : Rat) ≤ (1 + 3 / 2 ^ 52) * (1 - 2 / 2 ^ 52) := by norm_num
    nlinarith
  have r2 : 1 - 2 / 2 ^ 52 ≤ (1 - c) / d := by
    rw [le_div_iff₀ hdp]
    have : (1 - 2 / 2 ^ 52 : Rat) * (1 + 2 / 2 ^ 52) ≤ 1 := by norm_num
    nlinarith [show (0 : Rat) < 1 - 2 / 2 ^ 52 by norm_num]
  rw [e] at hq ⊢
  generalize c / (1 - c) = w at *
  generalize (1 - c) / d = r at *
  have u : w * r ≤ w * (1 + 3 / 2 ^ 52) := mul_le_mul_of_nonneg_left r1 hw0
  have l : w * (1 - 2 / 2 ^ 52) ≤ w * r := mul_le_mul_of_nonneg_left r2 hw0
  have hq2 : w * r / 2 ^ 52 ≤ w * (2 / 2 ^ 52) := by
    have := div_le_div_of_nonneg_right u (show (0 : Rat) ≤ 2 ^ 52 by positivity)
    refine le_trans this ?_
    rw [mul_div_assoc]
    exact mul_le_mul_of_nonneg_left (by norm_num) hw0
  rw [abs_le]
  constructor <;> nlinarith [hq.1, hq.2]

/-- what the revision computes -/
theorem rev_eqM (M : Machine rnd) {a b : Tv} (ha : InRange a) (hb : InRange b) (na : IsTv rnd a) (nb : IsTv rnd b)
    (h1 : a.c < 1) (h2 : b.c < 1) :
    rev rnd a b = some
      ⟨if rnd (rnd (a.c / rnd (1 - a.c)) + rnd (b.c / rnd (1 - b.c))) > 0 then
        rnd (rnd (rnd (rnd (a.c / rnd (1 - a.c)) * a.f) + rnd (rnd (b.c / rnd (1 - b.c)) * b.f)) /
          rnd (rnd (a.c / rnd (1 - a.c)) + rnd (b.c / rnd (1 - b.c)))) else 0,
       w2c rnd (rnd (rnd (a.c / rnd (1 - a.c)) + rnd (b.c / rnd (1 - b.c))))⟩ := by
  unfold rev
  rw [(c2w_some M ha.2.2.1 h1 na.2).1, (c2w_some M hb.2.2.1 h2 nb.2).1]
  rfl

/-- rounding of a nonnegative number with a known error -/
theorem near_rel (M : Machine rnd) {x y e d : Rat} (hx : 0 ≤ x) (hy : 0 ≤ y) (he : e ≤ 1) (h : |x - y| ≤ e * y + d)
    (hd0 : 0 ≤ d) :
    |rnd x - y| ≤ (e + 2 / 2 ^ 52) * y + (2 * d + 1 / 2 ^ 200) := by
  have hn := abs_le.1 (M.near x)
  rw [abs_of_nonneg hx] at hn
  rw [abs_le] at h ⊢
  have hx2 : x ≤ 2 * y + d := by nlinarith [h.2]
  have hd : x / 2 ^ 52 ≤ (2 * y + d) / 2 ^ 52 := div_le_div_of_nonneg_right hx2 (by positivity)
  have hdd : (2 * y + d) / 2 ^ 52 = 2 / 2 ^ 52 * y + d / 2 ^ 52 := by ring
  have hd1 : d / 2 ^ 52 ≤ d := div_le_self hd0 (by norm_num)
  rw [hdd] at hd
  constructor <;> linarith [hn.1, hn.2, h.1, h.2]

theorem add_rel {x y x' y' e d : Rat} (h1 : |x' - x| ≤ e * x + d) (h2 : |y' - y| ≤ e * y + d) :
    |x' + y' - (x + y)| ≤ e * (x + y) + 2 * d := by
  rw [abs_le] at *
  constructor <;> linarith [h1.1, h1.2, h2.1, h2.2]

theorem mul_rel {w w' f e d : Rat} (hf : 0 ≤ f) (hf1 : f ≤ 1) (hd : 0 ≤ d) (h : |w' - w| ≤ e * w + d) :
    |w' * f - w * f| ≤ e * (w * f) + d := by
  rw [← sub_mul, abs_mul, abs_of_nonneg hf]
  have := mul_le_mul_of_nonneg_right h hf
  nlinarith

theorem rev_near (M : Machine rnd) {a b : Tv} (ha : InRange a) (hb : InRange b) (na : IsTv rnd a) (nb : IsTv rnd b)
    (h1 : a.c < 1) (h2 : b.c < 1) (hw : (a.c = 0 ∧ b.c = 0) ∨ 1 / 2 ^ 100 ≤ a.c ∨ 1 / 2 ^ 100 ≤ b.c) {r s : Tv}
    (hr : rev rnd a b = some r) (hs : Tv.rev a b = some s) : Within (1 / 2 ^ 46) r s := by
  rw [rev_eqM M ha hb na nb h1 h2] at hr
  rw [Tv.rev_eq h1 h2] at hs
  have k1 := c2w_near M ha.2.2.1 h1 na.2
  have k2 := c2w_near M hb.2.2.1 h2 nb.2
  have p1 := (c2w_some M ha.2.2.1 h1 na.2).2
  have p2 := (c2w_some M hb.2.2.1 h2 nb.2).2
  have q1 := Tv.wt_nonneg ha.2.2.1 h1
  have q2 := Tv.wt_nonneg hb.2.2.1 h2
  have hz : (a.c = 0 ∧ b.c = 0) → rnd (a.c / rnd (1 - a.c)) = 0 ∧ rnd (b.c / rnd (1 - b.c)) = 0 ∧ wt a.c = 0 ∧ wt b.c = 0 := by
    rintro ⟨x, y⟩
    rw [x, y]
    simp [M.zero, wt]
  have hbig : (1 / 2 ^ 100 ≤ a.c ∨ 1 / 2 ^ 100 ≤ b.c) → 1 / 2 ^ 100 ≤ wt a.c + wt b.c := by
    have la : a.c ≤ wt a.c := by
      unfold wt; rw [le_div_iff₀ (by linarith)]; nlinarith [ha.2.2.1]
    have lb : b.c ≤ wt b.c := by
      unfold wt; rw [le_div_iff₀ (by linarith)]; nlinarith [hb.2.2.1]
    rintro (h | h) <;> linarith
  generalize rnd (a.c / rnd (1 - a.c)) = w1' at *
  generalize rnd (b.c / rnd (1 - b.c)) = w2' at *
  generalize wt a.c = w1 at *
  generalize wt b.c = w2 at *
  have hsum := add_rel k1 k2
  have hW := near_rel M (by linarith : 0 ≤ w1' + w2') (by linarith : 0 ≤ w1 + w2) (by norm_num) hsum (by positivity)
  have W0 : 0 ≤ rnd (w1' + w2') := rnd_nonneg M (by linarith)
  have hn1 := near_rel M (mul_nonneg p1 ha.1) (mul_nonneg q1 ha.1) (by norm_num)
    (mul_rel ha.1 ha.2.1 (by positivity) k1) (by positivity)
  have hn2 := near_rel M (mul_nonneg p2 hb.1) (mul_nonneg q2 hb.1) (by norm_num)
    (mul_rel hb.1 hb.2.1 (by positivity) k2) (by positivity)
  have N0 : 0 ≤ rnd (w1' * a.f) + rnd (w2' * b.f) :=
    add_nonneg (rnd_nonneg M (mul_nonneg p1 ha.1)) (rnd_nonneg M (mul_nonneg p2 hb.1))
  have nn0 : 0 ≤ w1 * a.f + w2 * b.f := add_nonneg (mul_nonneg q1 ha.1) (mul_nonneg q2 hb.1)
  have hN := near_rel M N0 nn0 (by norm_num) (add_rel hn1 hn2) (by positivity)
  have R0 : 0 ≤ rnd (rnd (w1' * a.f) + rnd (w2' * b.f)) := rnd_nonneg M N0
  have nle : w1 * a.f + w2 * b.f ≤ w1 + w2 := by nlinarith [ha.2.1, hb.2.1]
  cases hr; cases hs
  constructor
  · rcases hw with hz' | hb'
    · obtain ⟨e1, e2, e3, e4⟩ := hz hz'
      rw [e1, e2, e3, e4]
      simp [M.zero]
    · have hbig := hbig hb'
      generalize rnd (rnd (w1' * a.f) + rnd (w2' * b.f)) = N at *
      generalize w1 * a.f + w2 * b.f = n at *
      generalize rnd (w1' + w2') = W at *
      generalize w1 + w2 = w at *
      have wpos : 0 < w := lt_of_lt_of_le (by positivity) hbig
      have dsm : (100 : Rat) / 2 ^ 200 ≤ 1 / 2 ^ 52 * w := by
        have : (100 : Rat) / 2 ^ 200 ≤ 1 / 2 ^ 52 * (1 / 2 ^ 100) := by norm_num
        nlinarith [show (0 : Rat) < 1 / 2 ^ 52 by positivity]
      have hWe : |W - w| ≤ 8 / 2 ^ 52 * w := by
        refine le_trans hW ?_
        linarith
      have hNe : |N - n| ≤ 10 / 2 ^ 52 * w := by
        refine le_trans hN ?_
        have : n * (1 / 2 ^ 52) ≤ w * (1 / 2 ^ 52) := mul_le_mul_of_nonneg_right nle (by positivity)
        linarith
      rw [abs_le] at hWe hNe
      have Wl : w / 2 ≤ W := by
        have : (8 : Rat) / 2 ^ 52 ≤ 1 / 2 := by norm_num
        nlinarith [hWe.1]
      have Wpos : 0 < W := by linarith
      rw [if_pos Wpos, if_pos wpos]
      have hq : |N / W - n / w| ≤ 36 / 2 ^ 52 := by
        have e : N / W - n / w = (N - n) / W + n / w * ((w - W) / W) := by field_simp; ring
        rw [e]
        refine le_trans (abs_add_le _ _) ?_
        have a1 : |(N - n) / W| ≤ 20 / 2 ^ 52 := by
          rw [abs_div, abs_of_pos Wpos, div_le_iff₀ Wpos, abs_le]
          constructor <;> linarith [hNe.1, hNe.2]
        have a2 : |n / w * ((w - W) / W)| ≤ 16 / 2 ^ 52 := by
          rw [abs_mul]
          have b1 : |n / w| ≤ 1 := by
            rw [abs_of_nonneg (div_nonneg nn0 wpos.le)]; exact div_le_one_of_le₀ nle wpos.le
          have b2 : |(w - W) / W| ≤ 16 / 2 ^ 52 := by
            rw [abs_div, abs_of_pos Wpos, div_le_iff₀ Wpos, abs_le]
            constructor <;> linarith [hWe.1, hWe.2]
          nlinarith [abs_nonneg (n / w), abs_nonneg ((w - W) / W)]
        linarith
      have hb2 : |N / W| ≤ 2 := by
        have hnw : n / w ≤ 1 := div_le_one_of_le₀ nle wpos.le
        have h0 : 0 ≤ N / W := div_nonneg R0 Wpos.le
        rw [abs_of_nonneg h0]
        have := (abs_le.1 hq).2
        have : (36 : Rat) / 2 ^ 52 ≤ 1 := by norm_num
        linarith
      exact le_trans (abs_sub_le_of (near_two M hb2) hq) (by norm_num)
  · have := w2c_near M (by linarith : 0 ≤ w1 + w2) W0
    refine le_trans this ?_
    have hdiv : |rnd (w1' + w2') - (w1 + w2)| / (w1 + w2 + 1) ≤ 8 / 2 ^ 52 := by
      rw [div_le_iff₀ (by linarith)]
      refine le_trans hW ?_
      have : (2 * (2 * (1 / 2 ^ 200)) + 1 / 2 ^ 200 : Rat) ≤ 1 / 2 ^ 52 := by norm_num
      linarith
    have : (4 : Rat) / 2 ^ 51 + 8 / 2 ^ 52 ≤ 1 / 2 ^ 46 := by norm_num
    linarith

end TvM
end Nar
