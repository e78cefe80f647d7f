import Verif.Spec.Tv
import Mathlib.Algebra.Order.Field.Rat
import Mathlib.Tactic.Linarith
import Mathlib.Tactic.Positivity
import Mathlib.Tactic.FieldSimp
import Mathlib.Tactic.Ring
/-! # Helper lemmas about truth values -/
namespace Nar
namespace Tv

theorem w2c_nonneg {w : Rat} (h : 0 ≤ w) : 0 ≤ w2c w := by unfold w2c; positivity

theorem w2c_lt_one {w : Rat} (h : 0 ≤ w) : w2c w < 1 := by
  unfold w2c; rw [div_lt_one (by linarith)]; linarith

theorem w2c_le_self {w : Rat} (h : 0 ≤ w) : w2c w ≤ w := by
  unfold w2c; rw [div_le_iff₀ (by linarith)]; nlinarith

theorem w2c_le_half {w : Rat} (h : 0 ≤ w) (h1 : w ≤ 1) : w2c w ≤ 1 / 2 := by
  unfold w2c; rw [div_le_div_iff₀ (by linarith) (by norm_num)]; linarith

theorem w2c_strictMono {v w : Rat} (hv : 0 ≤ v) (h : v < w) : w2c v < w2c w := by
  unfold w2c; rw [div_lt_div_iff₀ (by linarith) (by linarith)]; nlinarith

theorem w2c_mono {v w : Rat} (hv : 0 ≤ v) (h : v ≤ w) : w2c v ≤ w2c w := by
  unfold w2c; rw [div_le_div_iff₀ (by linarith) (by linarith)]; nlinarith

/-- weight of a confidence below one -/
def wt (c : Rat) : Rat := c / (1 - c)

theorem c2w_eq {c : Rat} (h : c < 1) : c2w c = some (wt c) := by
  unfold c2w wt; rw [if_neg (by linarith)]; simp

theorem c2w_one : c2w 1 = none := by simp [c2w]

theorem wt_nonneg {c : Rat} (h0 : 0 ≤ c) (h : c < 1) : 0 ≤ wt c := by
  unfold wt; exact div_nonneg h0 (by linarith)

theorem wt_pos {c : Rat} (h0 : 0 < c) (h : c < 1) : 0 < wt c := by
  unfold wt; exact div_pos h0 (by linarith)

theorem w2c_wt {c : Rat} (h : c < 1) : w2c (wt c) = c := by
  unfold w2c wt
  have : (1 - c) ≠ 0 := by linarith
  field_simp
  ring

theorem wt_w2c {w : Rat} (h : 0 ≤ w) : wt (w2c w) = w := by
  unfold w2c wt
  have : w + 1 ≠ 0 := by linarith
  field_simp
  ring

theorem wt_zero_iff {c : Rat} (h0 : 0 ≤ c) (h : c < 1) : wt c = 0 ↔ c = 0 := by
  constructor
  · intro e
    by_contra hc
    have := wt_pos (lt_of_le_of_ne h0 (Ne.symm hc)) h
    linarith
  · intro e; simp [wt, e]

/-- closed form of revision for sane inputs -/
theorem rev_eq {a b : Tv} (ha : a.c < 1) (hb : b.c < 1) :
    rev a b = some ⟨if wt a.c + wt b.c > 0 then
      (wt a.c * a.f + wt b.c * b.f) / (wt a.c + wt b.c) else 0, w2c (wt a.c + wt b.c)⟩ := by
  simp [rev, c2w_eq ha, c2w_eq hb]

theorem ded_range {a b : Tv} (ha : InRange a) (hb : InRange b) : InRange (ded a b) := by
  obtain ⟨h1, h2, h3, h4⟩ := ha
  obtain ⟨g1, g2, g3, g4⟩ := hb
  unfold InRange ded
  dsimp only
  have hf := mul_le_one₀ h2 g1 g2
  have hc := mul_le_one₀ h4 g3 g4
  exact ⟨by positivity, hf, by positivity, mul_le_one₀ hc (by positivity) hf⟩

theorem ded_c_le_left {a b : Tv} (ha : InRange a) (hb : InRange b) : (ded a b).c ≤ a.c := by
  obtain ⟨h1, h2, h3, h4⟩ := ha
  obtain ⟨g1, g2, g3, g4⟩ := hb
  unfold ded; dsimp only
  have hf := mul_le_one₀ h2 g1 g2
  calc a.c * b.c * (a.f * b.f) ≤ a.c * b.c * 1 := by gcongr
    _ ≤ a.c * 1 * 1 := by gcongr
    _ = a.c := by ring

theorem ded_c_le_right {a b : Tv} (ha : InRange a) (hb : InRange b) : (ded a b).c ≤ b.c := by
  have h : (ded a b).c = (ded b a).c := by unfold ded; dsimp only; ring
  rw [h]; exact ded_c_le_left hb ha

theorem neg_range {a : Tv} (ha : InRange a) : InRange (neg a) := by
  obtain ⟨h1, h2, h3, h4⟩ := ha
  exact ⟨by simp [neg]; linarith, by simp [neg]; linarith, h3, h4⟩

theorem dedGoal_cases (a b : Tv) : dedGoal a b = ded a b ∨ dedGoal a b = neg (ded (neg a) b) := by
  unfold dedGoal; dsimp only; split <;> simp

theorem dedGoal_range {a b : Tv} (ha : InRange a) (hb : InRange b) : InRange (dedGoal a b) := by
  rcases dedGoal_cases a b with h | h <;> rw [h]
  · exact ded_range ha hb
  · exact neg_range (ded_range (neg_range ha) hb)

theorem dedGoal_c_le {a b : Tv} (ha : InRange a) (hb : InRange b) :
    (dedGoal a b).c ≤ a.c ∧ (dedGoal a b).c ≤ b.c := by
  rcases dedGoal_cases a b with h | h <;> rw [h]
  · exact ⟨ded_c_le_left ha hb, ded_c_le_right ha hb⟩
  · exact ⟨ded_c_le_left (neg_range ha) hb, ded_c_le_right (neg_range ha) hb⟩

theorem abd_w_range {a b : Tv} (ha : InRange a) (hb : InRange b) :
    0 ≤ b.f * a.c * b.c ∧ b.f * a.c * b.c ≤ 1 ∧ b.f * a.c * b.c ≤ a.c ∧ b.f * a.c * b.c ≤ b.c := by
  obtain ⟨h1, h2, h3, h4⟩ := ha
  obtain ⟨g1, g2, g3, g4⟩ := hb
  have e1 : b.f * a.c * b.c ≤ a.c := by
    calc b.f * a.c * b.c ≤ 1 * a.c * 1 := by gcongr
      _ = a.c := by ring
  have e2 : b.f * a.c * b.c ≤ b.c := by
    calc b.f * a.c * b.c ≤ 1 * 1 * b.c := by gcongr
      _ = b.c := by ring
  exact ⟨by positivity, e1.trans h4, e1, e2⟩

theorem abd_range {a b : Tv} (ha : InRange a) (hb : InRange b) :
    InRange (abd a b) ∧ (abd a b).c ≤ 1 / 2 ∧ (abd a b).c ≤ a.c ∧ (abd a b).c ≤ b.c := by
  obtain ⟨w0, w1, w2, w3⟩ := abd_w_range ha hb
  unfold abd InRange; dsimp only
  exact ⟨⟨ha.1, ha.2.1, w2c_nonneg w0, (w2c_lt_one w0).le⟩, w2c_le_half w0 w1,
    (w2c_le_self w0).trans w2, (w2c_le_self w0).trans w3⟩

theorem or_range {a b : Rat} (ha0 : 0 ≤ a) (ha1 : a ≤ 1) (hb0 : 0 ≤ b) (hb1 : b ≤ 1) :
    0 ≤ or a b ∧ or a b ≤ 1 ∧ a * b ≤ or a b := by
  unfold or
  have h := mul_nonneg (sub_nonneg.2 ha1) (sub_nonneg.2 hb1)
  have h2 := mul_nonneg ha0 (sub_nonneg.2 hb1)
  have h3 := mul_nonneg hb0 (sub_nonneg.2 ha1)
  refine ⟨by nlinarith, by linarith, by nlinarith⟩

theorem comp_range {a b : Tv} (ha : InRange a) (hb : InRange b) :
    InRange (comp a b) ∧ (comp a b).c ≤ 1 / 2 ∧ (comp a b).c ≤ a.c ∧ (comp a b).c ≤ b.c := by
  obtain ⟨h1, h2, h3, h4⟩ := ha
  obtain ⟨g1, g2, g3, g4⟩ := hb
  obtain ⟨o0, o1, o2⟩ := or_range h1 h2 g1 g2
  have w0 : 0 ≤ or a.f b.f * a.c * b.c := by positivity
  have e1 : or a.f b.f * a.c * b.c ≤ a.c := by
    calc or a.f b.f * a.c * b.c ≤ 1 * a.c * 1 := by gcongr
      _ = a.c := by ring
  have e2 : or a.f b.f * a.c * b.c ≤ b.c := by
    calc or a.f b.f * a.c * b.c ≤ 1 * 1 * b.c := by gcongr
      _ = b.c := by ring
  have hf : 0 ≤ (comp a b).f ∧ (comp a b).f ≤ 1 := by
    unfold comp; dsimp only
    split
    · simp
    · rename_i hne
      have hpos : 0 < or a.f b.f := by
        rcases lt_or_eq_of_le o0 with h | h
        · exact h
        · exfalso; apply hne; rw [← h]; simp [fabs]
      exact ⟨by positivity, (div_le_one hpos).2 o2⟩
  refine ⟨⟨hf.1, hf.2, ?_, ?_⟩, ?_, ?_, ?_⟩
  · exact w2c_nonneg w0
  · exact (w2c_lt_one w0).le
  · exact w2c_le_half w0 (e1.trans h4)
  · exact (w2c_le_self w0).trans e1
  · exact (w2c_le_self w0).trans e2

theorem int_range {a b : Tv} (ha : InRange a) (hb : InRange b) :
    InRange (int a b) ∧ (int a b).c ≤ a.c ∧ (int a b).c ≤ b.c := by
  obtain ⟨h1, h2, h3, h4⟩ := ha
  obtain ⟨g1, g2, g3, g4⟩ := hb
  unfold int InRange; dsimp only
  exact ⟨⟨by positivity, mul_le_one₀ h2 g1 g2, by positivity, mul_le_one₀ h4 g3 g4⟩,
    mul_le_of_le_one_right h3 g4, mul_le_of_le_one_left g3 h4⟩

theorem Sane.range {a : Tv} (h : Sane a) : InRange a := ⟨h.1, h.2.1, h.2.2.1, h.2.2.2.le⟩

theorem sane_of_range {a : Tv} (h : InRange a) (hc : a.c < 1) : Sane a := ⟨h.1, h.2.1, h.2.2.1, hc⟩

theorem rev_sane {a b : Tv} (ha : Sane a) (hb : Sane b) : ∃ r, rev a b = some r ∧ Sane r := by
  obtain ⟨h1, h2, h3, h4⟩ := ha
  obtain ⟨g1, g2, g3, g4⟩ := hb
  refine ⟨_, rev_eq h4 g4, ?_⟩
  have wa := wt_nonneg h3 h4
  have wb := wt_nonneg g3 g4
  have wn : 0 ≤ wt a.c + wt b.c := by linarith
  refine ⟨?_, ?_, w2c_nonneg wn, w2c_lt_one wn⟩ <;> dsimp only
  · split <;> positivity
  · split
    · rename_i hp
      rw [div_le_one hp]
      have := mul_le_of_le_one_right wa h2
      have := mul_le_of_le_one_right wb g2
      linarith
    · norm_num

theorem exp_range {a : Tv} (ha : InRange a) : 0 ≤ calcExp a ∧ calcExp a ≤ 1 := by
  obtain ⟨h1, h2, h3, h4⟩ := ha
  unfold calcExp
  constructor <;> nlinarith

end Tv
end Nar
