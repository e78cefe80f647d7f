import Verif.Spec.TvMachine
import Mathlib.Data.Rat.Floor
import Mathlib.Tactic.Linarith
import Mathlib.Tactic.Positivity
import Mathlib.Tactic.FieldSimp
import Mathlib.Tactic.Ring
import Mathlib.Tactic.NormNum
/-! # Helper lemmas: the rounding of `f64` -/
namespace Nar

theorem pow2_eq (e : Int) : pow2 e = (2 : Rat) ^ e := by
  cases e with
  | ofNat n => simp [pow2]
  | negSucc n => simp [pow2, zpow_negSucc]

theorem pow2_pos (e : Int) : 0 < pow2 e := by rw [pow2_eq]; exact zpow_pos (by norm_num) e

theorem pow2_add (a b : Int) : pow2 (a + b) = pow2 a * pow2 b := by
  simp only [pow2_eq]; exact zpow_add₀ (by norm_num) a b

theorem pow2_le {a b : Int} (h : a ≤ b) : pow2 a ≤ pow2 b := by
  simp only [pow2_eq]; exact zpow_le_zpow_right₀ (by norm_num) h

theorem pow2_lt_iff {a b : Int} : pow2 a < pow2 b ↔ a < b := by
  simp only [pow2_eq]; exact zpow_lt_zpow_iff_right₀ (by norm_num)

theorem pow2_le_iff {a b : Int} : pow2 a ≤ pow2 b ↔ a ≤ b := by
  simp only [pow2_eq]; exact zpow_le_zpow_iff_right₀ (by norm_num)

/-- the quotient of powers of two is a natural number if the exponents are ordered -/
theorem pow2_quot {a b : Int} (h : a ≤ b) : ∃ n : Nat, pow2 b / pow2 a = n ∧ n = 2 ^ (b - a).toNat := by
  refine ⟨2 ^ (b - a).toNat, ?_, rfl⟩
  obtain ⟨k, hk⟩ := Int.eq_ofNat_of_zero_le (show 0 ≤ b - a by omega)
  have hb : b = a + k := by omega
  subst hb
  rw [pow2_add, mul_div_cancel_left₀ _ (pow2_pos a).ne']
  simp [pow2_eq]

/-! ## rounding to an integer -/

theorem floor_eq (q : Rat) : q.floor = ⌊q⌋ := rfl

theorem roundEven_bounds (q : Rat) : q.floor ≤ roundEven q ∧ roundEven q ≤ q.floor + 1 := by
  unfold roundEven; split_ifs <;> constructor <;> omega

theorem floor_le' (q : Rat) : (q.floor : Rat) ≤ q := Int.floor_le q
theorem lt_floor' (q : Rat) : q < q.floor + 1 := Int.lt_floor_add_one q

theorem roundEven_err (q : Rat) : |(roundEven q : Rat) - q| ≤ 1/2 := by
  have h1 := floor_le' q
  have h2 := lt_floor' q
  rw [abs_le]
  unfold roundEven
  split_ifs <;> push_cast <;> constructor <;> linarith

theorem roundEven_int (n : Int) : roundEven (n : Rat) = n := by
  have : (n : Rat).floor = n := by rw [floor_eq]; exact Int.floor_intCast n
  unfold roundEven; rw [this]; norm_num

theorem roundEven_mono {p q : Rat} (h : p ≤ q) : roundEven p ≤ roundEven q := by
  have hf : p.floor ≤ q.floor := Int.floor_le_floor h
  rcases Int.lt_or_eq_of_le hf with hl | he
  · have := roundEven_bounds p; have := roundEven_bounds q; omega
  · unfold roundEven
    rw [he]
    split_ifs <;> first | omega | (exfalso; linarith) | linarith

/-! ## the exponent -/

theorem log2_le {n : Nat} (h : n ≠ 0) : 2 ^ Nat.log2 n ≤ n := Nat.log2_self_le h
theorem lt_log2 (n : Nat) : n < 2 ^ (Nat.log2 n + 1) := Nat.lt_log2_self

theorem expo_spec {x : Rat} (hx : 0 < x) : pow2 (expo x) ≤ x ∧ x < pow2 (expo x + 1) := by
  have hnum : 0 < x.num := Rat.num_pos.2 hx
  have hn0 : x.num.natAbs ≠ 0 := by omega
  have hd0 : x.den ≠ 0 := x.den_nz
  have hxe : x = (x.num.natAbs : Rat) / x.den := by
    have h1 : ((x.num.natAbs : Int) : Rat) = (x.num : Rat) := by
      rw [Int.natAbs_of_nonneg hnum.le]
    have h2 : (x.num.natAbs : Rat) = ((x.num.natAbs : Int) : Rat) := by simp
    rw [h2, h1]; exact (Rat.num_div_den x).symm
  generalize hn : x.num.natAbs = n at *
  generalize hd : x.den = d at *
  have l1 : (2 : Rat) ^ Nat.log2 n ≤ n := by exact_mod_cast log2_le hn0
  have l2 : (n : Rat) < 2 ^ (Nat.log2 n + 1) := by exact_mod_cast lt_log2 n
  have l3 : (2 : Rat) ^ Nat.log2 d ≤ d := by exact_mod_cast log2_le hd0
  have l4 : (d : Rat) < 2 ^ (Nat.log2 d + 1) := by exact_mod_cast lt_log2 d
  have hdp : (0 : Rat) < d := by exact_mod_cast Nat.pos_of_ne_zero hd0
  have p1 : pow2 (Nat.log2 n : Int) = (2 : Rat) ^ Nat.log2 n := by simp [pow2_eq]
  have p2 : pow2 (Nat.log2 d : Int) = (2 : Rat) ^ Nat.log2 d := by simp [pow2_eq]
  have hpd : (0 : Rat) < 2 ^ Nat.log2 d := by positivity
  have hpn : (0 : Rat) < 2 ^ Nat.log2 n := by positivity
  have hq : pow2 ((Nat.log2 n : Int) - Nat.log2 d) = 2 ^ Nat.log2 n / 2 ^ Nat.log2 d := by
    have := pow2_add ((Nat.log2 n : Int) - Nat.log2 d) (Nat.log2 d)
    rw [show (Nat.log2 n : Int) - Nat.log2 d + Nat.log2 d = Nat.log2 n by omega, p1, p2] at this
    field_simp; linarith
  have hup : x < 2 * pow2 ((Nat.log2 n : Int) - Nat.log2 d) := by
    rw [hq, hxe, div_lt_iff₀ hdp]
    rw [pow_succ] at l2
    calc (n : Rat) < 2 ^ Nat.log2 n * 2 := l2
      _ = 2 * (2 ^ Nat.log2 n / 2 ^ Nat.log2 d) * 2 ^ Nat.log2 d := by field_simp
      _ ≤ 2 * (2 ^ Nat.log2 n / 2 ^ Nat.log2 d) * d := by
        apply mul_le_mul_of_nonneg_left l3; positivity
  have hlo : pow2 ((Nat.log2 n : Int) - Nat.log2 d) / 2 < x := by
    rw [hq, hxe, lt_div_iff₀ hdp]
    rw [pow_succ] at l4
    calc 2 ^ Nat.log2 n / 2 ^ Nat.log2 d / 2 * (d : Rat)
        < 2 ^ Nat.log2 n / 2 ^ Nat.log2 d / 2 * (2 ^ Nat.log2 d * 2) := by
          apply mul_lt_mul_of_pos_left l4; positivity
      _ = 2 ^ Nat.log2 n := by field_simp
      _ ≤ n := l1
  have two : pow2 1 = 2 := by simp [pow2_eq]
  unfold expo
  rw [hn, hd]
  dsimp only
  generalize (Nat.log2 n : Int) - Nat.log2 d = e at *
  split
  · rename_i h
    refine ⟨?_, by rw [show e - 1 + 1 = e by omega]; exact h⟩
    have := pow2_add (e - 1) 1
    rw [show e - 1 + 1 = e by omega, two] at this
    linarith
  · rename_i h
    refine ⟨not_lt.1 h, ?_⟩
    rw [pow2_add, two]; linarith

theorem expo_mono {x y : Rat} (hx : 0 < x) (h : x ≤ y) : expo x ≤ expo y := by
  have h1 := (expo_spec hx).1
  have h2 := (expo_spec (lt_of_lt_of_le hx h)).2
  have := pow2_lt_iff.1 (lt_of_le_of_lt (le_trans h1 h) h2)
  omega

/-! ## rounding of positive numbers -/

theorem rndPos_nonneg {x : Rat} (hx : 0 < x) : 0 ≤ rndPos x := by
  unfold rndPos
  have h := pow2_pos (ulp x)
  have : roundEven ((0 : Int) : Rat) ≤ roundEven (x / pow2 (ulp x)) := roundEven_mono (by
    push_cast; positivity)
  rw [roundEven_int] at this
  have : (0 : Rat) ≤ (roundEven (x / pow2 (ulp x)) : Rat) := by exact_mod_cast this
  positivity

/-- numbers with few digits are kept -/
theorem rndPos_num {x : Rat} (hx : 0 < x) (k m : Int) (hm : -1074 ≤ m) (hk : k ≤ 2 ^ 53) (h : x = k * pow2 m) :
    rndPos x = x := by
  have hs := expo_spec hx
  have hub : x ≤ pow2 (m + 53) := by
    have e : pow2 53 = (2 : Rat) ^ 53 := by rw [pow2_eq]; norm_num
    rw [pow2_add, e, h, mul_comm (pow2 m)]
    apply mul_le_mul_of_nonneg_right _ (pow2_pos m).le
    exact_mod_cast hk
  have hint : ∃ j : Int, x / pow2 (ulp x) = j := by
    have he : expo x ≤ m + 53 := pow2_le_iff.1 (le_trans hs.1 hub)
    rcases Int.lt_or_eq_of_le he with hl | hE
    · have hu : ulp x ≤ m := by unfold ulp; omega
      obtain ⟨n, hn, -⟩ := pow2_quot hu
      refine ⟨k * n, ?_⟩
      rw [h, mul_div_assoc, ← h, hn]; push_cast; rfl
    · have hxe : x = pow2 (expo x) := le_antisymm (by rw [hE]; exact hub) hs.1
      have hu : ulp x ≤ expo x := by unfold ulp; omega
      obtain ⟨n, hn, -⟩ := pow2_quot hu
      refine ⟨n, ?_⟩
      rw [← hxe] at hn
      rw [hn]; simp
  obtain ⟨j, hj⟩ := hint
  unfold rndPos
  rw [hj, roundEven_int, ← hj]
  exact div_mul_cancel₀ _ (pow2_pos _).ne'

/-- results of the rounding have few digits -/
theorem rndPos_digits {x : Rat} (hx : 0 < x) :
    ∃ k m : Int, -1074 ≤ m ∧ 0 ≤ k ∧ k ≤ 2 ^ 53 ∧ rndPos x = k * pow2 m := by
  refine ⟨roundEven (x / pow2 (ulp x)), ulp x, by unfold ulp; omega, ?_, ?_, rfl⟩
  · have : roundEven ((0 : Int) : Rat) ≤ roundEven (x / pow2 (ulp x)) := roundEven_mono (by
      have := pow2_pos (ulp x); push_cast; positivity)
    rwa [roundEven_int] at this
  · have hs := (expo_spec hx).2
    have : x / pow2 (ulp x) ≤ ((2 ^ 53 : Int) : Rat) := by
      rw [div_le_iff₀ (pow2_pos _)]
      have e : pow2 53 = ((2 ^ 53 : Int) : Rat) := by rw [pow2_eq]; norm_num
      rw [← e, ← pow2_add]
      exact le_trans hs.le (pow2_le (by unfold ulp; omega))
    have h2 := roundEven_mono this
    rwa [roundEven_int] at h2

theorem rndPos_mono {x y : Rat} (hx : 0 < x) (h : x ≤ y) : rndPos x ≤ rndPos y := by
  have hy := lt_of_lt_of_le hx h
  have he := expo_mono hx h
  by_cases hu : ulp x = ulp y
  · unfold rndPos
    rw [hu]
    apply mul_le_mul_of_nonneg_right _ (pow2_pos _).le
    exact_mod_cast roundEven_mono (div_le_div_of_nonneg_right h (pow2_pos _).le)
  · have h1 : ulp x ≤ expo y := by unfold ulp at *; omega
    have h2 : ulp y ≤ expo y := by unfold ulp at *; omega
    have h3 : expo x < expo y := by unfold ulp at *; omega
    have hxy : x ≤ pow2 (expo y) := le_trans (expo_spec hx).2.le (pow2_le (by omega))
    refine le_trans (b := pow2 (expo y)) ?_ ?_
    · obtain ⟨n, hn, -⟩ := pow2_quot h1
      unfold rndPos
      rw [← le_div_iff₀ (pow2_pos _), hn]
      have := roundEven_mono (div_le_div_of_nonneg_right hxy (pow2_pos (ulp x)).le)
      rw [hn, show (n : Rat) = ((n : Int) : Rat) by simp, roundEven_int] at this
      exact_mod_cast this
    · obtain ⟨n, hn, -⟩ := pow2_quot h2
      unfold rndPos
      rw [← div_le_iff₀ (pow2_pos _), hn]
      have := roundEven_mono (div_le_div_of_nonneg_right (expo_spec hy).1 (pow2_pos (ulp y)).le)
      rw [hn, show (n : Rat) = ((n : Int) : Rat) by simp, roundEven_int] at this
      exact_mod_cast this

theorem rndPos_err {x : Rat} (hx : 0 < x) : |rndPos x - x| ≤ x / 2 ^ 52 + 1 / 2 ^ 200 := by
  have hp := pow2_pos (ulp x)
  have e : rndPos x - x = ((roundEven (x / pow2 (ulp x)) : Rat) - x / pow2 (ulp x)) * pow2 (ulp x) := by
    unfold rndPos; rw [sub_mul, div_mul_cancel₀ _ hp.ne']
  rw [e, abs_mul, abs_of_pos hp]
  have h1 := mul_le_mul_of_nonneg_right (roundEven_err (x / pow2 (ulp x))) hp.le
  refine le_trans h1 ?_
  have hs := (expo_spec hx).1
  have h52 : pow2 (expo x - 52) ≤ x / 2 ^ 52 := by
    rw [le_div_iff₀ (by positivity)]
    have : pow2 52 = (2 : Rat) ^ 52 := by rw [pow2_eq]; norm_num
    rw [← this, ← pow2_add]; simpa using hs
  have hsmall : pow2 (-1074) ≤ 1 / 2 ^ 200 := by
    have : pow2 (-200) = (1 : Rat) / 2 ^ 200 := by rw [pow2_eq]; norm_num
    rw [← this]; exact pow2_le (by omega)
  have hx52 : 0 < x / 2 ^ 52 := by positivity
  have h200 : (0 : Rat) < 1 / 2 ^ 200 := by positivity
  unfold ulp
  rcases le_total (expo x - 52) (-1074) with h | h
  · rw [max_eq_right h]; linarith [pow2_pos (-1074)]
  · rw [max_eq_left h]; linarith [pow2_pos (expo x - 52)]

/-! ## the rounding -/

theorem rnd64_zero : rnd64 0 = 0 := by simp [rnd64]
theorem rnd64_pos {x : Rat} (h : 0 < x) : rnd64 x = rndPos x := by simp [rnd64, h.ne', h]
theorem rnd64_neg {x : Rat} (h : x < 0) : rnd64 x = - rndPos (-x) := by
  simp [rnd64, h.ne, not_lt.2 h.le]

theorem rnd64_minus (x : Rat) : rnd64 (-x) = - rnd64 x := by
  rcases lt_trichotomy x 0 with h | h | h
  · rw [rnd64_neg h, rnd64_pos (by linarith)]; ring
  · simp [h, rnd64_zero]
  · rw [rnd64_pos h, rnd64_neg (by linarith)]; ring_nf

theorem rnd64_nonneg {x : Rat} (h : 0 ≤ x) : 0 ≤ rnd64 x := by
  rcases lt_or_eq_of_le h with h | h
  · rw [rnd64_pos h]; exact rndPos_nonneg h
  · rw [← h, rnd64_zero]

theorem rnd64_mono_nonneg {x y : Rat} (hx : 0 ≤ x) (h : x ≤ y) : rnd64 x ≤ rnd64 y := by
  rcases lt_or_eq_of_le hx with h0 | h0
  · rw [rnd64_pos h0, rnd64_pos (lt_of_lt_of_le h0 h)]; exact rndPos_mono h0 h
  · rw [← h0, rnd64_zero]; exact rnd64_nonneg (by linarith)

theorem rnd64_mono (x y : Rat) (h : x ≤ y) : rnd64 x ≤ rnd64 y := by
  rcases le_total 0 x with hx | hx
  · exact rnd64_mono_nonneg hx h
  · rcases le_total 0 y with hy | hy
    · have := rnd64_nonneg (x := -x) (by linarith)
      rw [rnd64_minus] at this
      linarith [rnd64_nonneg hy]
    · have := rnd64_mono_nonneg (x := -y) (y := -x) (by linarith) (by linarith)
      rw [rnd64_minus, rnd64_minus] at this
      linarith

/-- machine numbers have few digits -/
theorem rnd64_digits (x : Rat) : ∃ k m : Int, -1074 ≤ m ∧ |k| ≤ 2 ^ 53 ∧ rnd64 x = k * pow2 m := by
  rcases lt_trichotomy x 0 with h | h | h
  · obtain ⟨k, m, hm, h0, hk, e⟩ := rndPos_digits (x := -x) (by linarith)
    exact ⟨-k, m, hm, by rw [abs_neg, abs_of_nonneg h0]; exact hk, by rw [rnd64_neg h, e]; push_cast; ring⟩
  · exact ⟨0, 0, by omega, by norm_num, by simp [h, rnd64_zero]⟩
  · obtain ⟨k, m, hm, h0, hk, e⟩ := rndPos_digits h
    exact ⟨k, m, hm, by rw [abs_of_nonneg h0]; exact hk, by rw [rnd64_pos h, e]⟩

/-- numbers with few digits are machine numbers -/
theorem rnd64_num (k m : Int) (hm : -1074 ≤ m) (hk : |k| ≤ 2 ^ 53) : rnd64 (k * pow2 m) = k * pow2 m := by
  have hp := pow2_pos m
  rcases lt_trichotomy k 0 with h | h | h
  · have hkp : (0 : Rat) < -k := by
      have : (0 : Int) < -k := by omega
      exact_mod_cast this
    have hx : (0 : Rat) < -(k * pow2 m) := by rw [← neg_mul]; positivity
    rw [rnd64_neg (by linarith)]
    rw [rndPos_num hx (-k) m hm (by have := (abs_le.1 hk).1; omega) (by push_cast; ring)]
    ring
  · simp [h, rnd64_zero]
  · have hkp : (0 : Rat) < k := by exact_mod_cast h
    rw [rnd64_pos (by positivity)]
    exact rndPos_num (by positivity) k m hm (abs_le.1 hk).2 rfl

theorem rnd64_near (x : Rat) : |rnd64 x - x| ≤ |x| / 2 ^ 52 + 1 / 2 ^ 200 := by
  rcases lt_trichotomy x 0 with h | h | h
  · rw [rnd64_neg h, abs_of_neg h]
    have := rndPos_err (x := -x) (by linarith)
    rw [show -rndPos (-x) - x = -(rndPos (-x) - -x) by ring, abs_neg]
    exact this
  · simp [h, rnd64_zero]
  · rw [rnd64_pos h, abs_of_pos h]; exact rndPos_err h

theorem rnd64_gap (x : Rat) (h : rnd64 x = x) (h1 : x < 1) : x ≤ 1 - 1 / 2 ^ 60 := by
  by_cases hh : x < 1/2
  · have : (1 : Rat) / 2 ^ 60 ≤ 1/2 := by norm_num
    linarith
  · have hx : (0 : Rat) < x := by linarith
    have hs := expo_spec hx
    have e0 : pow2 0 = 1 := by simp [pow2_eq]
    have e1 : pow2 (-1) = 1/2 := by rw [pow2_eq]; norm_num
    have he : expo x = -1 := by
      have a := pow2_lt_iff.1 (lt_of_le_of_lt hs.1 (by rw [e0]; exact h1) : pow2 (expo x) < pow2 0)
      have b := pow2_lt_iff.1 (lt_of_le_of_lt (by rw [e1]; linarith) hs.2 : pow2 (-1) < pow2 (expo x + 1))
      omega
    rw [rnd64_pos hx] at h
    unfold rndPos ulp at h
    rw [he] at h
    have e53 : pow2 (max (-1 - 52) (-1074)) = 1 / 2 ^ 53 := by
      rw [show max (-1 - 52 : Int) (-1074) = -53 by omega, pow2_eq]; norm_num
    rw [e53] at h
    generalize roundEven (x / (1 / 2 ^ 53)) = k at h
    have hk : k < 2 ^ 53 := by
      have : (k : Rat) < ((2 ^ 53 : Int) : Rat) := by
        push_cast
        have : (k : Rat) * (1 / 2 ^ 53) < 1 := by rw [h]; exact h1
        rw [mul_one_div, div_lt_one (by positivity)] at this
        exact this
      exact_mod_cast this
    have hk' : k ≤ 2 ^ 53 - 1 := by omega
    have : (k : Rat) ≤ ((2 ^ 53 - 1 : Int) : Rat) := by exact_mod_cast hk'
    push_cast at this
    rw [← h]
    rw [mul_one_div, div_le_iff₀ (by positivity)]
    norm_num at this ⊢
    linarith

/-- the rounding of `f64` is the rounding of a machine -/
theorem machine_rnd64 : Machine rnd64 where
  mono := rnd64_mono
  idem x := by
    obtain ⟨k, m, hm, hk, e⟩ := rnd64_digits x
    rw [e]; exact rnd64_num k m hm hk
  zero := rnd64_zero
  one := by decide +kernel
  half := by decide +kernel
  negHalf := by decide +kernel
  double x h := by
    obtain ⟨k, m, hm, hk, e⟩ := rnd64_digits x
    rw [h] at e
    have : 2 * x = k * pow2 (m + 1) := by
      rw [pow2_add, show pow2 1 = 2 by simp [pow2_eq], e]; ring
    rw [this]; exact rnd64_num k (m + 1) (by omega) hk
  near := rnd64_near
  gap := rnd64_gap

end Nar
