import Verif.Model.Sentence
import Mathlib.Algebra.Order.Field.Basic
import Mathlib.Data.Rat.Lemmas
import Mathlib.Algebra.Order.Ring.Rat
import Mathlib.Tactic.Linarith
import Mathlib.Tactic.Positivity
/-! # Property theorems about the usage ranking (C52) -/
namespace Nar.Props
open Nar

/-- the helper: `x / (x + 1)` is monotone on non-negative numbers -/
private theorem ratio_mono {x y : Rat} (hx : 0 ≤ x) (h : x ≤ y) : x / (x + 1) ≤ y / (y + 1) := by
  rw [div_le_div_iff₀ (by linarith) (by linarith)]; nlinarith

private theorem ratio_strict {x y : Rat} (hx : 0 ≤ x) (h : x < y) : x / (x + 1) < y / (y + 1) := by
  rw [div_lt_div_iff₀ (by linarith) (by linarith)]; nlinarith

private theorem rec_nonneg (now last : Int) : (0 : Rat) ≤ (max (now - last) 0 : Int) := by
  exact_mod_cast le_max_right _ _

/-- C52: usefulness is in [0,1), and 0 exactly for a never used item. -/
theorem C52_usefulness_range (u : Usage) (now : Int) (h : 0 ≤ u.useCount) :
    0 ≤ calcUsageUsefulness u now ∧ calcUsageUsefulness u now < 1 ∧
    (calcUsageUsefulness u now = 0 ↔ u.useCount = 0) := by
  have hr := rec_nonneg now u.lastUsed
  have hu : (0 : Rat) ≤ u.useCount := by exact_mod_cast h
  have hx : (0 : Rat) ≤ (u.useCount : Rat) / (((max (now - u.lastUsed) 0 : Int) : Rat) + 1) := by positivity
  simp only [calcUsageUsefulness]
  refine ⟨by positivity, (div_lt_one (by linarith)).2 (by linarith), ?_⟩
  rw [div_eq_zero_iff, div_eq_zero_iff]
  constructor
  · rintro ((h | h) | h)
    · exact_mod_cast h
    · linarith
    · linarith
  · intro h; left; left; exact_mod_cast h

/-- C52: more uses never lower the usefulness (strictly more uses raise it). -/
theorem C52_usefulness_grows_with_use (last now : Int) (cell : List Int) (n m : Int) (hn : 0 ≤ n) (h : n < m) :
    calcUsageUsefulness ⟨last, n, cell⟩ now < calcUsageUsefulness ⟨last, m, cell⟩ now := by
  have hr := rec_nonneg now last
  have h1 : (0 : Rat) ≤ n := by exact_mod_cast hn
  have h2 : (n : Rat) < m := by exact_mod_cast h
  simp only [calcUsageUsefulness]
  apply ratio_strict (by positivity)
  exact div_lt_div_of_pos_right h2 (by linarith)

/-- C52: as time passes without use the usefulness does not grow; from the last use on it strictly
falls for an item that was used at all. -/
theorem C52_usefulness_decays (u : Usage) (now later : Int) (h : 0 ≤ u.useCount) (ht : now ≤ later) :
    calcUsageUsefulness u later ≤ calcUsageUsefulness u now ∧
    (0 < u.useCount → u.lastUsed ≤ now → now < later →
      calcUsageUsefulness u later < calcUsageUsefulness u now) := by
  have hr := rec_nonneg now u.lastUsed
  have hr' := rec_nonneg later u.lastUsed
  have hu : (0 : Rat) ≤ u.useCount := by exact_mod_cast h
  have hle : ((max (now - u.lastUsed) 0 : Int) : Rat) ≤ ((max (later - u.lastUsed) 0 : Int) : Rat) := by
    exact_mod_cast max_le_max (by omega) le_rfl
  simp only [calcUsageUsefulness]
  constructor
  · apply ratio_mono (by positivity)
    exact div_le_div_of_nonneg_left hu (by linarith) (by linarith)
  · intro h0 h1 h2
    have hlt : ((max (now - u.lastUsed) 0 : Int) : Rat) < ((max (later - u.lastUsed) 0 : Int) : Rat) := by
      exact_mod_cast (by rw [max_eq_left (by omega), max_eq_left (by omega)]; omega)
    have h0' : (0 : Rat) < u.useCount := by exact_mod_cast h0
    apply ratio_strict (by positivity)
    exact div_lt_div_of_pos_left h0' (by linarith) (by linarith)

/-- C52: using an item now makes it at least as useful as before (counted at the same time). -/
theorem C52_use_raises (u : Usage) (now : Int) (h : 0 ≤ u.useCount) :
    calcUsageUsefulness u now < calcUsageUsefulness (usageUpdate u now) now := by
  have h1 : calcUsageUsefulness u now < calcUsageUsefulness ⟨u.lastUsed, u.useCount + 1, u.cell⟩ now :=
    C52_usefulness_grows_with_use _ _ _ _ _ h (by omega)
  refine lt_of_lt_of_le h1 ?_
  have hr := rec_nonneg now u.lastUsed
  have hu : (0 : Rat) ≤ (u.useCount + 1 : Int) := by exact_mod_cast (by omega)
  simp only [calcUsageUsefulness, usageUpdate]
  have hz : ((max (now - now) 0 : Int) : Rat) = 0 := by simp
  rw [hz]
  apply ratio_mono (by positivity)
  exact div_le_div_of_nonneg_left hu (by linarith) (by linarith)

example : calcUsageUsefulness ⟨5, 3, []⟩ 6 = 3/5 ∧ calcUsageUsefulness ⟨5, 3, []⟩ 7 = 1/2 := by
  constructor <;> decide +kernel

end Nar.Props
