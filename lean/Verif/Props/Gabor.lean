import Verif.Model.Gabor
import Verif.Lemmas.Map2d
import Mathlib.Tactic.Ring
import Mathlib.Tactic.Linarith
import Mathlib.Tactic.Positivity
import Mathlib.Tactic.FieldSimp
/-! # C76: Gabor filter kernels -/
namespace Nar.Props
open Nar Real

/-- C76: the kernel is a square map, each pixel has the value of the filter at its position. -/
theorem C76_kernel (width : Int) (hw : 0 ≤ width) (phi lambda phase ratio : ℝ) :
    ∃ m, generateGaborKernel width phi lambda phase ratio = .ok m ∧ m.WF ∧ m.w = width ∧ m.h = width ∧
      ∀ y x, 0 ≤ y → y < width → 0 ≤ x → x < width →
        readAt m y x = .ok (gaborValue phi lambda phase ratio (gaborPos x width) (gaborPos y width)) := by
  obtain ⟨arr, ha, hwf, _⟩ := blank_spec (0 : ℝ) hw hw
  obtain ⟨c, h1, h2, h3, h4, h5, h6⟩ := paint_spec (fun _ : Int × Int => True) (fun c => c.1) (fun c => c.2)
    (fun y x => gaborValue phi lambda phase ratio (gaborPos x width) (gaborPos y width)) (gridPoints 0 width 0 width) hwf
  refine ⟨c, ?_, h2, h3, h4, fun y x hy0 hy hx0 hx => ?_⟩
  · unfold generateGaborKernel
    rw [ha]
    show List.foldlM _ _ _ = _
    rw [← h1]
    apply foldlM_congr_mem
    rintro b ⟨iy, ix⟩ _
    rw [if_pos trivial]
  · exact h5 y x ⟨hy0, hy, hx0, hx⟩ ⟨(y, x), mem_gridPoints.2 ⟨⟨hy0, hy⟩, hx0, hx⟩, trivial, rfl, rfl⟩

/-- C76: no value exceeds one in size, whatever the parameters are. -/
theorem C76_bounded (phi lambda phase ratio x y : ℝ) : |gaborValue phi lambda phase ratio x y| ≤ 1 := by
  unfold gaborValue
  dsimp only
  rw [abs_mul, abs_exp]
  have h1 : exp (-((x * cos phi + y * sin phi) * (x * cos phi + y * sin phi) +
      ratio * ratio * (-x * sin phi + y * cos phi) * (-x * sin phi + y * cos phi)) / (2 * (56 / 100 * lambda) * (56 / 100 * lambda))) ≤ 1 := by
    rw [exp_le_one_iff]
    apply div_nonpos_of_nonpos_of_nonneg
    · nlinarith [mul_self_nonneg (x * cos phi + y * sin phi), mul_self_nonneg (ratio * (-x * sin phi + y * cos phi))]
    · nlinarith [mul_self_nonneg (56 / 100 * lambda)]
  calc _ ≤ 1 * 1 := mul_le_mul h1 (abs_cos_le_one _) (abs_nonneg _) (by norm_num)
    _ = 1 := one_mul 1

/-- C76: the value in the centre is the cosine of the phase. -/
theorem C76_centre (width : Int) (phi lambda phase ratio : ℝ) :
    gaborValue phi lambda phase ratio (gaborPos (Int.tdiv width 2) width) (gaborPos (Int.tdiv width 2) width) = cos phase := by
  have h0 : gaborPos (Int.tdiv width 2) width = 0 := by unfold gaborPos; simp
  rw [h0]
  unfold gaborValue
  simp

/-- C76: without a phase the filter is symmetric about the centre. -/
theorem C76_symmetric (width d e : Int) (phi lambda ratio : ℝ) :
    gaborValue phi lambda 0 ratio (gaborPos (Int.tdiv width 2 + d) width) (gaborPos (Int.tdiv width 2 + e) width) =
      gaborValue phi lambda 0 ratio (gaborPos (Int.tdiv width 2 - d) width) (gaborPos (Int.tdiv width 2 - e) width) := by
  have hneg : ∀ k : Int, gaborPos (Int.tdiv width 2 - k) width = - gaborPos (Int.tdiv width 2 + k) width := by
    intro k
    unfold gaborPos
    push_cast
    ring
  rw [hneg, hneg]
  generalize gaborPos (Int.tdiv width 2 + d) width = x
  generalize gaborPos (Int.tdiv width 2 + e) width = y
  unfold gaborValue
  dsimp only
  rw [← cos_neg (2 * π * ((x * cos phi + y * sin phi) / lambda) + 0)]
  congr 2 <;> ring

/-- C76: turning the filter by half a turn changes nothing if there is no phase. -/
theorem C76_half_turn (phi lambda ratio x y : ℝ) :
    gaborValue (phi + π) lambda 0 ratio x y = gaborValue phi lambda 0 ratio x y := by
  unfold gaborValue
  dsimp only
  rw [cos_add_pi, sin_add_pi, ← cos_neg (2 * π * ((x * cos phi + y * sin phi) / lambda) + 0)]
  congr 2 <;> ring

example : ∃ m, generateGaborKernel 3 0 1 0 1 = .ok m ∧ m.WF ∧ readAt m 1 1 = .ok 1 := by
  obtain ⟨m, h1, h2, _, _, h5⟩ := C76_kernel 3 (by decide) 0 1 0 1
  refine ⟨m, h1, h2, ?_⟩
  rw [h5 1 1 (by decide) (by decide) (by decide) (by decide)]
  have := C76_centre 3 0 1 0 1
  rw [cos_zero] at this
  exact congrArg Except.ok this

end Nar.Props
