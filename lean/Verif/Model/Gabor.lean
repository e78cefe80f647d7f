import Verif.Model.Map2d
import Mathlib.Analysis.SpecialFunctions.Trigonometric.Basic
/-! # Gabor filter kernels: `generateGaborKernel` of src/ModVisionC.rs

`f64` is modelled by the real numbers. -/
namespace Nar
open Real

/-- value at the position (x, y) relative to the centre, ModVisionC.rs 65-71; a wave length of zero (not a number in the code)
is not modelled faithfully -/
noncomputable def gaborValue (phi lambda phaseOffset ratio x y : ℝ) : ℝ :=
  let sigma := 56 / 100 * lambda
  let xTick := x * cos phi + y * sin phi
  let yTick := -x * sin phi + y * cos phi
  let insideExp := -(xTick * xTick + ratio * ratio * yTick * yTick) / (2 * sigma * sigma)
  let insideCos := 2 * π * (xTick / lambda) + phaseOffset
  exp insideExp * cos insideCos

/-- position of a column or row relative to the centre, ModVisionC.rs 62-63 -/
noncomputable def gaborPos (i width : Int) : ℝ := ((i - Int.tdiv width 2 : Int) : ℝ) / (width : ℝ) * 2

/-- `generateGaborKernel`, ModVisionC.rs 53-78 -/
noncomputable def generateGaborKernel (width : Int) (phi lambda phaseOffset ratio : ℝ) : R (Map2d ℝ) := do
  let arr ← vecOf (0 : ℝ) (width * width)
  (gridPoints 0 width 0 width).foldlM (fun res (iy, ix) =>
    writeAt res iy ix (gaborValue phi lambda phaseOffset ratio (gaborPos ix width) (gaborPos iy width)))
    { arr := arr, w := width, h := width }

end Nar
