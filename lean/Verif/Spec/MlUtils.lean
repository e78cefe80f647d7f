import Verif.Model.MlUtils
/-! # Specification vocabulary for the vector helpers -/
namespace Nar

/-- scalar product -/
noncomputable def inner' (a b : List ℝ) : ℝ := (List.zipWith (· * ·) a b).sum

/-- Euclidean length -/
noncomputable def norm' (a : List ℝ) : ℝ := Real.sqrt (inner' a a)

end Nar
