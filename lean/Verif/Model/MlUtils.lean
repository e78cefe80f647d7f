import Verif.Model.Basic
import Mathlib.Analysis.SpecialFunctions.Sqrt
/-! # Vector helpers: src/mlutils.rs

`f64` is modelled by the real numbers. -/
namespace Nar

/-- `vecAddScale`, mlutils.rs 3-9 -/
noncomputable def vecAddScale (a b : List ℝ) (w : ℝ) : R (List ℝ) :=
  (List.range a.length).mapM fun idx => do
    let x ← indexAt a idx
    let y ← indexAt b idx
    .ok (x + y * w)

/-- `vecAdd`, mlutils.rs 11-17 -/
noncomputable def vecAdd (a b : List ℝ) : R (List ℝ) :=
  (List.range a.length).mapM fun idx => do
    let x ← indexAt a idx
    let y ← indexAt b idx
    .ok (x + y)

/-- `vecScale`, mlutils.rs 19-25 -/
noncomputable def vecScale (a : List ℝ) (w : ℝ) : List ℝ := a.map (· * w)

/-- `vecDot`, mlutils.rs 38-44 -/
noncomputable def vecDot (a b : List ℝ) : R ℝ :=
  (List.range a.length).foldlM (fun acc idx => do
    let x ← indexAt a idx
    let y ← indexAt b idx
    .ok (acc + x * y)) 0

/-- `vecLen`, mlutils.rs 46-52 -/
noncomputable def vecLen (v : List ℝ) : ℝ := Real.sqrt (v.foldl (fun acc x => acc + x ^ 2) 0)

open Classical in
/-- `calcCosineSim`, mlutils.rs 55-57; 0/0 is not a number -/
noncomputable def cosineSim (a b : List ℝ) : R ℝ := do
  let d ← vecDot a b
  if vecLen a * vecLen b = 0 then .error .nan else .ok (d / (vecLen a * vecLen b))

end Nar
