import Verif.Model.Basic
/-! # Pixel maps: src/Map2d.rs

Simplification: `i32` is modelled by `Int` (no overflow), `f64` by `Rat`; a negative number of pixels converted to `usize` is
too large to be allocated, which is a crash. -/
namespace Nar

/-- `Map2d`, Map2d.rs 1-6 -/
structure Map2d (α : Type) where
  arr : List α
  w : Int
  h : Int
  deriving Repr, DecidableEq

/-- `vec![v; n as usize]`, Map2d.rs 10 and 32 -/
def vecOf {α : Type} (v : α) (n : Int) : R (List α) :=
  if n < 0 then .error .explicit else .ok (List.replicate n.toNat v)

/-- `makeMap2d`, Map2d.rs 8-14 -/
def makeMap2d (h w : Int) : R (Map2d Rat) := do
  let arr ← vecOf 0 (w * h)
  .ok { arr := arr, w := w, h := h }

/-- `readAt`, Map2d.rs 16-21 -/
def readAt {α : Type} [Inhabited α] (m : Map2d α) (y x : Int) : R α :=
  if y < 0 ∨ x < 0 ∨ x ≥ m.w ∨ y ≥ m.h then .ok default
  else indexAt m.arr (y * m.w + x).toNat

/-- `writeAt`, Map2d.rs 23-28 -/
def writeAt {α : Type} (m : Map2d α) (y x : Int) (v : α) : R (Map2d α) :=
  if y < 0 ∨ x < 0 ∨ x ≥ m.w ∨ y ≥ m.h then .ok m
  else if (y * m.w + x).toNat < m.arr.length then .ok { m with arr := m.arr.set (y * m.w + x).toNat v }
  else .error .index

/-- the range `a..b` -/
def intRange (a b : Int) : List Int := (List.range (b - a).toNat).map fun (k : Nat) => a + (k : Int)

/-- two nested loops over rows and columns, as in Map2d.rs 33-34, 44-45 and 53-54 -/
def gridPoints (y0 y1 x0 x1 : Int) : List (Int × Int) := (intRange y0 y1).flatMap fun y => (intRange x0 x1).map fun x => (y, x)

/-- `crop`, Map2d.rs 31-40 -/
def crop {α : Type} [Inhabited α] (m : Map2d α) (x y sx sy : Int) : R (Map2d α) := do
  let arr ← vecOf default (sx * sy)
  (gridPoints 0 sy 0 sx).foldlM (fun res (iy, ix) => do
    let v ← readAt m (y + iy) (x + ix)
    writeAt res iy ix v) { arr := arr, w := sx, h := sy }

/-- `map2dDrawBox`, Map2d.rs 43-49 -/
def drawBox {α : Type} (m : Map2d α) (cx cy w h : Int) (v : α) : R (Map2d α) :=
  (gridPoints 0 h 0 w).foldlM (fun m (iy, ix) => writeAt m (cy + iy) (cx + ix) v) m

/-- `map2dDrawCircle`, Map2d.rs 52-60 -/
def drawCircle {α : Type} (m : Map2d α) (cx cy r : Int) (v : α) : R (Map2d α) :=
  (gridPoints (-(r + 1)) (r + 1) (-(r + 1)) (r + 1)).foldlM (fun m (iy, ix) =>
    if ix * ix + iy * iy ≤ r then writeAt m (cy + iy) (cx + ix) v else .ok m) m

/-- the test of one pixel in `drawLine`, Map2d.rs 77-101; `sqrt` is the square root of libstd. If both ends coincide the
direction is 0/0, not a number, and every comparison fails. The distance test `d > 1.5` is done on squares. -/
def onLine (sqrt : Rat → Rat) (ax ay bx by' ix iy : Int) : Bool :=
  let dx : Rat := (bx : Rat) - ax
  let dy : Rat := (by' : Rat) - ay
  let len := sqrt (dx * dx + dy * dy)
  if len = 0 then false
  else
    let dot := ((ix : Rat) - ax) * (dx / len) + ((iy : Rat) - ay) * (dy / len)
    let px := (ax : Rat) + dot * dx
    let py := (ay : Rat) + dot * dy
    decide (0 ≤ dot) && decide (dot ≤ len) &&
      decide (((ix : Rat) - px) * ((ix : Rat) - px) + ((iy : Rat) - py) * ((iy : Rat) - py) ≤ 9 / 4)

/-- `drawLine`, Map2d.rs 62-105 -/
def drawLine {α : Type} (sqrt : Rat → Rat) (m : Map2d α) (ax ay bx by' : Int) (v : α) : R (Map2d α) :=
  (gridPoints 0 m.h 0 m.w).foldlM (fun m (iy, ix) =>
    if onLine sqrt ax ay bx by' ix iy then writeAt m iy ix v else .ok m) m

/-- `sub`, Map2d.rs 108-118 -/
def mapSub (a b : Map2d Rat) : R (Map2d Rat) := do
  let res ← makeMap2d a.h a.w
  (gridPoints 0 a.h 0 a.w).foldlM (fun res (iy, ix) => do
    let av ← readAt a iy ix
    let bv ← readAt b iy ix
    writeAt res iy ix (av - bv)) res

/-- `add`, Map2d.rs 120-130 -/
def mapAdd (a b : Map2d Rat) : R (Map2d Rat) := do
  let res ← makeMap2d a.h a.w
  (gridPoints 0 a.h 0 a.w).foldlM (fun res (iy, ix) => do
    let av ← readAt a iy ix
    let bv ← readAt b iy ix
    writeAt res iy ix (av + bv)) res

/-- `divScalar`, Map2d.rs 132-141; dividing by zero is not modelled faithfully (infinity in the code, zero here) -/
def mapDiv (a : Map2d Rat) (val : Rat) : R (Map2d Rat) := do
  let res ← makeMap2d a.h a.w
  (gridPoints 0 a.h 0 a.w).foldlM (fun res (iy, ix) => do
    let av ← readAt a iy ix
    writeAt res iy ix (av / val)) res

/-- `distPow2`, Map2d.rs 143-152 -/
def distPow2 (v : Map2d Rat) : R Rat :=
  (gridPoints 0 v.h 0 v.w).foldlM (fun sum (iy, ix) => do
    let v1 ← readAt v iy ix
    .ok (sum + v1 * v1)) 0

end Nar
