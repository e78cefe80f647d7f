import Verif.Model.Map2d
/-! # Pixel maps with 32 bit arithmetic: src/Map2d.rs

The functions of `Verif.Model.Map2d` once more, with each result of an operation on `i32` handed to `nw`, which stands for what
the machine makes of it: a program built for debugging stops if the result does not fit (`checked32`), a program built for release
cuts off the upper bits (`wrapped32`).  Colours and real numbers are as in `Verif.Model.Map2d`. -/
namespace Nar

/-- the smallest and the largest `i32` -/
def minI32 : Int := -2147483648
def maxI32 : Int := 2147483647

/-- arithmetic on `i32` in a program built for debugging: it panics if the result does not fit -/
def checked32 (n : Int) : R Int := if minI32 ≤ n ∧ n ≤ maxI32 then .ok n else .error .explicit

/-- arithmetic on `i32` in a program built for release: the upper bits are cut off -/
def wrapped32 (n : Int) : R Int := .ok (Int.bmod n 4294967296)

/-- `makeMap2d`, Map2d.rs 8-14 -/
def makeMap2dM (nw : Int → R Int) (h w : Int) : R (Map2d Rat) := do
  let n ← nw (w * h)
  let arr ← vecOf 0 n
  .ok { arr := arr, w := w, h := h }

/-- the index `y*m.w+x`, Map2d.rs 20 and 27 -/
def indexM (nw : Int → R Int) (w y x : Int) : R Int := do
  let yw ← nw (y * w)
  nw (yw + x)

/-- `readAt`, Map2d.rs 16-21; a negative index converted to `usize` is out of bounds -/
def readAtM {α : Type} [Inhabited α] (nw : Int → R Int) (m : Map2d α) (y x : Int) : R α :=
  if y < 0 ∨ x < 0 ∨ x ≥ m.w ∨ y ≥ m.h then .ok default
  else do
    let i ← indexM nw m.w y x
    if i < 0 then .error .index else indexAt m.arr i.toNat

/-- `writeAt`, Map2d.rs 23-28 -/
def writeAtM {α : Type} (nw : Int → R Int) (m : Map2d α) (y x : Int) (v : α) : R (Map2d α) :=
  if y < 0 ∨ x < 0 ∨ x ≥ m.w ∨ y ≥ m.h then .ok m
  else do
    let i ← indexM nw m.w y x
    if 0 ≤ i ∧ i.toNat < m.arr.length then .ok { m with arr := m.arr.set i.toNat v } else .error .index

/-- one pixel of `crop`, Map2d.rs 35-36 -/
def cropPixelM {α : Type} [Inhabited α] (nw : Int → R Int) (m : Map2d α) (x y : Int) (res : Map2d α) (p : Int × Int) :
    R (Map2d α) := do
  let yy ← nw (y + p.1)
  let xx ← nw (x + p.2)
  let v ← readAtM nw m yy xx
  writeAtM nw res p.1 p.2 v

/-- `crop`, Map2d.rs 31-40 -/
def cropM {α : Type} [Inhabited α] (nw : Int → R Int) (m : Map2d α) (x y sx sy : Int) : R (Map2d α) := do
  let n ← nw (sx * sy)
  let arr ← vecOf default n
  (gridPoints 0 sy 0 sx).foldlM (cropPixelM nw m x y) { arr := arr, w := sx, h := sy }

/-- `writeAt(m,cy+iy,cx+ix, v)`, Map2d.rs 46 and 56 -/
def writeOffM {α : Type} (nw : Int → R Int) (cx cy : Int) (v : α) (m : Map2d α) (p : Int × Int) : R (Map2d α) := do
  let yy ← nw (cy + p.1)
  let xx ← nw (cx + p.2)
  writeAtM nw m yy xx v

/-- `map2dDrawBox`, Map2d.rs 43-49 -/
def drawBoxM {α : Type} (nw : Int → R Int) (m : Map2d α) (cx cy w h : Int) (v : α) : R (Map2d α) :=
  (gridPoints 0 h 0 w).foldlM (writeOffM nw cx cy v) m

/-- `ix*ix+iy*iy`, Map2d.rs 55 -/
def squareSumM (nw : Int → R Int) (p : Int × Int) : R Int := do
  let a ← nw (p.2 * p.2)
  let b ← nw (p.1 * p.1)
  nw (a + b)

/-- one pixel of `map2dDrawCircle`, Map2d.rs 55-57 -/
def circlePixelM {α : Type} (nw : Int → R Int) (cx cy r : Int) (v : α) (m : Map2d α) (p : Int × Int) : R (Map2d α) := do
  let d ← squareSumM nw p
  if d ≤ r then writeOffM nw cx cy v m p else .ok m

/-- `map2dDrawCircle`, Map2d.rs 52-60 -/
def drawCircleM {α : Type} (nw : Int → R Int) (m : Map2d α) (cx cy r : Int) (v : α) : R (Map2d α) := do
  let hi ← nw (r + 1)
  let lo ← nw (-hi)
  (gridPoints lo hi lo hi).foldlM (circlePixelM nw cx cy r v) m

/-- `drawLine`, Map2d.rs 62-105; the only arithmetic on `i32` is that of `writeAt` -/
def drawLineM {α : Type} (nw : Int → R Int) (sqrt : Rat → Rat) (m : Map2d α) (ax ay bx by' : Int) (v : α) : R (Map2d α) :=
  (gridPoints 0 m.h 0 m.w).foldlM (fun m (iy, ix) =>
    if onLine sqrt ax ay bx by' ix iy then writeAtM nw m iy ix v else .ok m) m

/-- one pixel of `sub` and `add`, Map2d.rs 112-114 and 124-126 -/
def zipPixelM (nw : Int → R Int) (f : Rat → Rat → Rat) (a b : Map2d Rat) (res : Map2d Rat) (p : Int × Int) : R (Map2d Rat) := do
  let av ← readAtM nw a p.1 p.2
  let bv ← readAtM nw b p.1 p.2
  writeAtM nw res p.1 p.2 (f av bv)

/-- `sub`, Map2d.rs 108-118 -/
def mapSubM (nw : Int → R Int) (a b : Map2d Rat) : R (Map2d Rat) := do
  let res ← makeMap2dM nw a.h a.w
  (gridPoints 0 a.h 0 a.w).foldlM (zipPixelM nw (fun x y => x - y) a b) res

/-- `add`, Map2d.rs 120-130 -/
def mapAddM (nw : Int → R Int) (a b : Map2d Rat) : R (Map2d Rat) := do
  let res ← makeMap2dM nw a.h a.w
  (gridPoints 0 a.h 0 a.w).foldlM (zipPixelM nw (fun x y => x + y) a b) res

/-- one pixel of `divScalar`, Map2d.rs 136-137 -/
def divPixelM (nw : Int → R Int) (a : Map2d Rat) (val : Rat) (res : Map2d Rat) (p : Int × Int) : R (Map2d Rat) := do
  let av ← readAtM nw a p.1 p.2
  writeAtM nw res p.1 p.2 (av / val)

/-- `divScalar`, Map2d.rs 132-141 -/
def mapDivM (nw : Int → R Int) (a : Map2d Rat) (val : Rat) : R (Map2d Rat) := do
  let res ← makeMap2dM nw a.h a.w
  (gridPoints 0 a.h 0 a.w).foldlM (divPixelM nw a val) res

/-- one pixel of `distPow2`, Map2d.rs 147-148 -/
def lengthPixelM (nw : Int → R Int) (v : Map2d Rat) (sum : Rat) (p : Int × Int) : R Rat := do
  let v1 ← readAtM nw v p.1 p.2
  .ok (sum + v1 * v1)

/-- `distPow2`, Map2d.rs 143-152 -/
def distPow2M (nw : Int → R Int) (v : Map2d Rat) : R Rat :=
  (gridPoints 0 v.h 0 v.w).foldlM (lengthPixelM nw v) 0

end Nar
