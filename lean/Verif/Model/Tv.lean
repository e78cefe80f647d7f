/-!
# Truth values  (models /repo/src/Tv.rs and /repo/src/TvVec.rs)

`f64` is modelled by the exact rationals.  A division by zero, which in IEEE arithmetic yields an
infinity or NaN, is an explicit `none`.
-/
namespace Nar

/-- `Tv`, Tv.rs 1-5. -/
structure Tv where
  f : Rat
  c : Rat
  deriving DecidableEq, Repr

namespace Tv

/-- `calcExp`, Tv.rs 7-9. -/
def calcExp (tv : Tv) : Rat := tv.c * (tv.f - 1/2) + 1/2

/-- `ded`, Tv.rs 11-15. -/
def ded (a b : Tv) : Tv :=
  let f := a.f * b.f
  let c := a.c * b.c * f
  ⟨f, c⟩

/-- `neg`, Tv.rs 62-64. -/
def neg (a : Tv) : Tv := ⟨1 - a.f, a.c⟩

/-- `dedGoal`, Tv.rs 21-25. -/
def dedGoal (a b : Tv) : Tv :=
  let res1 := ded a b
  let res2 := neg (ded (neg a) b)
  if res1.c ≥ res2.c then res1 else res2

/-- `w2c`, Tv.rs 66-69 (the horizon `h` is 1).  The denominator vanishes only for `w = -1`, which
no truth function produces from truth values in range. -/
def w2c (w : Rat) : Rat := w / (w + 1)

/-- `c2w`, Tv.rs 71-74.  `none`: `c = 1` divides by zero (IEEE infinity, which makes the only
caller `rev` return NaN for both components). -/
def c2w (c : Rat) : Option Rat := if 1 - c = 0 then none else some (1 * c / (1 - c))

/-- `or`, Tv.rs 76-78. -/
def or (a b : Rat) : Rat := 1 - (1 - a) * (1 - b)

/-- `abd`, Tv.rs 27-32. -/
def abd (a b : Tv) : Tv :=
  let w := b.f * a.c * b.c
  ⟨a.f, w2c w⟩

/-- `ind`, Tv.rs 34-36. -/
def ind (a b : Tv) : Tv := abd b a

/-- `rev`, Tv.rs 38-48.  `none`: a premise has confidence exactly 1 (NaN result). -/
def rev (a b : Tv) : Option Tv := do
  let w1 ← c2w a.c
  let w2 ← c2w b.c
  let w := w1 + w2
  let f := if w > 0 then (w1 * a.f + w2 * b.f) / w else 0
  some ⟨f, w2c w⟩

/-- absolute value, `f64::abs` -/
def fabs (x : Rat) : Rat := if x < 0 then -x else x

/-- `comp`, Tv.rs 50-55. -/
def comp (a b : Tv) : Tv :=
  let f0 := or a.f b.f
  let f := if fabs f0 < 1 / 100000000 then 0 else (a.f * b.f) / f0
  let c := w2c (f0 * a.c * b.c)
  ⟨f, c⟩

/-- `int`, Tv.rs 58-60. -/
def int (a b : Tv) : Tv := ⟨a.f * b.f, a.c * b.c⟩

/-- `revVec`, TvVec.rs 4-6 (zip truncates to the shorter vector). -/
def revVec (a b : List Tv) : Option (List Tv) := (List.zip a b).mapM (fun p => rev p.1 p.2)

/-- `foldVec`, TvVec.rs 9-15. -/
def foldVec (a : List Tv) : Option Tv := a.foldlM rev ⟨0, 0⟩

/-- `compVec`, TvVec.rs 25-27. -/
def compVec (a b : List Tv) : List Tv := (List.zip a b).map (fun p => comp p.1 p.2)

end Tv
end Nar
