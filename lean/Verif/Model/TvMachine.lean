import Verif.Model.Tv
/-!
# Truth values in machine arithmetic  (models /repo/src/Tv.rs)

The same functions as in `Model/Tv.lean`, but every arithmetic operation is followed by the rounding `rnd` of the machine.
Numbers are rationals; a division by zero, which yields an infinity or NaN, is an explicit `none`.  `rnd64` is the rounding of
`f64` (IEEE 754 binary64, round to nearest, ties to even), without the upper limit of the exponent.
-/
namespace Nar
namespace TvM

variable (rnd : Rat → Rat)

/-- `calcExp`, Tv.rs 7-9 -/
def calcExp (tv : Tv) : Rat := rnd (rnd (tv.c * rnd (tv.f - 1/2)) + 1/2)

/-- `ded`, Tv.rs 11-15 -/
def ded (a b : Tv) : Tv := ⟨rnd (a.f * b.f), rnd (rnd (a.c * b.c) * rnd (a.f * b.f))⟩

/-- `neg`, Tv.rs 62-64 -/
def neg (a : Tv) : Tv := ⟨rnd (1 - a.f), a.c⟩

/-- `dedGoal`, Tv.rs 21-25 -/
def dedGoal (a b : Tv) : Tv :=
  if (ded rnd a b).c ≥ (neg rnd (ded rnd (neg rnd a) b)).c then ded rnd a b else neg rnd (ded rnd (neg rnd a) b)

/-- `w2c`, Tv.rs 66-69 -/
def w2c (w : Rat) : Rat := rnd (w / rnd (w + 1))

/-- `c2w`, Tv.rs 71-74; `none`: division by zero -/
def c2w (c : Rat) : Option Rat := if rnd (1 - c) = 0 then none else some (rnd (rnd (1 * c) / rnd (1 - c)))

/-- `or`, Tv.rs 76-78 -/
def or (a b : Rat) : Rat := rnd (1 - rnd (rnd (1 - a) * rnd (1 - b)))

/-- `abd`, Tv.rs 27-32 -/
def abd (a b : Tv) : Tv := ⟨a.f, w2c rnd (rnd (rnd (b.f * a.c) * b.c))⟩

/-- `ind`, Tv.rs 34-36 -/
def ind (a b : Tv) : Tv := abd rnd b a

/-- `rev`, Tv.rs 38-48; `none`: NaN -/
def rev (a b : Tv) : Option Tv := do
  let w1 ← c2w rnd a.c
  let w2 ← c2w rnd b.c
  let w := rnd (w1 + w2)
  let f := if w > 0 then rnd (rnd (rnd (w1 * a.f) + rnd (w2 * b.f)) / w) else 0
  some ⟨f, w2c rnd w⟩

/-- `comp`, Tv.rs 50-55 -/
def comp (a b : Tv) : Tv :=
  let f0 := or rnd a.f b.f
  let f := if Tv.fabs f0 < rnd (1 / 100000000) then 0 else rnd (rnd (a.f * b.f) / f0)
  ⟨f, w2c rnd (rnd (rnd (f0 * a.c) * b.c))⟩

/-- `int`, Tv.rs 58-60 -/
def int (a b : Tv) : Tv := ⟨rnd (a.f * b.f), rnd (a.c * b.c)⟩

/-- `foldVec`, TvVec.rs 9-15 -/
def foldVec (v : List Tv) : Option Tv := v.foldlM (rev rnd) ⟨0, 0⟩

end TvM

/-! ## the rounding of `f64` -/

/-- powers of two -/
def pow2 : Int → Rat
  | .ofNat n => ((2 ^ n : Nat) : Rat)
  | .negSucc n => 1 / ((2 ^ (n + 1) : Nat) : Rat)

/-- nearest integer, ties to even -/
def roundEven (q : Rat) : Int :=
  if q - q.floor < 1/2 then q.floor
  else if 1/2 < q - q.floor then q.floor + 1
  else if q.floor % 2 = 0 then q.floor else q.floor + 1

/-- the exponent of a positive number: `2^e ≤ x < 2^(e+1)` -/
def expo (x : Rat) : Int :=
  let e := (Nat.log2 x.num.natAbs : Int) - Nat.log2 x.den
  if x < pow2 e then e - 1 else e

/-- the distance of the `f64` numbers around `x`, as an exponent: 53 binary digits, but nothing below `2^-1074` -/
def ulp (x : Rat) : Int := max (expo x - 52) (-1074)

/-- rounding of a positive number -/
def rndPos (x : Rat) : Rat := roundEven (x / pow2 (ulp x)) * pow2 (ulp x)

/-- the rounding of `f64` -/
def rnd64 (x : Rat) : Rat := if x = 0 then 0 else if 0 < x then rndPos x else - rndPos (-x)

end Nar
