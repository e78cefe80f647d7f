/-! # Evidence stamps  (models /repo/src/NarStamp.rs) -/
namespace Nar

/-- `Stamp`, NarStamp.rs 4-7 (`newStamp`, lines 9-11, is the constructor). -/
structure Stamp where
  ids : List Int
  deriving DecidableEq, Repr

namespace Stamp

/-- `checkOverlap`, NarStamp.rs 13-22. -/
def checkOverlap (a b : Stamp) : Bool := a.ids.any (fun ia => b.ids.any (fun ib => ia == ib))

/-- the `while` loop and the two `extend`s of `merge`, NarStamp.rs 25-33. -/
def interleave (a b : List Int) : List Int :=
  let idx := min a.length b.length
  (List.zip a b).flatMap (fun p => [p.1, p.2]) ++ a.drop idx ++ b.drop idx

/-- `merge`, NarStamp.rs 24-38. -/
def merge (a b : Stamp) : Stamp :=
  let r := interleave a.ids b.ids
  ⟨r.take (min r.length 120)⟩

/-- the comparison loop of `checkSame`, NarStamp.rs 44-50. -/
def sameLoop : List Int → List Int → Bool
  | x :: xs, y :: ys => if x != y then false else sameLoop xs ys
  | _, _ => true

/-- `checkSame`, NarStamp.rs 40-52. -/
def checkSame (a b : Stamp) : Bool :=
  if a.ids.length != b.ids.length then false else sameLoop a.ids b.ids

end Stamp
end Nar
