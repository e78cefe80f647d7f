import Verif.Model.Map2d
/-! # Specification vocabulary for pixel maps -/
namespace Nar

/-- the map has as many pixels as its size says -/
structure Map2d.WF {α : Type} (m : Map2d α) : Prop where
  w : 0 ≤ m.w
  h : 0 ≤ m.h
  pixels : (m.arr.length : Int) = m.w * m.h

/-- the position is on the map -/
def Map2d.Has {α : Type} (m : Map2d α) (y x : Int) : Prop := 0 ≤ y ∧ y < m.h ∧ 0 ≤ x ∧ x < m.w

instance {α : Type} (m : Map2d α) (y x : Int) : Decidable (m.Has y x) := inferInstanceAs (Decidable (_ ∧ _))

/-- the second map shows the same as the first one except for a region which has the given colour -/
structure Painted {α : Type} [Inhabited α] (m m' : Map2d α) (region : Int → Int → Prop) (v : α) : Prop where
  wf : m'.WF
  w : m'.w = m.w
  h : m'.h = m.h
  inside : ∀ y x, m.Has y x → region y x → readAt m' y x = .ok v
  outside : ∀ y x, ¬ region y x → readAt m' y x = readAt m y x

/-- a sequence of pixel writes (row, column, value) -/
def writeAll {α : Type} (m : Map2d α) (ws : List (Int × Int × α)) : R (Map2d α) :=
  ws.foldlM (fun m (y, x, v) => writeAt m y x v) m

end Nar
