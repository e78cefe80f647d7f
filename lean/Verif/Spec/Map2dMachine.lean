import Verif.Model.Map2dMachine
import Verif.Spec.Map2d
/-! # What 32 bit arithmetic can do -/
namespace Nar

/-- arithmetic which is right as long as the result fits into 32 bits -/
def RightIn32 (nw : Int → R Int) : Prop := ∀ n, minI32 ≤ n → n ≤ maxI32 → nw n = .ok n

/-- the map has no more pixels than can be counted with 32 bits -/
def Map2d.Fits {α : Type} (m : Map2d α) : Prop := m.w * m.h ≤ maxI32

/-- all numbers from the first to the second one fit into 32 bits -/
def Fit32 (lo hi : Int) : Prop := minI32 ≤ lo ∧ hi ≤ maxI32

end Nar
