import Verif.Model.Ad
/-! # Specification vocabulary for automatic differentiation -/
namespace Nar

/-- the pair holds the value of the function at the point and its derivative there -/
def Tracks (f : ℝ → ℝ) (x : ℝ) (a : Ad) : Prop := a.r = f x ∧ HasDerivAt f a.d x

/-- expressions in one variable built from the operations of the library other than division -/
inductive AdExpr
  | var
  | const (c : ℝ)
  | add (a b : AdExpr)
  | sub (a b : AdExpr)
  | mul (a b : AdExpr)
  | exp (a : AdExpr)

/-- the function an expression stands for -/
noncomputable def AdExpr.fn : AdExpr → ℝ → ℝ
  | .var, x => x
  | .const c, _ => c
  | .add a b, x => a.fn x + b.fn x
  | .sub a b, x => a.fn x - b.fn x
  | .mul a b, x => a.fn x * b.fn x
  | .exp a, x => Real.exp (a.fn x)

/-- what the library computes for an expression at a point -/
noncomputable def AdExpr.eval (x : ℝ) : AdExpr → Ad
  | .var => ⟨x, 1⟩
  | .const c => ⟨c, 0⟩
  | .add a b => (a.eval x).add (b.eval x)
  | .sub a b => (a.eval x).sub (b.eval x)
  | .mul a b => (a.eval x).mul (b.eval x)
  | .exp a => (a.eval x).exp

/-- sum of the products -/
noncomputable def dotFn (fs gs : List (ℝ → ℝ)) (x : ℝ) : ℝ := (List.zipWith (fun f g => f x * g x) fs gs).sum

/-- logistic function -/
noncomputable def logistic (x : ℝ) : ℝ := Real.exp x / (Real.exp x + 1)

/-- the neuron whose parameters start at the given position: the weights in order, then the bias -/
noncomputable def neuronAt (params : List ℝ) (diffIdx : Option Nat) (nIn act : Nat) (boost : ℝ) (base : Nat) : Neuron where
  weights := (List.range nIn).map fun i => ⟨params.getD (base + i) 0, if diffIdx = some (base + i) then 1 else 0⟩
  bias := ⟨params.getD (base + nIn) 0 * boost, if diffIdx = some (base + nIn) then 1 else 0⟩
  act := act

end Nar
