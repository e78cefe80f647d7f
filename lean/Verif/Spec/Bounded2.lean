import Verif.Spec.Bounded
/-! # Specification vocabulary for the limits of the reasoner as a whole -/
namespace Nar
open Term

/-- the action does no reasoning cycle -/
def NarOp.NoCycle : NarOp → Prop
  | .cycle _ => False
  | .line l _ => ∀ arg, commandOf (trimNewline l) ≠ .cycles arg
  | _ => True

/-- The number of tasks the action can add at most: something told can bring along the result of a revision; the worker draws at most
15757 conclusions in a round. -/
def NarOp.mayBring : NarOp → Nat
  | .tell _ _ _ _ _ => 2
  | .line _ _ => 2
  | .declWork => 2 * 15757
  | _ => 0

/-- declarative use of the reasoner without cycles, which cannot add more than `k` tasks -/
structure LightUse (env : Env) (k : Nat) (ops : List NarOp) : Prop where
  safe : ∀ op ∈ ops, SafeUse env op
  quiet : ∀ op ∈ ops, op.NoCycle
  load : (ops.map NarOp.mayBring).sum ≤ k

/-- what happens up to and including a cycle -/
structure Stretch where
  before : List NarOp
  selVal : Rat

/-- the actions of a stretch -/
def Stretch.ops (d : Stretch) : List NarOp := d.before ++ [.cycle d.selVal]

end Nar
