import Verif.Spec.Task2
import Verif.Lemmas.Term
/-! # Specification vocabulary: how much attention a task gets -/
namespace Nar
open Term

/-- The own credit of a statement of complexity `c`, `k` cycles after it was added: one point at first, half a point more in each
cycle, each time divided by the complexity. -/
def ownCredit (c : Nat) : Nat → Rat
  | 0 => 1 / c
  | k + 1 => (ownCredit c k + 1/2) / c

/-- the number of pairs of a place in `q` and a place in `t` at which the same sub-term stands -/
def inCommon (q t : Term) : Nat := ((retSubterms q).map fun x => (retSubterms t).count x).sum

/-- what is added pays for its complexity, as everything does which a reasoner is told -/
def SysOp.Pays : SysOp → Prop
  | .input _ calcCredit _ _ => calcCredit = true
  | _ => True

end Nar
