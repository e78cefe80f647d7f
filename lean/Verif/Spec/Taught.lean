import Verif.Spec.Safe
import Verif.Spec.Tv
/-! # Specification vocabulary for learning from a single experience -/
namespace Nar
open Term

/-- The reasoner has made one experience and nothing else: it has perceived `before`, then the call `act` of a registered
operator (which it executed itself, or which was reported), then `after'`, neither of these two being a call.  Nothing was
learned so far, and nothing is wanted. -/
structure OneExperience (p : Proc) (before act after' : Event) : Prop where
  window : p.trace = [before, act, after']
  fresh : Fresh p
  nothing : ∀ e, ¬ Stored p.goals e
  before_state : ¬ RegisteredCall p.ops before.name
  after_state : ∀ args name, ¬ IsCall after'.name args name
  differ : before.name ≠ after'.name
  /-- the situation is not said of a variable -/
  definite : ∀ v q, before.name ≠ .Stmt .INH (.IndepVar v) q
  /-- the result is no sequence -/
  single : ∀ ts, after'.name ≠ .Seq ts

/-- while nothing happens: the storage worker works, or the window is flushed -/
def ProcOp.Waiting : ProcOp → Prop
  | .worker rng => ∀ d ∈ rng, d % 16 ≠ 15
  | .flush => True
  | _ => False

/-- what acting promises if a goal with the truth `tv` is wanted and one experience with the weight `n` speaks for the act -/
def promise (tv : Tv) (n : Int) : Rat := (tv.f - 1/2) * (tv.f * tv.c * (n / (n + 1))) + 1/2

end Nar
