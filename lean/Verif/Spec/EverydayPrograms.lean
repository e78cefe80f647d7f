import Verif.Spec.Everyday
import Verif.Spec.Programs
/-! # Everyday use of the programs -/
namespace Nar

/-- a round of a worker whose draws for names of variables are not 15 out of 16 -/
def Work.Fair : Work → Prop
  | .decl => True
  | .proc rng => NameDraws rng

/-- a line of everyday use is read, after rounds of the workers -/
def EverydayRead (env : Env) (ops : List Op) (l : Read) : Prop :=
  (∀ w ∈ l.work, w.Fair) ∧ EverydayLine env ops (trimNewline l.line) l.draws

end Nar
