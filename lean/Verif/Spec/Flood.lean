import Verif.Spec.Task2
import Verif.Model.Nar
/-! # Specification vocabulary: everything a reasoner can answer from -/
namespace Nar
open Term

/-- all beliefs listed in a memory -/
def allBeliefs (m : Mem) : List Sentence := m.flatMap fun c => c.beliefsByExp ++ c.beliefsByUsage

/-- all beliefs a reasoner answers from: those about what is and, if it may look at them, those about what follows in time -/
def Reasoner.beliefs (r : Reasoner) : List Sentence := allBeliefs r.look.mem ++ allBeliefs r.look.procMem

end Nar
