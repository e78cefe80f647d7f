import Verif.Spec.Task2
import Verif.Spec.Tv
import Verif.Spec.Nar
/-! # Specification vocabulary for the safety of the declarative reasoner -/
namespace Nar
open Term

/-- a compound has enough parts: a product or a conjunction at least two, the others at least one -/
def Term.Shaped : Term → Prop
  | .Prod ts | .Conj ts => 2 ≤ ts.length
  | .Seq ts | .SetInt ts | .SetExt ts | .Img _ _ ts | .IntInt ts | .ExtInt ts | .Par ts => ts ≠ []
  | _ => True

/-- every compound inside the term has enough parts -/
def WellFormed (t : Term) : Prop := ∀ s, IsSubterm s t → Shaped s

/-- a statement which may be told: its compounds have enough parts, its truth value is in range and not axiomatic -/
def SaneStatement (term : Term) (tv : Tv) : Prop := WellFormed term ∧ Tv.Sane tv

/-- an action of the declarative system brings in sane material only: judgements with a truth value, and other rules which
have an expectation -/
def SysOp.Sane : SysOp → Prop
  | .input s _ _ _ => s.punct = .JUGEMENT → ∃ tv, s.evi = some (.TV tv) ∧ SaneStatement s.term tv
  | .procMem m => ∀ c ∈ m, (∀ b ∈ c.beliefsByExp, ∃ e, Expectation b e) ∧ ∀ b ∈ c.beliefsByUsage, ∃ e, Expectation b e
  | _ => True

/-- everything the reasoner is told in the course of a history is sane -/
def SaneTelling (env : Env) (ops : List NarOp) : Prop :=
  ∀ pre op post r term tv, ops = pre ++ op :: post → runNar env pre = .ok r → Told env r op term tv → SaneStatement term tv

/-- Something put in which needs no care: it can be printed; if it is a statement it is sane and no temporal rule; it is no
goal to be pursued. -/
def SafeInput (term : Term) (punct : Punct) (tv : Tv) (isEvent : Bool) : Prop :=
  (∃ txt, convTermToStr term = some txt) ∧
  (punct = .JUGEMENT → isEvent = false → ¬ IsTemporal term ∧ SaneStatement term tv) ∧
  (punct = .GOAL → isEvent = false)

/-- The line is a comment, a reasoning command with a number or without, one of the settings, or a text which the parser
handles and which is not a temporal rule, not a goal to be pursued, and gives a statement a truth value in range which is not
axiomatic. -/
def SafeLine (env : Env) (s : List Char) : Prop :=
  ∃ c, dispatch s = .ok c ∧ match c with
    | .comment | .quit | .empty | .flush | .register _ | .babbleOff | .babbleOn | .debugMemory => True
    | .cycles arg => arg = [] ∨ ∃ n, parseI64 arg = some n
    | .narsese => (∃ x, parseNarsese env.pf s = .ok x) ∧
        ∀ term tv punct isEvent, parseNarsese env.pf s = .ok (some (term, tv, punct, isEvent)) →
          (punct = .JUGEMENT → isEvent = false → ¬ IsTemporal term ∧ Tv.Sane tv) ∧ (punct = .GOAL → isEvent = false)
    | _ => False

/-- declarative use of the reasoner -/
def SafeUse (env : Env) : NarOp → Prop
  | .line l _ => SafeLine env (trimNewline l)
  | .tell term punct tv isEvent _ => SafeInput term punct tv isEvent
  | .workerLost => False
  | _ => True

end Nar
