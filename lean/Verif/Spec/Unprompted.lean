import Verif.Spec.Topics
import Verif.Spec.GivenUp
import Verif.Spec.Serving
/-! # Vocabulary: which names the acting side of the reasoner gets to know -/
namespace Nar
open Term

/-- all names which occur in the term have the property -/
def MentionsOnly (ok : String → Prop) (t : Term) : Prop := ∀ x, Mentions t x → ok x

/-- the action gives the term to the procedural reasoner: as an event, a goal or a rule -/
def ProcOp.Gives : ProcOp → Term → Prop
  | .event t, t' => t = t'
  | .goal t _ _, t' => t = t'
  | .rule t _ _ _ _, t' => t = t'
  | _, _ => False

/-- operators which report only events in which all names have the property, if so do the names in their arguments -/
def ReportsOnly (ok : String → Prop) (call : Call) : Prop :=
  ∀ name args p p', call name args p = .ok p' → ∃ evs, p' = { p with trace := p.trace ++ evs } ∧
    ((∀ a ∈ args, MentionsOnly ok a) → ∀ e ∈ evs, MentionsOnly ok e.name)

/-- a sentence which has to do with acting: an event, a goal, or a rule about what follows what -/
def BearsOnActing (t : Term) (punct : Punct) (isEvent : Bool) : Prop :=
  if isEvent then punct ≠ .QUESTION else IsTemporal t ∧ punct = .JUGEMENT

/-- the action gives the reasoner such a sentence: through the programming interface, as a line, or made from the text of a
relation -/
def GivesForActing (env : Env) : NarOp → Term → Prop
  | .tell t punct _ isEvent _, t' => t = t' ∧ BearsOnActing t punct isEvent
  | .line l d, t' =>
    (dispatch (trimNewline l) = .ok .narsese ∧
      ∃ tv punct isEvent, parseNarsese env.pf (trimNewline l) = .ok (some (t', tv, punct, isEvent)) ∧ BearsOnActing t' punct isEvent) ∨
    ((∃ text, dispatch (trimNewline l) = .ok (.nlp text)) ∧ ∃ rel ∈ d.rels, ∃ txt tv punct isEvent,
      convRelToNarsese env.sf rel = .ok txt ∧ parseNarsese env.pf txt = .ok (some (t', tv, punct, isEvent)) ∧
      BearsOnActing t' punct isEvent)
  | _, _ => False

/-- the line registers an operator of this name which may be tried out -/
def Permits : NarOp → String → Prop
  | .line l _, name => ∃ arg op, dispatch (trimNewline l) = .ok (.register arg) ∧
      registeredOp (splitWhitespace arg []) = some op ∧ op.babbleable = true ∧ op.name = name
  | _, _ => False

/-- the name was mentioned in something given for acting in the history, or an operator of this name may be tried out, or it is the
name SELF, with which operators are called when they are tried out -/
def Heard (env : Env) (ops : List NarOp) (x : String) : Prop :=
  (∃ op ∈ ops, (∃ t, GivesForActing env op t ∧ Mentions t x) ∨ Permits op x) ∨ x = "SELF"

end Nar
