import Verif.Spec.Server
import Verif.Spec.Everyday
/-! # Specification vocabulary for the service: nothing is lost -/
namespace Nar

/-- the line which an action hands over to the reasoner: one received from a connected client, while the reasoner runs -/
def handedBy (s : Server) : ServerOp → List (List Char)
  | .receive i l =>
    match s.clients[i]? with
    | some c => if c.alive && s.narAlive then [l] else []
    | none => []
  | _ => []

/-- the lines handed over to the reasoner, in order -/
def handedFrom (env : Env) : Server → List ServerOp → List (List Char)
  | _, [] => []
  | s, op :: ops => handedBy s op ++ handedFrom env (op.run env s) ops

/-- the lines handed over to the reasoner since the start, in order -/
def handedOver (env : Env) (ops : List ServerOp) : List (List Char) := handedFrom env startServer ops

/-- the messages published, with their kind, in order -/
def postedFrom (env : Env) : Server → List ServerOp → List Post
  | _, [] => []
  | s, op :: ops => postedBy s op ++ postedFrom env (op.run env s) ops

/-- the messages published since the start, with their kind, in order -/
def posted (env : Env) (ops : List ServerOp) : List Post := postedFrom env startServer ops

/-- the message tells an answer -/
def Post.isAnswer : Post → Bool
  | .answer _ => true
  | .line _ => false

/-- the lines in a history of a reasoner -/
def lineTexts (nops : List NarOp) : List (List Char) := nops.flatMap fun op => match op with | .line l _ => [l] | _ => []

/-- the lines which an action of a reasoner returns -/
def returnedBy (env : Env) (r : Reasoner) : NarOp → List (List Char)
  | .line l d => match input env r l d with | .ok (_, _, out) => out | .error _ => []
  | _ => []

/-- the lines which a reasoner returned in a history, in order -/
def returnedFrom (env : Env) : Reasoner → List NarOp → List (List Char)
  | _, [] => []
  | r, op :: nops => returnedBy env r op ++ match op.run env r with | .ok r' => returnedFrom env r' nops | .error _ => []

/-- draws of everyday use: those of a step, and relations which are written as texts of everyday use -/
def EverydayDraws (env : Env) (ops : List Op) (d : LineDraws) : Prop :=
  StepDraws d ∧ ∀ rel ∈ d.rels, ∃ txt, convRelToNarsese env.sf rel = .ok txt ∧ EverydayText env ops txt

/-- everyday use of a server: clients send lines of everyday use, the draws are those of everyday use -/
def EverydayService (env : Env) (ops : List Op) : ServerOp → Prop
  | .receive _ l => ∀ d, EverydayDraws env ops d → EverydayLine env ops (trimNewline l) d
  | .think d => EverydayDraws env ops d
  | .procWork rng => NameDraws rng
  | _ => True

end Nar
