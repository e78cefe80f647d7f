import Verif.Model.Server
import Verif.Spec.Nar
/-! # Specification vocabulary for the server -/
namespace Nar

/-- What can happen to a server, in any order and interleaving. -/
inductive ServerOp
  /-- a client connects -/
  | connect
  /-- the connection of client `i` receives a line -/
  | receive (i : Nat) (line : List Char)
  /-- the connection of client `i` sends what was published -/
  | poll (i : Nat)
  /-- the thread of the reasoner handles the next line -/
  | think (d : LineDraws)
  /-- the thread of the reasoner publishes its next message -/
  | publish
  /-- the worker of the declarative memory does a round -/
  | declWork
  /-- the worker of the declarative memory publishes its next message -/
  | publishWorker
  /-- the worker of the procedural memory does a round -/
  | procWork (rng : List Nat)

/-- perform one action -/
def ServerOp.run (env : Env) (s : Server) : ServerOp → Server
  | .connect => Nar.connect s
  | .receive i line => Nar.receive s i line
  | .poll i => Nar.poll s i
  | .think d => Nar.think env s d
  | .publish => Nar.publish s
  | .declWork => serverDeclWork env s
  | .publishWorker => Nar.publishWorker s
  | .procWork rng => { s with nar := Nar.procWork s.nar rng }

/-- continue a history -/
def moreServer (env : Env) (s : Server) (ops : List ServerOp) : Server := ops.foldl (ServerOp.run env) s

/-- a history of a server, from its start -/
def runServer (env : Env) (ops : List ServerOp) : Server := moreServer env startServer ops

def Post.text : Post → List Char
  | .answer m => m
  | .line m => m

/-- the message which is published by an action -/
def publishedBy (s : Server) : ServerOp → List (List Char)
  | .publish => (s.todo.take 1).map Post.text
  | .publishWorker => (s.todoWorker.take 1).map Post.text
  | _ => []

/-- the message which is published by an action, with its kind -/
def postedBy (s : Server) : ServerOp → List Post
  | .publish => s.todo.take 1
  | .publishWorker => s.todoWorker.take 1
  | _ => []

/-- the messages published in a history, in order -/
def publishedFrom (env : Env) : Server → List ServerOp → List (List Char)
  | _, [] => []
  | s, op :: ops => publishedBy s op ++ publishedFrom env (op.run env s) ops

/-- the messages published since the start -/
def published (env : Env) (ops : List ServerOp) : List (List Char) := publishedFrom env startServer ops

/-- the lines received from clients -/
def receivedLines : List ServerOp → List (List Char)
  | [] => []
  | .receive _ l :: ops => l :: receivedLines ops
  | _ :: ops => receivedLines ops

/-- what happens to the reasoner of a server: lines from clients and work of its workers -/
def FromClients (lines : List (List Char)) : NarOp → Prop
  | .line l _ => l ∈ lines
  | .declWork | .procWork _ | .workerLost => True
  | _ => False

/-- the message tells an answer which is derivable in the history `nops` of the reasoner, or it was returned by a command
from a client -/
def Legitimate (env : Env) (lines : List (List Char)) (nops : List NarOp) (p : Post) : Prop :=
  (∃ c, Derivable env nops c.answer ∧ answerText env c = .ok p) ∨
  (∃ r l d r' q out m, l ∈ lines ∧ input env r l d = .ok (r', q, out) ∧ m ∈ out ∧ p = .line m)

/-- client `i` (the one which connects after `pre`) polls often enough in `mid`: between its connection or a poll and its
next poll at most 50 messages are published -/
def PollsOften (env : Env) (pre mid : List ServerOp) (i : Nat) : Prop :=
  ∀ a m rest, mid = a ++ m ++ .poll i :: rest → ServerOp.poll i ∉ m → (a = [] ∨ ∃ a', a = a' ++ [.poll i]) →
    (publishedFrom env (runServer env (pre ++ .connect :: a)) m).length ≤ 50

end Nar
