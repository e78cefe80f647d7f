import Verif.Model.Nar
/-!
# The server  (models /repo/src/NarServer.rs)

The program has one thread for the reasoner (lines 107-132), the workers of the reasoner, and one task per
connection.  They share the list of messages behind one lock; every section which holds the lock is one step of the
model, so all interleavings of such sections are covered.  What the network does to bytes already written is not
modelled.  A panic of a connection ends its task; a panic of the thread of the reasoner drops the receiver of the
channel, so that the next `send(..).unwrap()` of each connection panics.
-/
namespace Nar
open Term

/-- `Global`, NarServer.rs 96-99 -/
structure Global where
  arr : List (Int × List Char)
  idCounter : Int

/-- a message is published, NarServer.rs 154-157 and 117-119 -/
def Global.push (g : Global) (msg : List Char) : Global :=
  { arr := g.arr ++ [(g.idCounter, msg)], idCounter := g.idCounter + 1 }

/-- limitation, NarServer.rs 122-125 -/
def Global.limit (g : Global) : Global :=
  if g.arr.length > 50 then { g with arr := g.arr.drop (g.arr.length - 50) } else g

/-- the loop over the messages, NarServer.rs 58-64: the counter and the messages to send -/
def pollLoop (my : Int) (toSend : List (List Char)) : List (Int × List Char) → Int × List (List Char)
  | [] => (my, toSend)
  | (id, msg) :: rest => if id ≥ my then pollLoop id (toSend ++ [msg]) rest else pollLoop my toSend rest

/-- a message which is going to be published: an answer, NarServer.rs 148-158, or a line returned by the command,
NarServer.rs 115-126 -/
inductive Post
  | answer (msg : List Char)
  | line (msg : List Char)
  deriving DecidableEq, Repr

/-- publishing -/
def Global.post (g : Global) : Post → Global
  | .answer msg => g.push msg
  | .line msg => (g.push msg).limit

/-- a connection: its counter (lines 44-48), what was sent to it, whether its task still runs -/
structure Client where
  my : Int
  sent : List (List Char)
  alive : Bool

/-- the server -/
structure Server where
  nar : Reasoner
  /-- the thread of the reasoner still runs -/
  narAlive : Bool
  /-- lines on the way to the reasoner -/
  chan : List (List Char)
  /-- messages which the thread of the reasoner is about to publish -/
  todo : List Post
  /-- messages which the worker is about to publish -/
  todoWorker : List Post
  global : Global
  clients : List Client

/-- `run`, NarServer.rs 101-110: one handler for answers is registered -/
def startServer : Server :=
  { nar := { createNar with nGlobal := 1 }, narAlive := true, chan := [], todo := [], todoWorker := [],
    global := ⟨[], 0⟩, clients := [] }

/-- the text of an answer, NarServer.rs 151 -/
def answerText (env : Env) (c : AnswerCall) : R Post :=
  match c.question.convTermToStr with
  | none => .error .index
  | some q => do
    let s ← convSentenceTermPunctToStr env.sf c.answer true
    .ok (.answer ("TRACE answer: ".toList ++ q ++ "? ".toList ++ s))

/-- the answers to publish between two states of the reasoner: those given to the registered handler -/
def newAnswers (env : Env) (r r' : Reasoner) : R (List Post) :=
  (r'.answers.drop r.answers.length).mapM (answerText env)

/-- the thread of the reasoner takes a line, NarServer.rs 111-114; what it publishes is published later.  If anything
panics the thread is gone. -/
def think (env : Env) (s : Server) (d : LineDraws) : Server :=
  if s.narAlive = true ∧ s.todo = [] then
    match s.chan with
    | [] => s
    | l :: rest =>
      match input env s.nar l d with
      | .error _ => { s with narAlive := false, chan := rest }
      | .ok (r, _, lines) =>
        match newAnswers env s.nar r with
        | .error _ => { s with narAlive := false, chan := rest }
        | .ok answers => { s with nar := r, chan := rest, todo := answers ++ lines.map .line }
  else s

/-- the worker of the declarative memory does a round -/
def serverDeclWork (env : Env) (s : Server) : Server :=
  if s.todoWorker = [] then
    match newAnswers env s.nar (declWork env s.nar) with
    | .error _ => { s with nar := { s.nar with workerAlive := false } }
    | .ok answers => { s with nar := declWork env s.nar, todoWorker := answers }
  else s

/-- the thread of the reasoner publishes its next message -/
def publish (s : Server) : Server :=
  match s.todo with
  | [] => s
  | m :: rest => { s with todo := rest, global := s.global.post m }

/-- the worker publishes its next message -/
def publishWorker (s : Server) : Server :=
  match s.todoWorker with
  | [] => s
  | m :: rest => { s with todoWorker := rest, global := s.global.post m }

/-- a client connects, NarServer.rs 44-48 -/
def connect (s : Server) : Server :=
  { s with clients := s.clients ++ [⟨s.global.idCounter, [], true⟩] }

/-- a connection receives a line, NarServer.rs 50-54: it is sent to the reasoner; `unwrap` panics if the reasoner is gone -/
def receive (s : Server) (i : Nat) (line : List Char) : Server :=
  match s.clients[i]? with
  | none => s
  | some c =>
    if c.alive then
      if s.narAlive then { s with chan := s.chan ++ [line] }
      else { s with clients := s.clients.set i { c with alive := false } }
    else s

/-- the connection sends what was published, NarServer.rs 56-73 -/
def poll (s : Server) (i : Nat) : Server :=
  match s.clients[i]? with
  | none => s
  | some c =>
    if c.alive then
      let (my, toSend) := pollLoop c.my [] s.global.arr
      { s with clients := s.clients.set i { c with my := my, sent := c.sent ++ toSend } }
    else s

end Nar
