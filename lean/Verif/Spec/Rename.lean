import Verif.Spec.Nar
import Verif.Spec.Proc
/-! # Specification vocabulary: names replaced consistently by other names

A `Renaming` says which name stands for which.  Everything that contains terms is renamed by renaming the terms in it; numbers, truth
values, evidence, credits, references and times stay. -/
namespace Nar
open Term

/-- other names for the names and for the variables; different names stay different -/
structure Renaming where
  name : String → String
  var : String → String
  name_inj : ∀ a b, name a = name b → a = b
  var_inj : ∀ a b, var a = var b → a = b

namespace Renaming
variable (ρ : Renaming)

mutual
/-- a term with other names -/
def term : Term → Term
  | Stmt c s p => Stmt c (term s) (term p)
  | Name n => Name (ρ.name n)
  | .Seq ts => .Seq (terms ts)
  | SetInt ts => SetInt (terms ts)
  | SetExt ts => SetExt (terms ts)
  | QVar n => QVar (ρ.var n)
  | DepVar n => DepVar (ρ.var n)
  | IndepVar n => IndepVar (ρ.var n)
  | Conj ts => Conj (terms ts)
  | .Prod ts => .Prod (terms ts)
  | Img r i ts => Img (term r) i (terms ts)
  | IntInt ts => IntInt (terms ts)
  | ExtInt ts => ExtInt (terms ts)
  | Par ts => Par (terms ts)
  | .Neg t => .Neg (term t)
/-- a list of terms with other names -/
def terms : List Term → List Term
  | [] => []
  | t :: ts => term t :: terms ts
end

def sentence (s : Sentence) : Sentence := { s with term := ρ.term s.term }

/-! ## the declarative reasoner -/

def concept (c : Concept) : Concept :=
  { name := ρ.term c.name, beliefsByExp := c.beliefsByExp.map ρ.sentence, beliefsByUsage := c.beliefsByUsage.map ρ.sentence }

def mem (m : Mem) : Mem := List.map ρ.concept m

def task (t : Task) : Task := { t with sentence := ρ.sentence t.sentence }

def question (q : Task2) : Task2 := { q with sentence := ρ.sentence q.sentence }

def entry {α} (p : Term × α) : Term × α := (ρ.term p.1, p.2)

def shared (sh : Shared) : Shared :=
  { sh with
    heap := sh.heap.map ρ.task
    judgementTasksByTerm := sh.judgementTasksByTerm.map ρ.entry
    questionTasks := sh.questionTasks.map ρ.question
    mem := ρ.mem sh.mem
    procMem := ρ.mem sh.procMem }

def answer (a : AnswerCall) : AnswerCall := { a with question := ρ.term a.question, answer := ρ.sentence a.answer }

def sys (s : Sys) : Sys := { s with sh := ρ.shared s.sh, log := s.log.map ρ.answer }

def sysOp : SysOp → SysOp
  | .input s calcCredit mulCredit now => .input (ρ.sentence s) calcCredit mulCredit now
  | .cycle selVal now => .cycle selVal now
  | .work => .work
  | .flush => .flush
  | .newStampId => .newStampId
  | .procMem m => .procMem (ρ.mem m)

/-! ## the procedural reasoner -/

def pconcept (c : PConcept) : PConcept := { c with name := ρ.term c.name }

def pmem (m : PMem) : PMem := { heap := m.heap.map ρ.sentence, concepts := m.concepts.map ρ.pconcept }

def goal (e : Entry) : Entry := { e with sentence := ρ.sentence e.sentence }

def group (g : Group) : Group := { term := ρ.term g.term, entries := g.entries.map ρ.goal }

def goals (g : GoalSystem) : GoalSystem :=
  { g with
    activeSet := g.activeSet.map ρ.goal
    batchesByDepth := g.batchesByDepth.map (List.map ρ.group)
    entriesByTerm := g.entriesByTerm.map fun p => (ρ.term p.1, p.2.map ρ.sentence) }

def event (e : Event) : Event := { e with name := ρ.term e.name }

def op (o : Op) : Op := { o with name := ρ.name o.name }

def proc (p : Proc) : Proc :=
  { p with
    mem := ρ.pmem p.mem
    trace := p.trace.map ρ.event
    ops := p.ops.map ρ.op
    goals := ρ.goals p.goals
    queue := p.queue.map fun m => (ρ.sentence m.1, m.2) }

def procOp : ProcOp → ProcOp
  | .event t => .event (ρ.term t)
  | .goal t tv id => .goal (ρ.term t) tv id
  | .rule t tv id n rng => .rule (ρ.term t) tv id n rng
  | .step0 draws => .step0 draws
  | .step1 rng infs => .step1 rng infs
  | .worker rng => .worker rng
  | .flush => .flush

/-! ## the reasoner as a whole -/

def reasoner (r : Reasoner) : Reasoner :=
  { r with proc := ρ.proc r.proc, sh := ρ.shared r.sh, answers := r.answers.map ρ.answer }

/-- the names which mean something to the program -/
def reserved : List String := ["SELF", "and", "^nal9_exeAndInject", "^nlpRel0"]

/-- the names which mean something to the program stay, and so do the variables: new ones are made while rules are learned -/
structure Fixes : Prop where
  vars : ∀ v, ρ.var v = v
  self : ρ.name "SELF" = "SELF"
  and : ρ.name "and" = "and"
  exec : ρ.name "^nal9_exeAndInject" = "^nal9_exeAndInject"
  rel : ρ.name "^nlpRel0" = "^nlpRel0"

/-- What was read from a line, with other names -/
def reading (x : Term × Tv × Punct × Bool) : Term × Tv × Punct × Bool := (ρ.term x.1, x.2)

/-- Two lines which mean the same but for the names: two sentences which are read as the same sentence with other names; two
registrations of the same kind of operator under the names which correspond; or lines standing for the same command, which is no
sentence in plain language. -/
def SameLine (env : Env) (l l' : List Char) : Prop :=
  match dispatch (trimNewline l), dispatch (trimNewline l') with
  | .ok .narsese, .ok .narsese =>
    parseNarsese env.pf (trimNewline l') = (parseNarsese env.pf (trimNewline l)).map (Option.map ρ.reading)
  | .ok (.register a), .ok (.register a') => registeredOp (splitWhitespace a' []) = (registeredOp (splitWhitespace a [])).map ρ.op
  | .ok (.nlp _), _ => False
  | c, c' => c = c'

/-- Two actions which are the same but for the names -/
inductive SameAction (env : Env) : NarOp → NarOp → Prop
  | line {l l' : List Char} (d : LineDraws) : ρ.SameLine env l l' → SameAction env (.line l d) (.line l' d)
  | tell (term : Term) (punct : Punct) (tv : Tv) (isEvent : Bool) (rng : List Nat) :
      SameAction env (.tell term punct tv isEvent rng) (.tell (ρ.term term) punct tv isEvent rng)
  | cycle (selVal : Rat) : SameAction env (.cycle selVal) (.cycle selVal)
  | declWork : SameAction env .declWork .declWork
  | procWork (rng : List Nat) : SameAction env (.procWork rng) (.procWork rng)
  | handlers (n : Nat) : SameAction env (.handlers n) (.handlers n)
  | verbosity (v : Int) : SameAction env (.verbosity v) (.verbosity v)
  | workerLost : SameAction env .workerLost .workerLost
  | link : SameAction env .link .link

/-- the effect of an operator, with other names -/
def effect : OpEffect → OpEffect
  | .inject e => .inject (ρ.term e)
  | .relate r => .relate (ρ.term r)

/-- The operators do not look at names: called with other names they do the same with other names. -/
def SameCalls (call call' : Call) : Prop :=
  ∀ n args p, call' (ρ.name n) (args.map ρ.term) (ρ.proc p) = (call n args p).map ρ.proc

end Renaming
end Nar
