import Verif.Model.Nar
/-!
# Locks and threads

The threads of the program: the thread which reads commands and runs them (called `main` here, also when it is the
thread of the reasoner of the server, NarServer.rs 107-132), the worker of the declarative memory
(NarWorkingCycle.rs 1106-1303), the worker which stores evidence (NarProc.rs 383-440), and one task per connection of
the server (NarServer.rs 39-94).  They synchronise by `parking_lot::RwLock`, by one `std::sync::Mutex` and by two
bounded channels.

For each function the model has its locking skeleton: which locks are taken, in which mode, how long the guards live and
where the channels are used.  Everything else is left open: a loop runs any number of times, a branch is taken or
not, and any task, belief, … may be the one which is locked.  A guard which is a temporary lives to the end of
its statement; a temporary of the head of `match` or `for` lives to the end of the body; a temporary of the condition
of `if` and `while` ends before the body.  Panics are not part of this model.
-/
namespace Nar.Locks
open Nar

/-- how a lock is taken; a `Mutex` is always taken as `write` -/
inductive Mode
  | read | write
  deriving DecidableEq, Repr

/-- the locks of the program -/
inductive Lock
  /-- `Nar.mem`, Nar.rs 28 -/
  | mem2
  /-- `Mem2.rng`, NarWorkingCycle.rs 1058 -/
  | declRng
  /-- `ProcNar.goalSystem`, the depth batches, the arrays of `entriesByTerm` and the entries, NarGoalSystem.rs 30-130 -/
  | goals | batch (i : Nat) | goalArr (i : Nat) | entry (i : Nat)
  /-- `TraceDefault.trace` and `rng`, NarProc.rs 141-143 -/
  | trace | traceRng
  /-- `Mem2.shared`, NarWorkingCycle.rs 1054 -/
  | shared
  /-- `questionTasks` and `judgementTasksByTerm`, NarWorkingCycle.rs 1033-1035 -/
  | questions | byTerm
  /-- `DeclarativeShared.mem`, NarWorkingCycle.rs 1037 -/
  | concepts
  /-- a belief of the declarative memory, NarMem.rs 31-33 -/
  | belief (i : Nat)
  /-- a task, NarWorkingCycle.rs 1032 -/
  | task (i : Nat)
  /-- `globalQaHandlers` and a handler, NarWorkingCycle.rs 1057, 1010 -/
  | handlers | handler (i : Nat)
  /-- `ProcNar.evidenceMem`, which is `procMem` of the declarative memory too (main.rs 19), and a belief of it -/
  | evidence | evi (i : Nat)
  /-- the usage of a sentence, NarSentence.rs -/
  | usage (i : Nat)
  /-- the messages of the server, NarServer.rs 96-99, or the flag of the evaluation, Eval.rs 37-39 -/
  | bcast
  deriving DecidableEq, Repr

/-- the bounded channels: work for the declarative memory, NarWorkingCycle.rs 1098; evidence, NarProc.rs 377 -/
inductive Chan
  | work | store
  deriving DecidableEq, Repr

/-- `sync_channel(4)`, NarWorkingCycle.rs 1098 and NarProc.rs 377 -/
def capacity : Nat := 4

/-- what a thread does which concerns other threads -/
inductive Act
  | acq (l : Lock) (m : Mode)
  | rel (l : Lock) (m : Mode)
  | send (c : Chan)
  | recv (c : Chan)
  deriving DecidableEq, Repr

/-- locking skeletons -/
inductive Skel
  | skip
  /-- a guard and what happens while it lives -/
  | hold (l : Lock) (m : Mode) (body : Skel)
  | seq (p q : Skel)
  /-- any number of times -/
  | loop (p : Skel)
  | alt (p q : Skel)
  /-- for any object -/
  | pick (f : Nat → Skel)
  | send (c : Chan)
  | recv (c : Chan)

/-- what a skeleton may do -/
inductive Skel.Run : Skel → List Act → Prop
  | skip : Run .skip []
  | hold {l m b t} : Run b t → Run (.hold l m b) (.acq l m :: (t ++ [.rel l m]))
  | seq {p q s t} : Run p s → Run q t → Run (.seq p q) (s ++ t)
  | done {p} : Run (.loop p) []
  | again {p s t} : Run p s → Run (.loop p) t → Run (.loop p) (s ++ t)
  | left {p q t} : Run p t → Run (.alt p q) t
  | right {p q t} : Run q t → Run (.alt p q) t
  | pick {f t} (i : Nat) : Run (f i) t → Run (.pick f) t
  | send {c} : Run (.send c) [.send c]
  | recv {c} : Run (.recv c) [.recv c]

/-- one after the other -/
def Skel.all : List Skel → Skel
  | [] => .skip
  | p :: ps => .seq p (.all ps)

/-- perhaps -/
def Skel.opt (p : Skel) : Skel := .alt .skip p

open Skel Lock Mode

/-- reading any tasks, one after the other -/
def readTasks : Skel := .loop (.pick fun i => .hold (task i) read .skip)

/-- reading any beliefs of the declarative memory, one after the other -/
def readBeliefs : Skel := .loop (.pick fun i => .hold (belief i) read .skip)

/-- reading any evidence, one after the other -/
def readEvidence : Skel := .loop (.pick fun i => .hold (evi i) read .skip)

/-- reading any entries of the goal system, one after the other -/
def readEntries : Skel := .loop (.pick fun i => .hold (entry i) read .skip)

/-! ## Declarative memory -/

/-- `storeInConcepts2`, NarMem.rs 53-128, for beliefs with the locks `b`: 65 and 91, 77, 103-104 -/
def storeInConcepts (b : Nat → Lock) : Skel :=
  .loop (.pick fun i => .hold (b i) read (opt (.pick fun u => .hold (usage u) read .skip)))

/-- `limitMemory`, NarMem.rs 132-193, for beliefs with the locks `b`: 172-175 -/
def limitConcepts (b : Nat → Lock) : Skel := .loop (.pick fun i => .hold (b i) read .skip)

/-- `memReviseBelief`, NarWorkingCycle.rs 1419-1526: the memory is locked for each subterm (1433), beliefs at 1443 and 1480 -/
def memReviseBelief : Skel := .loop (.hold concepts write readBeliefs)

/-- one sentence of NarWorkingCycle.rs 1554-1606: a judgement, looked up (1557-1583) and perhaps added (1588, 1594-1595),
or a question (1600-1606) -/
def addOne : Skel :=
  .alt (.seq (.hold shared read readTasks)
          (opt (.seq (.hold shared write .skip) (.hold shared read (.hold byTerm write .skip)))))
    (opt (.hold shared read (.hold questions write .skip)))

/-- `memAddTask`, NarWorkingCycle.rs 1529-1613: revision (1537), storing (1550), the tasks (1553-1612) -/
def memAddTask : Skel :=
  opt (all [.hold shared read memReviseBelief,
    opt (.hold shared read (.hold concepts write (storeInConcepts belief))),
    .loop addOne])

/-- calling a handler: NarServer.rs 148-158, Eval.rs 48-55 -/
def callHandler : Skel := .pick fun i => .hold (handler i) write (opt (.hold bcast write .skip))

/-- `qaTryAnswer`, NarWorkingCycle.rs 1626-1656: the handler of the question lives to the end of its `if` (1635-1640), then
the global ones (1643-1646) -/
def qaTryAnswer : Skel := opt (.seq (opt callHandler) (.loop callHandler))

/-- the part of `reasonCycle` which tries to answer a question, NarWorkingCycle.rs 1704-1747, while `mem` and `shared`
are read: the length (1708), the random number (1710), the choice (1715), and the beliefs (1726-1743), which come from
the declarative memory or, for a temporal question, from the evidence -/
def sampleQuestion : Skel :=
  .seq (.hold questions read .skip) (opt (all [
    .hold mem2 read (.hold declRng write .skip),
    .hold questions read .skip,
    .hold questions write (.loop (.alt
      (.hold concepts read (.loop (.pick fun i => .hold (belief i) read (.hold handlers read qaTryAnswer))))
      (.hold evidence read (.loop (.pick fun i => .hold (evi i) read (.hold handlers read qaTryAnswer))))))]))

/-- the choice of the secondary tasks, NarWorkingCycle.rs 1777-1869, while `mem` and `shared` are read: the term (1787),
the lookup (1793-1794), the ids (1805, 1812), the complexity (1831) -/
def selectSecondary : Skel :=
  .pick fun p => all [
    .hold (task p) read .skip,
    .loop (.seq (.hold byTerm read .skip) (opt (.seq (.hold byTerm read .skip) readTasks))),
    readTasks]

/-- `reasonCycle`, NarWorkingCycle.rs 1660-1965: the counter (1663); credits from questions (1669-1690); base credit
(1692-1706); a question; the choice of a task (1752-1775) and of its partners; the usage (1884-1894) and the
message (1897-1898); the limits on tasks (1905-1934), on the lookup (1937-1957) and on concepts (1963-1969) -/
def reasonCycle : Skel :=
  all [
    .hold mem2 read (.hold shared read .skip),
    .hold mem2 read (.hold shared read (.hold questions read
      (.loop (.loop (.hold byTerm read (.loop (.pick fun i => .hold (task i) write .skip))))))),
    .hold mem2 read (.hold shared read (.loop (.pick fun i => .hold (task i) write .skip))),
    .hold mem2 read (.hold shared read sampleQuestion),
    .hold mem2 read (all [
      .hold shared read .skip,
      opt (.hold shared write readTasks),
      .hold shared read (opt selectSecondary)]),
    opt (all [
      .loop (.pick fun i => .hold (task i) read (.pick fun u => .hold (usage u) write .skip)),
      .hold mem2 read (.send .work)]),
    .hold mem2 read (.seq (.hold shared read .skip)
      (opt (.hold shared write
        (.seq (.loop (.pick fun i => .hold (task i) read (.pick fun j => .hold (task j) read .skip))) readTasks)))),
    .hold mem2 read (.seq (.hold shared read .skip)
      (opt (.hold shared write (.seq readTasks (.loop (.hold byTerm write .skip)))))),
    .hold mem2 read (.hold shared read (opt (.hold concepts write (limitConcepts belief))))]

/-- one round of the worker of the declarative memory, NarWorkingCycle.rs 1111-1302: a message (1112); one premise (1127);
the copies of the partners (1161-1164) and of the task (1168-1169); inference (1188-1196), during which the task stays
locked and no other thread which takes a lock is waited for (the thread of 1172-1186 takes none); the term (1210); the
beliefs of its concept (1211-1241); answers (1278-1287); the conclusions (1289-1299) -/
def workerRound : Skel :=
  .seq (.recv .work) (.pick fun p => all [
    .hold (task p) read .skip,
    readTasks,
    .hold (task p) read .skip,
    .hold (task p) read (.loop (.pick fun s => if p = s then .skip else .hold (task s) read .skip)),
    .hold (task p) read .skip,
    .hold shared read (.hold concepts read
      (.loop (.pick fun i => .hold (belief i) read (.hold (task p) read .skip)))),
    .loop (.hold shared read (.hold questions write (.loop (.hold handlers read qaTryAnswer)))),
    .loop (.seq (.hold (task p) read .skip) memAddTask)])

/-- `flushTasks`, NarWorkingCycle.rs 1973-1977 -/
def flushTasks : Skel := .hold shared write (.hold byTerm write .skip)

/-- `debugCreditsOfTasks`, NarWorkingCycle.rs 1979-1999: `shared` stays locked for the whole loop (1984), and is locked
again for each task (1995), while the task is locked -/
def debugCreditsOfTasks : Skel :=
  .hold shared read (.loop (.pick fun i => all [
    .hold (task i) read .skip,
    .hold (task i) read .skip,
    .hold (task i) read (.hold shared read .skip)]))

/-! ## Procedural memory -/

/-- one round of the worker which stores evidence, NarProc.rs 387-439: revision (399-433), adding (435-438, 455-490) -/
def storeRound : Skel :=
  .seq (.recv .store) (.seq
    (.hold evidence read (.loop (.pick fun i => .hold (evi i) write .skip)))
    (.loop (.hold evidence write (storeInConcepts evi))))

/-- `addEntry2`, NarGoalSystem.rs 209-314, while `mem` is read: the bridge (212-220), the active set (245-252), or the depth
batches (257-275) and the table by term (283-311) -/
def addEntry2 : Skel :=
  .pick fun e => all [
    .hold (entry e) read (opt (.hold shared read (.hold questions write .skip))),
    .hold (entry e) read .skip,
    .alt
      (.seq (.hold goals read (.hold (entry e) read (.loop (.pick fun i =>
          .hold (entry i) read (opt (.hold (entry i) read .skip))))))
        (opt (.hold goals write .skip)))
      (all [
        .hold (entry e) read (.hold goals read .skip),
        .hold goals read .skip,
        .pick fun b => .hold (batch b) write (.seq (.loop (.hold (entry e) read .skip)) (.alt
          (.seq (.pick fun i => .hold (entry i) read (.hold (entry i) read .skip)) (.hold (entry e) write .skip))
          (all [
            .hold (entry e) read .skip,
            .hold goals write (.hold (entry e) read (opt (.pick fun a => .seq
              (.hold (goalArr a) read (.loop (.pick fun i => .hold (entry i) read
                (.hold (entry e) read (opt (.hold (entry e) read .skip))))))
              (opt (.hold (goalArr a) write .skip))))),
            opt (.hold goals write (.hold (entry e) read .skip))])))])]

/-- `addEntry`, NarGoalSystem.rs 163-205, while `mem` is read: the setting (166), the test for the same goal (174-202) -/
def addEntry : Skel :=
  all [
    .hold goals read .skip,
    .hold goals write (opt (.pick fun a => .hold (goalArr a) read
      (.loop (.pick fun i => .hold (entry i) read (opt (.hold (entry i) read .skip)))))),
    opt addEntry2]

/-- `retEntries`, NarGoalSystem.rs 145-160 -/
def retEntries : Skel := .loop (.pick fun b => .hold (batch b) read .skip)

/-- `sample`, NarGoalSystem.rs 487-584: the batches (492, 517), the chosen one (527), the entries (541, 554), the binary
search (BinSearch.rs 13) and its result (561) -/
def sample : Skel :=
  .seq retEntries (.pick fun b => .hold (batch b) read (.seq readEntries
    (.loop (.pick fun i => .hold (entry i) read (.seq readEntries (opt (.pick fun j => .hold (entry j) read .skip)))))))

/-- `sampleAndInference`, NarGoalSystem.rs 745-823, while `mem` and the evidence are read: the choice (747); the rounds,
during which the goal system stays locked (780); all beliefs (807-809); the goals derived (815-821) -/
def sampleAndInference : Skel :=
  all [
    .hold goals write sample,
    opt (all [
      .hold goals read readEvidence,
      readEvidence,
      .loop addEntry])]

/-- `limitMemory` of the goal system, NarGoalSystem.rs 439-482, while `mem` is read -/
def limitGoals : Skel :=
  all [
    .hold goals read retEntries,
    .hold goals read .skip,
    .loop (.pick fun i => .hold (entry i) write .skip),
    .loop (.pick fun i => .hold (entry i) read (.pick fun j => .hold (entry j) read .skip)),
    .loop (.hold goals read .skip),
    .hold goals write .skip,
    .hold goals read .skip,
    .loop (.hold goals write .skip),
    .hold goals write .skip,
    .hold goals write .skip,
    .loop addEntry2]

/-- `TraceDefault.step`, NarProc.rs 152-287: goals which are met (155-164 with NarGoalSystem.rs 826-844), perception
(168-287), which sends evidence to the worker (282) -/
def traceStep : Skel :=
  .seq (.hold trace write (opt (.hold goals write
      (.seq retEntries (.loop (.pick fun i => .hold (entry i) write .skip))))))
    (.hold trace read (.loop (.seq (.loop (.hold traceRng write .skip)) (opt (.send .store)))))

/-- `narStep0`, NarProc.rs 537-598: the trace (543), anticipations (549, 564), perception -/
def narStep0 : Skel :=
  all [
    .hold trace read .skip,
    readEvidence,
    .loop (.pick fun i => .hold (evi i) write .skip),
    traceStep]

/-- calling an operator: the relation operator, OpLib.rs 135-152, an event, OpLib.rs 77, or, for the operator which runs
a sequence, any number of these, OpLib.rs 62-77 -/
def callOp : Skel :=
  .loop (.alt
    (.seq (.hold mem2 read (.hold shared read .skip)) (.hold mem2 write memAddTask))
    (.hold trace write .skip))

/-- `narStep1`, NarProc.rs 603-1031: the goals which fit (619-660), queued answers (665-689), prediction (701-823), the
decision (843-857), the best goal (874-934), the operator (965-973), limits (990-999), goal derivation (1003-1027) -/
def narStep1 : Skel :=
  all [
    .hold trace read .skip,
    .loop (.seq (.hold goals read (.seq retEntries
        (.loop (.pick fun i => .hold (entry i) read (opt (.seq (.hold (entry i) read .skip) (.hold (entry i) read .skip)))))))
      (opt (.pick fun i => .hold (entry i) read .skip))),
    .hold goals write readEntries,
    .hold trace read .skip,
    .loop (all [
      opt (.seq (.hold goals read (.seq retEntries readEntries)) (opt (.seq readEntries readEvidence))),
      .hold evidence read readEvidence,
      readEvidence]),
    opt (all [
      readEvidence,
      .hold mem2 read addEntry]),
    .hold goals read (.loop (.pick fun i => .seq (.hold (entry i) read .skip) (.hold (entry i) read .skip))),
    opt (.pick fun i => .seq (.hold (entry i) read .skip)
      (opt (.hold (entry i) write (opt (.seq (.hold goals write .skip) readEvidence))))),
    opt callOp,
    opt (.hold trace write .skip),
    .hold trace write .skip,
    opt (.hold evidence write (limitConcepts evi)),
    opt (.hold mem2 read limitGoals),
    .loop (.hold mem2 read (.hold evidence read sampleAndInference))]

/-! ## Input -/

/-- `mem_add_evidence` for input, NarProc.rs 455-490 -/
def addEvidence : Skel := .loop (.hold evidence write (storeInConcepts evi))

/-- `inputT2`, Nar.rs 66-124: the stamp (67), then a goal (78), a task (81, 118), an event (85) or evidence (107) -/
def inputT2 : Skel :=
  .seq (.hold mem2 read (.hold shared read .skip))
    (opt (.alt (.hold mem2 read addEntry) (.alt (.hold mem2 read memAddTask)
      (.alt (.hold trace write .skip) addEvidence))))

/-- what a command of the facade does, NarInputFacade.rs 30-218: `!sp`, `!spA`, `!spB` (34-47), `!s` (48-57), `!dtf` (59),
`!pse` (93, with NarProc.rs 494-511 and 1189-1205), the language module (NarModuleNlp3.rs 14-34), `!dt` (206),
`!dmd` (210), Narsese (217) -/
def command : Command → Skel
  | .comment | .register _ | .babbleOff | .babbleOn | .quit | .empty => .skip
  | .step => .seq narStep0 narStep1
  | .stepA => narStep0
  | .stepB => narStep1
  | .cycles _ => .loop reasonCycle
  | .flush => .hold mem2 read flushTasks
  | .showEvidence => .seq (.hold evidence read .skip) readEvidence
  | .nlp _ => .loop inputT2
  | .debugTasks => .hold mem2 read debugCreditsOfTasks
  | .debugMemory => .hold mem2 read (.hold shared read (.hold concepts read .skip))
  | .narsese => opt inputT2

/-- a command, followed in the server by the publication of its lines, NarServer.rs 115-127, and in an evaluation by a look
at the flag, Eval.rs 22 -/
def serve (c : Command) : Skel := .seq (command c) (.loop (.hold bcast write .skip))

/-- what a program does at its start: registering a handler, NarServer.rs 110, Eval.rs 15; connecting the memories,
main.rs 19 -/
def setup : Skel :=
  .loop (.alt (.hold mem2 read (.hold handlers write .skip)) (.hold mem2 read (.hold shared write .skip)))

/-- a connection of the server, NarServer.rs 39-94: the sections which lock the messages, 46-48 and 57-66 -/
def connection : Skel := .hold bcast write .skip

/-! ## Threads -/

/-- the threads, with `n` connections -/
inductive Who (n : Nat)
  | main | worker | store | client (k : Fin n)
  deriving DecidableEq

/-- a thread: the guards it has, what it still does in its present section of work, and whether it waits in the queue
of a lock -/
structure Thread where
  held : List (Lock × Mode)
  todo : List Act
  parked : Bool

/-- the threads and the number of messages in each channel -/
structure Sys (n : Nat) where
  thr : Who n → Thread
  queue : Chan → Nat

/-- nothing has happened yet -/
def start (n : Nat) : Sys n := { thr := fun _ => { held := [], todo := [], parked := false }, queue := fun _ => 0 }

variable {n : Nat}

def Sys.set (s : Sys n) (t : Who n) (x : Thread) : Sys n := { s with thr := fun u => if u = t then x else s.thr u }

/-- the thread waits in the queue for exclusive use of the lock -/
def WaitsToWrite (x : Thread) (l : Lock) : Prop := x.parked = true ∧ ∃ rest, x.todo = .acq l .write :: rest

/-- the thread can go on now.  A lock is given to a writer when nobody has a guard of it, and to a reader when nobody writes
and no other thread waits in its queue to write: `parking_lot` does not let readers overtake a waiting writer, also
not a reader which already has a guard of the same lock. -/
def CanTake (s : Sys n) (t : Who n) : Act → Prop
  | .acq l .write => ∀ u m, (l, m) ∉ (s.thr u).held
  | .acq l .read => (∀ u, (l, .write) ∉ (s.thr u).held) ∧ ∀ u, u ≠ t → ¬ WaitsToWrite (s.thr u) l
  | .rel _ _ => True
  | .send c => s.queue c < capacity
  | .recv c => 0 < s.queue c

/-- the effect of an action, after which the thread has `rest` to do -/
def exec (s : Sys n) (t : Who n) (rest : List Act) : Act → Sys n
  | .acq l m => s.set t { held := (l, m) :: (s.thr t).held, todo := rest, parked := false }
  | .rel l m => s.set t { held := (s.thr t).held.erase (l, m), todo := rest, parked := false }
  | .send c =>
    { s.set t { (s.thr t) with todo := rest, parked := false } with
      queue := fun d => if d = c then s.queue d + 1 else s.queue d }
  | .recv c =>
    { s.set t { (s.thr t) with todo := rest, parked := false } with
      queue := fun d => if d = c then s.queue d - 1 else s.queue d }

/-- a step of the program; `prog` says which sections of work a thread may begin: a thread without work begins one; a
thread which cannot go on waits in the queue; a thread which can go on does so -/
inductive Step (prog : Who n → List Act → Prop) : Sys n → Sys n → Prop
  | begin {s} (t : Who n) (w : List Act) : (s.thr t).todo = [] → prog t w →
      Step prog s (s.set t { (s.thr t) with todo := w, parked := false })
  | park {s} (t : Who n) (a : Act) (rest : List Act) : (s.thr t).todo = a :: rest → ¬ CanTake s t a →
      Step prog s (s.set t { (s.thr t) with parked := true })
  | act {s} (t : Who n) (a : Act) (rest : List Act) : (s.thr t).todo = a :: rest → CanTake s t a →
      Step prog s (exec s t rest a)

/-- any number of steps -/
inductive Steps (prog : Who n → List Act → Prop) : Sys n → Sys n → Prop
  | refl {s} : Steps prog s s
  | tail {s s' s''} : Steps prog s s' → Step prog s' s'' → Steps prog s s''

/-- the program: the thread which runs commands runs those of `ok`, and the others do their rounds -/
def program (ok : Command → Prop) : Who n → List Act → Prop
  | .main, w => Skel.Run setup w ∨ ∃ c, ok c ∧ Skel.Run (serve c) w
  | .worker, w => Skel.Run workerRound w
  | .store, w => Skel.Run storeRound w
  | .client _, w => Skel.Run connection w

end Nar.Locks
