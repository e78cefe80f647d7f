import Verif.Model.Server
import Verif.Model.Pong
import Verif.Model.TicTacToe
/-!
# The programs built on the reasoner
(models /repo/src/bin/main.rs, NarUtilReadn.rs, NarInteractive.rs, Eval.rs, ProcChaosEntry.rs, and the loops of
Reasoner1Entry.rs and ProcTicTacToe.rs)

What is only printed is not modelled.  The two workers of the reasoner run at the same time as the program; the rounds they do
between two actions of the program are given as a list.
-/
namespace Nar
open Term

/-- a round of one of the workers -/
inductive Work
  /-- the worker of the declarative memory -/
  | decl
  /-- the worker of the procedural memory, with its draws -/
  | proc (rng : List Nat)

/-- the round happens -/
def Work.run (env : Env) (r : Reasoner) : Work → Reasoner
  | .decl => declWork env r
  | .proc rng => procWork r rng

/-- a line together with what is undetermined while it waits and is handled -/
structure Read where
  line : List Char
  /-- rounds of the workers before the line is handled -/
  work : List Work
  draws : LineDraws

/-! ## files and the interactive session -/

/-- the loop of `readNarseseFile`, NarUtilReadn.rs 14-21; the second component is `quit`.  Lines which cannot be decoded are
skipped there and are left out here. -/
def readLines (env : Env) (r : Reasoner) : List Read → R (Reasoner × Bool)
  | [] => .ok (r, false)
  | l :: rest => do
    let (r, quit, _) ← input env (l.work.foldl (Work.run env) r) l.line l.draws
    if quit then .ok (r, true) else readLines env r rest

/-- `readNarseseFile`, NarUtilReadn.rs 11-24; a file which cannot be opened is ignored -/
def readNarseseFile (env : Env) (r : Reasoner) (file : Option (List Read)) : R (Reasoner × Bool) :=
  match file with
  | some lines => readLines env r lines
  | none => .ok (r, false)

/-- the line which is handled and the line which is remembered, NarInteractive.rs 16-27 -/
def repeatLast (last input2 : List Char) : List Char × List Char :=
  if trimNewline input2 = [] then (last, last) else (trimNewline input2, trimNewline input2)

/-- one round of the session, NarInteractive.rs 12-40: `st` is the reasoner and the last input; the result says whether to
quit and what is printed.  Reading at the end of the input yields the empty text.  A line which cannot be decoded is reported
and skipped there and is left out here. -/
def sessionRound (env : Env) (st : Reasoner × List Char) (l : Read) :
    R ((Reasoner × List Char) × Bool × List (List Char)) := do
  let (now, last) := repeatLast st.2 l.line
  let (r, quit, out) ← input env (l.work.foldl (Work.run env) st.1) now l.draws
  .ok ((r, last), quit, now :: out)

/-- `runInteractive`, NarInteractive.rs 8-44, for what is read from the input; the flag says that the session was ended by a
command, otherwise it is still waiting for the next line -/
def session (env : Env) (st : Reasoner × List Char) : List Read → R ((Reasoner × List Char) × Bool)
  | [] => .ok (st, false)
  | l :: rest => do
    let (st, quit, _) ← sessionRound env st l
    if quit then .ok (st, true) else session env st rest

/-- the loop over the files, bin/main.rs 21-29 -/
def readFiles (env : Env) (r : Reasoner) : List (Option (List Read)) → R (Reasoner × Bool)
  | [] => .ok (r, false)
  | f :: rest => do
    let (r, quit) ← readNarseseFile env r f
    if quit then .ok (r, true) else readFiles env r rest

/-- the interactive program, bin/main.rs 17-32: files, then the session -/
def interactive (env : Env) (files : List (Option (List Read))) (typed : List Read) : R (Reasoner × Bool) := do
  let (r, quit) ← readFiles env { createNar with linked := true } files
  if quit then .ok (r, true)
  else do
    let (st, quit) ← session env (r, []) typed
    .ok (st.1, quit)

/-! ## the benchmark of question answering -/

/-- a round of a worker while the handler of the benchmark is registered: the handler makes a text of the answer,
Eval.rs 51; if that fails the thread of the worker is gone -/
def evalWork (env : Env) (r : Reasoner) : Work → Reasoner
  | .decl =>
    match newAnswers env r (declWork env r) with
    | .ok _ => declWork env r
    | .error _ => { r with workerAlive := false }
  | .proc rng => procWork r rng

/-- what is undetermined in a cycle of the benchmark: rounds of the workers, the draw, rounds of the workers before the flag
is looked at -/
structure EvalDraws where
  before : List Work
  selVal : Rat
  after : List Work

/-- one cycle, Eval.rs 20-21 -/
def evalCycle (env : Env) (r : Reasoner) (d : EvalDraws) : R Reasoner := do
  let r := d.before.foldl (evalWork env) r
  let r' ← cycle env r d.selVal
  let _ ← newAnswers env r r'
  .ok (d.after.foldl (evalWork env) r')

/-- the loop of `run`, Eval.rs 20-31: the number of rounds left, the number of the cycle.  The handler has been called if there
are more than the `n` answers there were at the start. -/
def evalLoop (env : Env) (draws : Nat → EvalDraws) (n : Nat) : Nat → Nat → Reasoner → R (Reasoner × Option Nat)
  | 0, _, r => .ok (r, none)
  | k + 1, i, r => do
    let r ← evalCycle env r (draws i)
    if n < r.answers.length then .ok (r, some i) else evalLoop env draws n k (i + 1) r

/-- `run`, Eval.rs 13-33: one more handler, then at most 180 cycles -/
def evalRun (env : Env) (draws : Nat → EvalDraws) (r : Reasoner) : R (Reasoner × Option Nat) :=
  evalLoop env draws r.answers.length 180 0 { r with nGlobal := r.nGlobal + 1 }

/-- the benchmark of one file, bin/main.rs 66-75 and 98-106: `quit` is ignored -/
def evalFile (env : Env) (file : Option (List Read)) (draws : Nat → EvalDraws) : R (Option Nat) := do
  let (r, _) ← readNarseseFile env createNar file
  let (_, res) ← evalRun env draws r
  .ok res

/-- the score of one evaluation, bin/main.rs 108-116; `ex c` stands for `exp(-0.002 c)` -/
def evalScore (ex : Nat → Rat) : Option Nat → Rat
  | some cycles => ex cycles
  | none => 0

/-- the score and the ratio of unanswered questions, bin/main.rs 85-124, for the results of all runs, each of which is the list of
the results of the files -/
def benchmark (ex : Nat → Rat) (runs : List (List (Option Nat))) : Rat × Rat :=
  ((runs.flatten.map (evalScore ex)).sum / runs.length,
   (runs.flatten.filter (·.isNone)).length / runs.flatten.length)

/-! ## programs with an environment -/

/-- the operators of the programs with an environment do nothing to the reasoner, Reasoner1Entry.rs 134-137,
ProcTicTacToe.rs 393-397, ProcChaosEntry.rs 85-87 -/
def envCall : Call := fun _ _ p => .ok p

/-- the name of an executed operator -/
def opName (executed : Option Term) : Option String :=
  match executed with
  | none => none
  | some t => (decodeOp t).map (·.2)

/-- what is undetermined in a round: perception, rounds of the storage worker before the event, before the action, decision,
goal inferences, and the world -/
structure RoundDraws where
  perceive : Nat → SampleDraws
  before : List (List Nat)
  between : List (List Nat)
  decide : List Nat
  infs : List (Rat × Rat × List Nat)
  world : List Nat

/-- perception, an event if there is one, action -/
def envStep (env : Env) (p : Proc) (event : Option Term) (d : RoundDraws) : R (Proc × Option Term) := do
  let p ← narStep0 p d.perceive
  let p := d.before.foldl workerStep p
  let p := match event with
    | some t => eventHappened p ⟨t, p.t, p.t⟩
    | none => p
  narStep1 envCall env.goalDecay (d.between.foldl workerStep p) d.decide d.infs

/-- the goal of the Pong player, Reasoner1Entry.rs 45 and ProcChaosEntry.rs 36 -/
def pongGoal : List Char := "0-1-xc! :|:".toList

/-- the goal is put in every ten rounds, Reasoner1Entry.rs 44-46 and ProcChaosEntry.rs 35-37 -/
def remindEvery10 (env : Env) (k : Nat) (r : Reasoner) : R Reasoner :=
  if k % 10 = 0 then do
    let (r, _) ← inputN env r pongGoal []
    .ok r
  else .ok r

/-- the reasoner of the Pong program with its operators, Reasoner1Entry.rs 25-41 -/
def pongNar : Reasoner :=
  { createNar with proc := { narInit with ops := [⟨"^L", true, 3⟩, ⟨"^R", true, 3⟩] } }

/-- the executed operator acts on the world -/
def pongAct (e : Pong) (executed : Option Term) : Pong :=
  match opName executed with
  | some name => pongOp e name
  | none => e

/-- one round of the Pong program, Reasoner1Entry.rs 43-88; `k` is the number of the round -/
def pongRound (env : Env) (st : Reasoner × Pong) (kd : Nat × RoundDraws) : R (Reasoner × Pong) := do
  let r ← remindEvery10 env kd.1 st.1
  let (p, executed) ← envStep env r.proc (some (pongEvent st.2)) kd.2
  let e ← simStep (pongAct st.2 executed) kd.2.world
  .ok ({ r with proc := p }, e)

/-- `n` rounds of the Pong program -/
def pongRounds (env : Env) (draws : Nat → RoundDraws) (n : Nat) : R (Reasoner × Pong) :=
  ((List.range n).map fun k => (k, draws k)).foldlM (pongRound env) (pongNar, makePong)

/-- `reasoner1Entry`, Reasoner1Entry.rs 19-118: 5001 rounds, a panic if nothing was learned, the ratio of hits -/
def pongProgram (env : Env) (draws : Nat → RoundDraws) : R Rat := do
  let (r, e) ← pongRounds env draws 5001
  let _ ← debugEvidence r.proc.mem
  if r.proc.mem.concepts.length = 0 then .error .explicit
  else .ok (e.hits / (e.misses + e.hits))

/-! ## the stress test -/

/-- `adoptBest` without a declarative memory: NarProc.rs 857 unwraps it -/
def adoptBestAlone (p : Proc) (best : Option BestEntry) : R Proc :=
  match best with
  | none => .ok p
  | some b =>
    if b.exp > p.threshold ∧ b.evidence.isSome then do
      let _ ← adoptBest p best
      .error .unwrapNone
    else .ok p

/-- `narStep1` without a declarative memory, NarProc.rs 600-1031: limiting the goals (998) and goal inference (1024) unwrap it -/
def narStep1Alone (p : Proc) (rng : List Nat) (infs : List (Rat × Rat × List Nat)) : R Proc := do
  let best ← (List.range p.perceptWindow).foldlM (bestByState p) none
  let (best, rng) ← predictAll p best rng
  let p ← adoptBestAlone p best
  let active ← bestActive p
  let (p, picked) ← pickAction p active
  let (picked, _) ← babble p picked rng
  let (p, _) ← execute envCall p picked
  let mem ← limitMem p
  if p.t.tmod 13 = 1 then .error .unwrapNone
  else if infs ≠ [] then .error .unwrapNone
  else .ok { p with trace := traceLimit p.trace, mem := mem, t := p.t + 1 }

/-- one round of the stress test, ProcChaosEntry.rs 34-56 -/
def chaosRound (env : Env) (r : Reasoner) (kd : Nat × RoundDraws) : R Reasoner := do
  let r ← remindEvery10 env kd.1 r
  let p ← narStep0 r.proc kd.2.perceive
  let p := kd.2.before.foldl workerStep p
  let p := eventHappened p ⟨.Name (toString kd.1), p.t, p.t⟩
  let p ← narStep1Alone (kd.2.between.foldl workerStep p) kd.2.decide kd.2.infs
  .ok { r with proc := p }

/-- `n` rounds of the stress test; the whole program is 1101 rounds, ProcChaosEntry.rs 20-56 -/
def chaosRounds (env : Env) (draws : Nat → RoundDraws) (n : Nat) : R Reasoner :=
  ((List.range n).map fun k => (k, draws k)).foldlM (chaosRound env) pongNar

/-! ## the tic-tac-toe program -/

/-- what the program does next -/
inductive TttPhase
  /-- the loop over the games, ProcTicTacToe.rs 67 -/
  | newGame
  /-- a player is asked for a move, ProcTicTacToe.rs 107 -/
  | turn
  | done
  deriving DecidableEq, Repr

/-- the state of the program, ProcTicTacToe.rs 26-66 -/
structure TttProg where
  nar : Reasoner
  game : Ttt
  /-- `moveRc`: the move set by an operator and not yet used -/
  move : Option Nat
  wins : Int
  losses : Int
  /-- `cntGames` -/
  games : Int
  phase : TttPhase

/-- the operators `^0` … `^8`, ProcTicTacToe.rs 57-64 and 389-400 -/
def tttOps : List Op := (List.range 9).map fun i => ⟨"^" ++ toString i, true, 10000⟩

/-- the start of the program, ProcTicTacToe.rs 36-66 -/
def startTtt : TttProg :=
  { nar := { createNar with proc := { narInit with
               ops := tttOps, nConcepts := 500, nConceptBeliefs := 100, enAnticipation := false, enBabbling := false,
               goals := { makeGoalSystem 1000 8 with enGoalSatisfaction := false } } },
    game := newTtt, move := none, wins := 0, losses := 0, games := -1, phase := .newGame }

/-- the goal is put in if it is not known, ProcTicTacToe.rs 73-86 -/
def tttRemind (env : Env) (r : Reasoner) : R Reasoner :=
  if (retEntries r.proc.goals).any (fun e => checkEqTerm e.sentence.term (.Name "w")) then .ok r
  else do
    let (r, _) ← inputN env r "w! :|:".toList []
    .ok r

/-- the move of an executed operator, ProcTicTacToe.rs 393-397 -/
def tttMove (executed : Option Term) (move : Option Nat) : Option Nat :=
  match opName executed with
  | some name => ((List.range 9).find? fun i => "^" ++ toString i == name) <|> move
  | none => move

/-- a step of the reasoner with the shared move -/
def tttStep (env : Env) (st : Proc × Option Nat) (ed : Option Term × RoundDraws) : R (Proc × Option Nat) := do
  let (p, executed) ← envStep env st.1 ed.1 ed.2
  .ok (p, tttMove executed st.2)

/-- up to four steps until there is a move, ProcTicTacToe.rs 191-205 -/
def tttThink (env : Env) : List RoundDraws → Proc × Option Nat → R (Proc × Option Nat)
  | [], st => .ok st
  | d :: ds, st => do
    let st ← tttStep env st (none, d)
    if st.2.isSome then .ok st else tttThink env ds st

/-- what is undetermined in a phase -/
structure TttDraws where
  /-- the four steps of the reasoner -/
  think : List RoundDraws
  /-- the move of the opponent -/
  opponent : Nat
  /-- the step which perceives the move of the opponent -/
  perceive : RoundDraws
  /-- the fifty steps after a move -/
  pause : List RoundDraws
  selVal : Rat

/-- the reasoner is asked, ProcTicTacToe.rs 171-210: the window and the anticipations are emptied, babbling is switched on and the
board is perceived -/
def tttAsk (env : Env) (s : TttProg) (d : TttDraws) : R TttProg := do
  let p := { traceFlush s.nar.proc with anticipated := [], enBabbling := true }
  let p := eventHappened p ⟨.Name (String.ofList (tttText s.game.field)), p.t, p.t⟩
  let (p, move) ← tttThink env (d.think.take 4) (p, s.move)
  .ok { s with nar := { s.nar with proc := p }, move := move }

/-- fifty steps, ProcTicTacToe.rs 292-295 and 337-340 -/
def tttPause (env : Env) (s : TttProg) (d : TttDraws) : R TttProg := do
  let (p, move) ← ((d.pause.take 50).map fun x => ((none : Option Term), x)).foldlM (tttStep env) (s.nar.proc, s.move)
  .ok { s with nar := { s.nar with proc := p }, move := move }

/-- the opponent's move is perceived, ProcTicTacToe.rs 328-335 -/
def tttPerceive (env : Env) (s : TttProg) (d : TttDraws) : R TttProg :=
  if s.game.player then .ok s
  else do
    let (p, move) ← tttStep env (s.nar.proc, s.move) (some (.Name (String.ofList (tttText s.game.field))), d.perceive)
    .ok { s with nar := { s.nar with proc := p }, move := move }

/-- after an accepted move, ProcTicTacToe.rs 249-349 -/
def tttAfter (env : Env) (s : TttProg) (d : TttDraws) : R TttProg := do
  let s := { s with nar := { s.nar with proc := { s.nar.proc with enBabbling := false } } }
  match ← tttWinner s.game.field with
  | some c =>
    if c = 'a' then do
      let (r, _) ← inputN env s.nar "w. :|:".toList []
      let s ← tttPause env { s with nar := r, wins := s.wins + 1 } d
      .ok { s with phase := .newGame }
    else .ok { s with losses := if c = 'b' then s.losses + 1 else s.losses, phase := .newGame }
  | none =>
    if ¬ (tttText s.game.field).contains 'S' then .ok { s with phase := .newGame }
    else do
      let s ← tttPerceive env s d
      let s ← tttPause env s d
      let r ← cycle env s.nar d.selVal
      .ok { s with nar := r, game := { s.game with player := !s.game.player } }

/-- a move is tried; an accepted one is followed up, otherwise the player is asked again -/
def tttTry (env : Env) (s : TttProg) (d : TttDraws) (idx : Nat) : R TttProg := do
  let (g, valid) ← tryMove s.game idx
  if valid then tttAfter env { s with game := g } d else .ok s

/-- one phase of the program, ProcTicTacToe.rs 67-353 -/
def tttPhase (env : Env) (max : Int) (s : TttProg) (d : TttDraws) : R TttProg :=
  match s.phase with
  | .done => .ok s
  | .newGame =>
    if s.games ≥ max then .ok { s with phase := .done }
    else do
      let r ← tttRemind env s.nar
      .ok { s with nar := { r with proc := traceFlush r.proc }, game := newTtt, games := s.games + 1, phase := .turn }
  | .turn =>
    if s.game.player then do
      let s ← tttAsk env s d
      match s.move with
      | some m => tttTry env { s with move := none } d m
      | none => .ok s
    else tttTry env { s with nar := { s.nar with proc := { s.nar.proc with anticipated := [] } } } d (d.opponent % 9)

/-- the program up to some point -/
def playTtt (env : Env) (max : Int) (draws : List TttDraws) : R TttProg := draws.foldlM (tttPhase env max) startTtt

/-! ## the command line -/

/-- what the program does, bin/main.rs 14-130 -/
inductive Mode
  | interactive (files : List String)
  | pong
  | ttt (games : Nat)
  | chaos
  | server
  | pongTen
  | benchmark (files : List String)
  | benchmarkRuns (runs : Int) (files : List String)
  | train
  /-- nothing at all -/
  | nothing
  deriving DecidableEq, Repr

/-- the command line, bin/main.rs 14-130, without the name of the program; `expect` panics without a mode, `unwrap` without a
number of runs -/
def mainMode : List String → R Mode
  | [] => .error .explicit
  | m :: args =>
    if m = "it" then .ok (.interactive args)
    else if m = "envPong3" then .ok .pong
    else if m = "envTTT2" then .ok (.ttt 500)
    else if m = "envTTTprof" then .ok (.ttt 10)
    else if m = "chaos" then .ok .chaos
    else if m = "srv" then .ok .server
    else if m = "pe" then .ok .pongTen
    else if m = "bQA" then .ok (.benchmark args)
    else if m = "bQA2" then
      match args with
      | [] => .error .unwrapNone
      | n :: files =>
        match parseI64 n.toList with
        | some k => .ok (.benchmarkRuns k files)
        | none => .error .parse
    else if m = "nnTrain.nlp" then .ok .train
    else .ok .nothing

end Nar
