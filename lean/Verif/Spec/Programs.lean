import Verif.Model.Programs
import Verif.Spec.Nar
import Verif.Spec.Proc
import Verif.Spec.Pong
import Verif.Spec.TicTacToe
/-! # What is said about the programs -/
namespace Nar
open Term

/-! ## files and the interactive session -/

/-- a round of a worker as something which happens to a reasoner -/
def Work.op : Work → NarOp
  | .decl => .declWork
  | .proc rng => .procWork rng

/-- what happens to the reasoner until a line is handled -/
def Read.ops (l : Read) : List NarOp := l.work.map Work.op ++ [.line l.line l.draws]

/-- the line is the command to quit -/
def Read.quits (l : Read) : Bool := trimNewline l.line == "!QQ".toList

/-- the lines up to the first one which is the command to quit, and that one -/
def untilQuit (lines : List Read) : List Read :=
  lines.takeWhile (fun l => !l.quits) ++ (lines.dropWhile (fun l => !l.quits)).take 1

/-- what happens to a reasoner to which the lines are given -/
def readOps (lines : List Read) : List NarOp := (untilQuit lines).flatMap Read.ops

/-- the last of the first `i + 1` lines which is not empty; the empty line if there is none -/
def lastGiven (lines : List (List Char)) (i : Nat) : List Char :=
  (((lines.take (i + 1)).map trimNewline).filter (· ≠ [])).getLastD []

/-- what is typed, with each empty line replaced by the last line before it which is not empty -/
def repeated (typed : List Read) : List Read :=
  typed.mapIdx fun i l => { l with line := lastGiven (typed.map (·.line)) i }

/-! ## the benchmark -/

/-- the line is a question which the reasoner takes up, that is one marked as an event -/
def AsksQuestion (env : Env) (line : List Char) : Prop :=
  ∃ t tv, parseNarsese env.pf (trimNewline line) = .ok (some (t, tv, .QUESTION, true))

/-- the state after the first `n` cycles of the benchmark -/
def evalCycles (env : Env) (draws : Nat → EvalDraws) (r : Reasoner) (n : Nat) : R Reasoner :=
  ((List.range n).map draws).foldlM (evalCycle env) r

/-! ## programs with an environment -/

/-- the draws are usable: every sample gets a draw for the choice of an operator, and the real draws are not negative -/
structure RoundDraws.Fair (d : RoundDraws) : Prop where
  ops : ∀ i, (d.perceive i).ops ≠ []
  infs : ∀ x ∈ d.infs, 0 ≤ x.2.1

/-- what happens to the procedural reasoner in a step: perception, the event, action, and rounds of the storage worker -/
def stepOps (event : Option Term) (d : RoundDraws) : List ProcOp :=
  [.step0 d.perceive] ++ d.before.map .worker ++ event.toList.map .event ++ d.between.map .worker ++ [.step1 d.decide d.infs]

/-- what happens to the procedural reasoner in round `k` of Pong: every tenth round it is given the goal, the evidence of
which is new, then there is a step with the event -/
def pongOps (draws : Nat → RoundDraws) (k : Nat) (event : Term) : List ProcOp :=
  (if k % 10 = 0 then [.goal (.Name "0-1-xc") ⟨1, 9/10⟩ (k / 10 : Nat)] else []) ++ stepOps (some event) (draws k)

/-- the executed operator is named, if there is one; the reasoner knows `^L` and `^R` only -/
def PongAction : Option Term → Option String → Prop
  | none, none => True
  | some t, some name => (name = "^L" ∨ name = "^R") ∧ ∃ args, IsCall t args name
  | _, _ => False

/-- what happens to the world in a round -/
def worldOps (name : Option String) (rng : List Nat) : List PongOp := name.toList.map .op ++ [.step rng]

/-! ## the tic-tac-toe program -/

/-- the game was won by that sign -/
def wonBy (c : Char) (moves : List Int) : Bool :=
  match runTtt moves with
  | .ok (_, .won x) => x == c
  | _ => false

/-- The games played so far, each given by the attempted moves: the finished ones and the current one.  The counters count
the games won by each side. -/
structure Played (s : TttProg) (finished : List (List Int)) (current : List Int) : Prop where
  moves : ∀ ms ∈ finished ++ [current], ∀ m ∈ ms, 0 ≤ m ∧ m < 9
  ended : ∀ ms ∈ finished, ∃ g res, runTtt ms = .ok (g, res) ∧ res ≠ .running
  wins : s.wins = (finished.filter (wonBy 'a')).length
  losses : s.losses = (finished.filter (wonBy 'b')).length
  count : s.games + 1 = finished.length + (if s.phase = .turn then 1 else 0)
  running : s.phase = .turn → runTtt current = .ok (s.game, .running)

/-- the draws of a phase are usable -/
structure TttDraws.Fair (d : TttDraws) : Prop where
  think : ∀ x ∈ d.think, x.Fair
  perceive : d.perceive.Fair
  pause : ∀ x ∈ d.pause, x.Fair

end Nar
