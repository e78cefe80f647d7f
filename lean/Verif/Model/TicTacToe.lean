import Verif.Model.Basic
/-! # The tic-tac-toe world: src/ProcTicTacToe.rs

The loop of `run` which asks the current player for moves until one is accepted is modelled by a function performing one
attempt; how the attempt is chosen (human, random draw, the reasoner's operators `^0` … `^8`) is left open, so all theorems
hold for all players. -/
namespace Nar

/-- `Gamestate`, ProcTicTacToe.rs 19-22 -/
structure Ttt where
  field : List Char
  player : Bool
  deriving Repr, DecidableEq

/-- the sign of a player, ProcTicTacToe.rs 370 -/
def tttSign (player : Bool) : Char := if player then 'a' else 'b'

/-- a new game, ProcTicTacToe.rs 97 -/
def newTtt : Ttt := { field := List.replicate 9 ' ', player := true }

/-- `tryMove`, ProcTicTacToe.rs 369-378; a negative index becomes a huge one -/
def tryMove (g : Ttt) (idx : Int) : R (Ttt × Bool) :=
  if idx < 0 then .error .index
  else do
    let c ← indexAt g.field idx.toNat
    if c ≠ ' ' then .ok (g, false)
    else .ok ({ g with field := g.field.set idx.toNat (tttSign g.player) }, true)

/-- the test of three cells, ProcTicTacToe.rs 253, 261, 268, 271 -/
def tttLine (f : List Char) (i j k : Nat) : R (Option Char) := do
  let a ← indexAt f i
  if a = ' ' then .ok none
  else do
    let b ← indexAt f j
    if a ≠ b then .ok none
    else do
      let c ← indexAt f k
      if b ≠ c then .ok none else .ok (some a)

/-- the loops over rows and columns with `break`, ProcTicTacToe.rs 252-257 and 260-265 -/
def tttFirst (f : List Char) : List (Nat × Nat × Nat) → R (Option Char)
  | [] => .ok none
  | (i, j, k) :: rest => do
    match ← tttLine f i j k with
    | some c => .ok (some c)
    | none => tttFirst f rest

/-- the winner, ProcTicTacToe.rs 249-273: later tests overwrite the result of earlier ones -/
def tttWinner (f : List Char) : R (Option Char) := do
  let r ← tttFirst f [(0, 1, 2), (3, 4, 5), (6, 7, 8)]
  let c ← tttFirst f [(0, 3, 6), (1, 4, 7), (2, 5, 8)]
  let d ← tttLine f 0 4 8
  let e ← tttLine f 2 4 6
  .ok (e <|> d <|> c <|> r)

/-- `retFieldAsString`, ProcTicTacToe.rs 364-366 -/
def tttText (f : List Char) : List Char := f.map fun c => if c = ' ' then 'S' else c

/-- how a game stands -/
inductive TttResult
  | running
  | won (sign : Char)
  | draw
  deriving Repr, DecidableEq

/-- what is decided after an accepted move, ProcTicTacToe.rs 249-350: the game ends, or it is the other player's turn -/
def tttJudge (g : Ttt) : R (Ttt × TttResult) := do
  match ← tttWinner g.field with
  | some c => .ok (g, .won c)
  | none =>
    if ¬ (tttText g.field).contains 'S' then .ok (g, .draw)
    else .ok ({ g with player := !g.player }, .running)

/-- one attempt of the current player; a rejected attempt is repeated, after the end of the game there are none -/
def tttAttempt (s : Ttt × TttResult) (idx : Int) : R (Ttt × TttResult) :=
  if s.2 ≠ .running then .ok s
  else do
    let (g, valid) ← tryMove s.1 idx
    if valid then tttJudge g else .ok (g, .running)

end Nar
