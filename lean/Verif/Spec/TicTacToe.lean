import Verif.Model.TicTacToe
/-! # Specification vocabulary for tic-tac-toe -/
namespace Nar

/-- the eight lines of the board, cells numbered row by row -/
def tttLines : List (Nat × Nat × Nat) :=
  [(0, 1, 2), (3, 4, 5), (6, 7, 8), (0, 3, 6), (1, 4, 7), (2, 5, 8), (0, 4, 8), (2, 4, 6)]

/-- the sign fills a line -/
def OwnsLine (f : List Char) (c : Char) : Prop :=
  ∃ l ∈ tttLines, f[l.1]? = some c ∧ f[l.2.1]? = some c ∧ f[l.2.2]? = some c

/-- a game as a sequence of attempted moves -/
def runTtt (moves : List Int) : R (Ttt × TttResult) := moves.foldlM tttAttempt (newTtt, .running)

/-- number of accepted moves of a game from a given state -/
def accepted (s : Ttt × TttResult) : List Int → R Nat
  | [] => .ok 0
  | m :: ms => do
    let s' ← tttAttempt s m
    let n ← accepted s' ms
    .ok (if s'.1.field = s.1.field then n else n + 1)

end Nar
