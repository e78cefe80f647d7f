import Verif.Model.Pong
/-! # Specification vocabulary for the Pong world -/
namespace Nar

/-- what can happen to the world: an operator is executed, or time passes -/
inductive PongOp
  | op (name : String)
  | step (rng : List Nat)

/-- perform one action -/
def PongOp.run (e : Pong) : PongOp → R Pong
  | .op name => .ok (pongOp e name)
  | .step rng => simStep e rng

/-- a history -/
def runPong (e : Pong) (ops : List PongOp) : R Pong := ops.foldlM PongOp.run e

/-- a sensible field: at least two columns and rows, a bat which fits, balls of normal speed -/
structure SaneField (e : Pong) : Prop where
  cols : 2 ≤ e.szX
  rows : 2 ≤ e.szY
  bat : 0 ≤ e.batWidth ∧ e.batWidth ≤ e.szX - 1
  speed : e.mulVX = 0

/-- the ball is on the field above the bottom row and flies diagonally -/
structure BallOnField (e : Pong) : Prop where
  x : 0 ≤ e.ballX ∧ e.ballX < e.szX
  y : 1 ≤ e.ballY ∧ e.ballY < e.szY
  vx : e.vX = 1 ∨ e.vX = -1
  vy : e.vY = 1 ∨ e.vY = -1

/-- the bat covers the column -/
def BatCovers (e : Pong) (x : Int) : Prop := e.batX - e.batWidth ≤ x ∧ x ≤ e.batX + e.batWidth

/-- the column in which the ball is after the next move: it bounces off the side walls, and moves sideways in every second
step only -/
def nextColumn (e : Pong) : Int :=
  if e.t % 2 = 1 then e.ballX
  else if e.ballX = e.szX - 1 then e.ballX - 1
  else if e.ballX = 0 then e.ballX + 1
  else e.ballX + e.vX

/-- with the next move the ball reaches the bottom row -/
def Arrives (e : Pong) : Prop := e.ballY = 1 ∧ (e.vY = -1 ∨ e.szY = 2)

instance (e : Pong) : Decidable (Arrives e) := inferInstanceAs (Decidable (_ ∧ _))

/-- number of steps of a history in which the ball reaches the bottom row -/
def arrivals (e : Pong) : List PongOp → R Nat
  | [] => .ok 0
  | op :: ops => do
    let e' ← op.run e
    let n ← arrivals e' ops
    match op with
    | .step _ => .ok (if Arrives e then n + 1 else n)
    | .op _ => .ok n

end Nar
