import Verif.Model.Goal
/-!
# The Pong world  (models /repo/src/EnvPong3.rs and the perception and operators of
/repo/src/Reasoner1Entry.rs)

Printing and the printed ratio are not modelled; machine integers are modelled by integers.
-/
namespace Nar

/-- `EnvState`, EnvPong3.rs 6-25, without `verbosity` -/
structure Pong where
  szX : Int
  szY : Int
  ballX : Int
  ballY : Int
  batX : Int
  batVX : Int
  batWidth : Int
  vX : Int
  vY : Int
  mulVX : Int
  hits : Int
  misses : Int
  t : Int
  wasBallSpawned : Bool
  deriving DecidableEq, Repr

/-- `makeEnvState`, EnvPong3.rs 27-49 -/
def makePong : Pong :=
  { szX := 50, szY := 20, ballX := Int.tdiv 50 2, ballY := Int.tdiv 20 5, batX := 20, batVX := 0, batWidth := 6,
    vX := 1, vY := 1, mulVX := 0, hits := 0, misses := 0, t := 0, wasBallSpawned := false }

/-- the clock and the walls, EnvPong3.rs 53 and 112-123 -/
def pongWalls (e : Pong) : Pong :=
  { e with
    t := e.t + 1
    vX := if e.ballX ≥ e.szX - 1 then -1 else if e.ballX ≤ 0 then 1 else e.vX
    vY := if e.ballY ≥ e.szY - 1 then -1 else if e.ballY ≤ 0 then 1 else e.vY }

/-- the ball moves, EnvPong3.rs 124-128 -/
def pongMove (e : Pong) : Pong :=
  { e with
    ballX := (if Int.tmod e.t 2 = 1 then e.ballX + e.vX else e.ballX) + e.vX * e.mulVX
    ballY := e.ballY + e.vY }

/-- the score, EnvPong3.rs 129-139 -/
def pongScore (e : Pong) : Pong :=
  if e.ballY = 0 then
    if (e.ballX - e.batX).natAbs ≤ e.batWidth then { e with hits := e.hits + 1 } else { e with misses := e.misses + 1 }
  else e

/-- a new ball, EnvPong3.rs 141-149; the three draws are for its height, its column and its direction -/
def pongSpawn (e : Pong) (rng : List Nat) : R Pong :=
  if e.ballY = 0 ∨ e.ballX = 0 ∨ e.ballX ≥ e.szX - 1 then do
    let (y, rng) ← genRange rng (Int.tdiv e.szY 2).toNat
    let (x, rng) ← genRange rng e.szX.toNat
    let (v, _) ← genRange rng 2
    .ok { e with
      ballY := Int.tdiv e.szY 2 + (y : Int)
      ballX := (x : Int)
      vX := if v = 0 then 1 else -1
      wasBallSpawned := true }
  else .ok { e with wasBallSpawned := false }

/-- the bat moves, EnvPong3.rs 172-173 -/
def pongBat (e : Pong) : Pong :=
  { e with batX := max (e.batWidth * 2) (min (e.szX - 1 + e.batWidth) (e.batX + Int.tdiv (e.batVX * e.batWidth) 2)) }

/-- `simStep`, EnvPong3.rs 52-177 -/
def simStep (e : Pong) (rng : List Nat) : R Pong := do
  let e ← pongSpawn (pongScore (pongMove (pongWalls e))) rng
  .ok (pongBat e)

/-- the perceived event, Reasoner1Entry.rs 53-66 -/
def pongEvent (e : Pong) : Term :=
  if (e.ballX - e.batX).natAbs ≤ e.batWidth then .Name "0-1-xc"
  else if e.ballX - e.batX < 0 then .Name "0-1-xl"
  else .Name "0-1-xr"

/-- `OpPong::call`, Reasoner1Entry.rs 134-137, with the operators registered in lines 31-41 -/
def pongOp (e : Pong) (name : String) : Pong :=
  if name = "^L" then { e with batVX := 1 }
  else if name = "^R" then { e with batVX := -1 }
  else e

end Nar
