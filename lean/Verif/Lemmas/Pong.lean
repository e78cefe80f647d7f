import Verif.Spec.Pong
import Verif.Lemmas.Mem
/-! # Lemmas about the Pong world -/
namespace Nar

theorem genRange_some (rng : List Nat) {n : Nat} (h : 0 < n) : ∃ d rest, genRange rng n = .ok (d, rest) ∧ d < n := by
  refine ⟨_, _, if_neg (by omega), Nat.mod_lt _ h⟩

theorem genRange_lt {rng rest : List Nat} {n d : Nat} (h : genRange rng n = .ok (d, rest)) : d < n := by
  unfold genRange at h
  split at h
  · cases h
  · cases h; exact Nat.mod_lt _ (by omega)

/-- after the walls and the move -/
def pongMid (e : Pong) : Pong := pongScore (pongMove (pongWalls e))

/-- the world is sane -/
structure PongInv (e : Pong) : Prop where
  field : SaneField e
  ball : BallOnField e
  time : 0 ≤ e.t

theorem mid_fixed (e : Pong) : (pongMid e).szX = e.szX ∧ (pongMid e).szY = e.szY ∧ (pongMid e).batWidth = e.batWidth ∧
    (pongMid e).mulVX = e.mulVX ∧ (pongMid e).t = e.t + 1 ∧ (pongMid e).batX = e.batX ∧ (pongMid e).batVX = e.batVX ∧
    (pongMid e).vX = (pongWalls e).vX ∧ (pongMid e).vY = (pongWalls e).vY ∧
    (pongMid e).ballX = (pongMove (pongWalls e)).ballX ∧ (pongMid e).ballY = (pongMove (pongWalls e)).ballY := by
  unfold pongMid pongScore
  split
  · split <;> exact ⟨rfl, rfl, rfl, rfl, rfl, rfl, rfl, rfl, rfl, rfl, rfl⟩
  · exact ⟨rfl, rfl, rfl, rfl, rfl, rfl, rfl, rfl, rfl, rfl, rfl⟩

theorem mid_column {e : Pong} (h : PongInv e) : (pongMove (pongWalls e)).ballX = nextColumn e := by
  have hx := h.ball.x
  have ht := h.time
  have hc := h.field.cols
  unfold pongMove pongWalls nextColumn
  simp only [h.field.speed, Int.mul_zero, Int.add_zero]
  have htm : Int.tmod (e.t + 1) 2 = (e.t + 1) % 2 := by rw [Int.tmod_eq_emod_of_nonneg (by omega)]
  rw [htm]
  repeat' split
  all_goals omega

theorem mid_row {e : Pong} (h : PongInv e) : (pongMove (pongWalls e)).ballY =
    e.ballY + (if e.ballY ≥ e.szY - 1 then -1 else e.vY) := by
  have hy := h.ball.y
  unfold pongMove pongWalls
  simp only
  split
  · rfl
  · rw [if_neg (by omega)]

theorem mid_arrives {e : Pong} (h : PongInv e) : (pongMid e).ballY = 0 ↔ Arrives e := by
  have hy := h.ball.y
  have hv := h.ball.vy
  have hr := h.field.rows
  rw [(mid_fixed e).2.2.2.2.2.2.2.2.2.2, mid_row h]
  unfold Arrives
  split <;> omega

theorem nextColumn_in {e : Pong} (h : PongInv e) : 0 ≤ nextColumn e ∧ nextColumn e < e.szX := by
  have hx := h.ball.x
  have hv := h.ball.vx
  have hc := h.field.cols
  unfold nextColumn
  split
  · exact hx
  · split
    · omega
    · split <;> omega

theorem mid_row_in {e : Pong} (h : PongInv e) : 0 ≤ (pongMid e).ballY ∧ (pongMid e).ballY < e.szY := by
  have hy := h.ball.y
  have hv := h.ball.vy
  have hr := h.field.rows
  rw [(mid_fixed e).2.2.2.2.2.2.2.2.2.2, mid_row h]
  split <;> omega

theorem walls_v {e : Pong} (h : BallOnField e) :
    ((pongWalls e).vX = 1 ∨ (pongWalls e).vX = -1) ∧ ((pongWalls e).vY = 1 ∨ (pongWalls e).vY = -1) := by
  unfold pongWalls
  simp only
  refine ⟨?_, ?_⟩
  · split
    · exact .inr rfl
    · split
      · exact .inl rfl
      · exact h.vx
  · split
    · exact .inr rfl
    · split
      · exact .inl rfl
      · exact h.vy

/-- a new ball, or nothing -/
theorem spawn_cases {e e' : Pong} {rng : List Nat} (h : pongSpawn e rng = .ok e') :
    (¬ (e.ballY = 0 ∨ e.ballX = 0 ∨ e.ballX ≥ e.szX - 1) ∧ e' = { e with wasBallSpawned := false }) ∨
    ((e.ballY = 0 ∨ e.ballX = 0 ∨ e.ballX ≥ e.szX - 1) ∧ ∃ (y x : Nat) (v : Int), y < (Int.tdiv e.szY 2).toNat ∧
      x < e.szX.toNat ∧ (v = 1 ∨ v = -1) ∧
      e' = { e with ballY := Int.tdiv e.szY 2 + (y : Int), ballX := (x : Int), vX := v, wasBallSpawned := true }) := by
  unfold pongSpawn at h
  split at h
  · rename_i hs
    obtain ⟨⟨y, r1⟩, h1, h⟩ := R.bind_ok.1 h
    obtain ⟨⟨x, r2⟩, h2, h⟩ := R.bind_ok.1 h
    obtain ⟨⟨v, r3⟩, h3, h⟩ := R.bind_ok.1 h
    cases h
    refine .inr ⟨hs, y, x, _, genRange_lt h1, genRange_lt h2, ?_, rfl⟩
    split
    · exact .inl rfl
    · exact .inr rfl
  · rename_i hs
    cases h; exact .inl ⟨hs, rfl⟩

theorem spawn_total (e : Pong) (rng : List Nat) (h1 : 2 ≤ e.szX) (h2 : 2 ≤ e.szY) : ∃ e', pongSpawn e rng = .ok e' := by
  unfold pongSpawn
  split
  · obtain ⟨y, r1, h, _⟩ := genRange_some rng (n := (Int.tdiv e.szY 2).toNat) (by
      rw [Int.tdiv_eq_ediv_of_nonneg (by omega)]; omega)
    obtain ⟨x, r2, h', _⟩ := genRange_some r1 (n := e.szX.toNat) (by omega)
    obtain ⟨v, r3, h'', _⟩ := genRange_some r2 (n := 2) (by omega)
    simp only [bind, Except.bind, h, h', h'']
    exact ⟨_, rfl⟩
  · exact ⟨_, rfl⟩

theorem simStep_cases {e e' : Pong} {rng : List Nat} (h : simStep e rng = .ok e') :
    ∃ e1, pongSpawn (pongMid e) rng = .ok e1 ∧ e' = pongBat e1 := by
  unfold simStep at h
  obtain ⟨e1, h1, h⟩ := R.bind_ok.1 h
  cases h
  exact ⟨e1, h1, rfl⟩

theorem simStep_inv {e e' : Pong} {rng : List Nat} (h : simStep e rng = .ok e') (hi : PongInv e) :
    PongInv e' ∧ e'.szX = e.szX ∧ e'.szY = e.szY ∧ e'.batWidth = e.batWidth ∧ e'.t = e.t + 1 ∧
      e'.batWidth * 2 ≤ e'.batX ∧ e'.batX ≤ e'.szX - 1 + e'.batWidth ∧ e'.hits = (pongMid e).hits ∧
      e'.misses = (pongMid e).misses := by
  obtain ⟨e1, h1, rfl⟩ := simStep_cases h
  obtain ⟨m1, m2, m3, m4, m5, m6, m7, m8, m9, m10, m11⟩ := mid_fixed e
  have hb := hi.field.bat
  have hr := hi.field.rows
  have hv := walls_v hi.ball
  have hcol := nextColumn_in hi
  have hrow := mid_row_in hi
  rw [← mid_column hi, ← m10] at hcol
  have key : ∀ e2 : Pong, e2.szX = e.szX → e2.szY = e.szY → e2.batWidth = e.batWidth → e2.mulVX = e.mulVX → e2.t = e.t + 1 →
      BallOnField e2 → e2.hits = (pongMid e).hits → e2.misses = (pongMid e).misses →
      PongInv (pongBat e2) ∧ (pongBat e2).szX = e.szX ∧ (pongBat e2).szY = e.szY ∧ (pongBat e2).batWidth = e.batWidth ∧
      (pongBat e2).t = e.t + 1 ∧ (pongBat e2).batWidth * 2 ≤ (pongBat e2).batX ∧
      (pongBat e2).batX ≤ (pongBat e2).szX - 1 + (pongBat e2).batWidth ∧
      (pongBat e2).hits = (pongMid e).hits ∧ (pongBat e2).misses = (pongMid e).misses := by
    intro e2 k1 k2 k3 k4 k5 k6 k7 k8
    have hf := hi.field
    refine ⟨⟨⟨by show 2 ≤ e2.szX; rw [k1]; exact hf.cols, by show 2 ≤ e2.szY; rw [k2]; exact hf.rows,
      by show 0 ≤ e2.batWidth ∧ e2.batWidth ≤ e2.szX - 1; rw [k3, k1]; exact hf.bat,
      by show e2.mulVX = 0; rw [k4]; exact hf.speed⟩, ⟨k6.x, k6.y, k6.vx, k6.vy⟩, ?_⟩, k1, k2, k3, k5, ?_, ?_, k7, k8⟩
    · show 0 ≤ e2.t
      rw [k5]; have := hi.time; omega
    · show e2.batWidth * 2 ≤ max _ _
      omega
    · show max (e2.batWidth * 2) (min (e2.szX - 1 + e2.batWidth) _) ≤ e2.szX - 1 + e2.batWidth
      rw [k3, k1]; omega
  rcases spawn_cases h1 with ⟨hs, rfl⟩ | ⟨hs, y, x, v, hy, hx, hvv, rfl⟩
  · refine key _ m1 m2 m3 m4 m5 ⟨?_, ?_, ?_, ?_⟩ rfl rfl
    · show 0 ≤ (pongMid e).ballX ∧ (pongMid e).ballX < (pongMid e).szX
      rw [m1]; exact hcol
    · show 1 ≤ (pongMid e).ballY ∧ (pongMid e).ballY < (pongMid e).szY
      rw [m2]; omega
    · show (pongMid e).vX = 1 ∨ (pongMid e).vX = -1
      rw [m8]; exact hv.1
    · show (pongMid e).vY = 1 ∨ (pongMid e).vY = -1
      rw [m9]; exact hv.2
  · rw [m2, Int.tdiv_eq_ediv_of_nonneg (by omega)] at hy
    rw [m1] at hx
    refine key _ m1 m2 m3 m4 m5 ⟨?_, ?_, hvv, ?_⟩ rfl rfl
    · show 0 ≤ (x : Int) ∧ (x : Int) < (pongMid e).szX
      rw [m1]; omega
    · show 1 ≤ Int.tdiv (pongMid e).szY 2 + (y : Int) ∧ Int.tdiv (pongMid e).szY 2 + (y : Int) < (pongMid e).szY
      rw [m2, Int.tdiv_eq_ediv_of_nonneg (by omega)]
      omega
    · show (pongMid e).vY = 1 ∨ (pongMid e).vY = -1
      rw [m9]; exact hv.2

theorem pongOp_inv {e : Pong} (name : String) (hi : PongInv e) : PongInv (pongOp e name) := by
  unfold pongOp
  split
  · exact ⟨⟨hi.field.cols, hi.field.rows, hi.field.bat, hi.field.speed⟩, ⟨hi.ball.x, hi.ball.y, hi.ball.vx, hi.ball.vy⟩, hi.time⟩
  · split
    · exact ⟨⟨hi.field.cols, hi.field.rows, hi.field.bat, hi.field.speed⟩, ⟨hi.ball.x, hi.ball.y, hi.ball.vx, hi.ball.vy⟩, hi.time⟩
    · exact hi

theorem pongOp_fixed (e : Pong) (name : String) : (pongOp e name).szX = e.szX ∧ (pongOp e name).szY = e.szY ∧
    (pongOp e name).batWidth = e.batWidth ∧ (pongOp e name).batX = e.batX ∧ (pongOp e name).hits = e.hits ∧
    (pongOp e name).misses = e.misses := by
  unfold pongOp
  split
  · exact ⟨rfl, rfl, rfl, rfl, rfl, rfl⟩
  · split <;> exact ⟨rfl, rfl, rfl, rfl, rfl, rfl⟩

theorem mid_score {e : Pong} (h : PongInv e) :
    (¬ Arrives e → (pongMid e).hits = e.hits ∧ (pongMid e).misses = e.misses) ∧
    (Arrives e → BatCovers e (nextColumn e) → (pongMid e).hits = e.hits + 1 ∧ (pongMid e).misses = e.misses) ∧
    (Arrives e → ¬ BatCovers e (nextColumn e) → (pongMid e).hits = e.hits ∧ (pongMid e).misses = e.misses + 1) := by
  have ha := mid_arrives h
  rw [(mid_fixed e).2.2.2.2.2.2.2.2.2.2] at ha
  have hc := mid_column h
  have hb : (pongMove (pongWalls e)).batX = e.batX := rfl
  have hw : (pongMove (pongWalls e)).batWidth = e.batWidth := rfl
  have hh : (pongMove (pongWalls e)).hits = e.hits := rfl
  have hm : (pongMove (pongWalls e)).misses = e.misses := rfl
  unfold pongMid pongScore BatCovers
  rw [hc, hb, hw]
  refine ⟨fun hn => ?_, fun hn hcov => ?_, fun hn hcov => ?_⟩
  · rw [if_neg (fun h0 => hn (ha.1 h0))]; exact ⟨hh, hm⟩
  · rw [if_pos (ha.2 hn), if_pos (by omega)]; exact ⟨by rw [← hh], hm⟩
  · rw [if_pos (ha.2 hn), if_neg (by omega)]; exact ⟨hh, by rw [← hm]⟩

theorem PongOp.run_inv {e e' : Pong} {op : PongOp} (h : op.run e = .ok e') (hi : PongInv e) : PongInv e' := by
  cases op with
  | op name => cases h; exact pongOp_inv name hi
  | step rng => exact (simStep_inv h hi).1

theorem runPong_inv {e e' : Pong} {ops : List PongOp} (h : runPong e ops = .ok e') (hi : PongInv e) : PongInv e' :=
  foldlM_inv PongInv h hi (fun _ _ _ _ ha hstep => PongOp.run_inv hstep ha)

theorem simStep_total (e : Pong) (rng : List Nat) (hi : PongInv e) : ∃ e', simStep e rng = .ok e' := by
  obtain ⟨m1, m2, _⟩ := mid_fixed e
  obtain ⟨e1, h1⟩ := spawn_total (pongMid e) rng (by rw [m1]; exact hi.field.cols) (by rw [m2]; exact hi.field.rows)
  refine ⟨pongBat e1, ?_⟩
  unfold simStep
  show (pongSpawn (pongMid e) rng).bind _ = _
  rw [h1]; rfl

theorem runPong_total (ops : List PongOp) : ∀ e, PongInv e → ∃ e', runPong e ops = .ok e' := by
  induction ops with
  | nil => exact fun e _ => ⟨e, rfl⟩
  | cons op ops ih =>
    intro e hi
    have : ∃ e1, op.run e = .ok e1 := by
      cases op with
      | op name => exact ⟨_, rfl⟩
      | step rng => exact simStep_total e rng hi
    obtain ⟨e1, h1⟩ := this
    obtain ⟨e', h2⟩ := ih e1 (PongOp.run_inv h1 hi)
    refine ⟨e', ?_⟩
    unfold runPong
    rw [List.foldlM_cons]
    show (op.run e).bind _ = _
    rw [h1]; exact h2

end Nar
