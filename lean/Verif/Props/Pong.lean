import Verif.Lemmas.Pong
/-! # Property theorems about the Pong world (C43) -/
namespace Nar.Props
open Nar

/-- the world the experiment starts with -/
theorem makePong_sane : SaneField makePong ∧ BallOnField makePong ∧ makePong.t = 0 :=
  ⟨⟨by decide, by decide, by decide, rfl⟩, ⟨by decide, by decide, .inl rfl, .inl rfl⟩, rfl⟩

/-- C43: no history crashes the world, and whatever operators are executed and whatever is drawn, the ball stays on the
field above the bottom row. -/
theorem C43_ball_stays_on_field (e : Pong) (hf : SaneField e) (hb : BallOnField e) (ht : 0 ≤ e.t) (ops : List PongOp) :
    ∃ e', runPong e ops = .ok e' ∧ SaneField e' ∧ BallOnField e' := by
  obtain ⟨e', h⟩ := runPong_total ops e ⟨hf, hb, ht⟩
  have hi := runPong_inv h ⟨hf, hb, ht⟩
  exact ⟨e', h, hi.field, hi.ball⟩

/-- C43: in the world of the experiment the ball is always in the field of 50 columns and 20 rows and the bat is between
columns 12 and 55. -/
theorem C43_bounds (ops : List PongOp) :
    ∃ e, runPong makePong ops = .ok e ∧ 0 ≤ e.ballX ∧ e.ballX < 50 ∧ 1 ≤ e.ballY ∧ e.ballY < 20 ∧
      12 ≤ e.batX ∧ e.batX ≤ 55 := by
  obtain ⟨e', h⟩ := runPong_total ops makePong ⟨makePong_sane.1, makePong_sane.2.1, by rw [makePong_sane.2.2]⟩
  have hi := foldlM_inv (fun e : Pong => PongInv e ∧ e.szX = 50 ∧ e.szY = 20 ∧ e.batWidth = 6 ∧ 12 ≤ e.batX ∧ e.batX ≤ 55) h
    ⟨⟨makePong_sane.1, makePong_sane.2.1, by rw [makePong_sane.2.2]⟩, rfl, rfl, rfl, by decide, by decide⟩
    (fun op _ a b ha hs => by
      cases op with
      | op name =>
        cases hs
        obtain ⟨k1, k2, k3, k4, _⟩ := pongOp_fixed a name
        rw [k1, k2, k3, k4]
        exact ⟨pongOp_inv name ha.1, ha.2⟩
      | step rng =>
        obtain ⟨k1, k2, k3, k4, _, k6, k7, _⟩ := simStep_inv hs ha.1
        have h1 := k2.trans ha.2.1
        have h2 := k3.trans ha.2.2.1
        have h3 := k4.trans ha.2.2.2.1
        refine ⟨k1, h1, h2, h3, ?_, ?_⟩
        · rw [h3] at k6; exact k6
        · rw [h3, h1] at k7; exact k7)
  obtain ⟨hi, h1, h2, _, h4, h5⟩ := hi
  have hx := hi.ball.x
  have hy := hi.ball.y
  rw [h1] at hx
  rw [h2] at hy
  exact ⟨e', h, hx.1, hx.2, hy.1, hy.2, h4, h5⟩

/-- the experiment's world after three steps and two operators -/
example : ((runPong makePong [.op "^L", .step [], .op "^R", .step [], .step []]).map
    fun e => (e.ballX, e.ballY, e.batX)) = .ok (27, 7, 17) := by decide

/-- C43: in every step, the ball reaching the bottom row counts exactly one: a hit if the bat covers the column where it
arrives, otherwise a miss; no other step changes the score. -/
theorem C43_score (e : Pong) (hf : SaneField e) (hb : BallOnField e) (ht : 0 ≤ e.t) (rng : List Nat) :
    ∃ e', simStep e rng = .ok e' ∧
      (¬ Arrives e → e'.hits = e.hits ∧ e'.misses = e.misses) ∧
      (Arrives e → BatCovers e (nextColumn e) → e'.hits = e.hits + 1 ∧ e'.misses = e.misses) ∧
      (Arrives e → ¬ BatCovers e (nextColumn e) → e'.hits = e.hits ∧ e'.misses = e.misses + 1) := by
  obtain ⟨e', h⟩ := simStep_total e rng ⟨hf, hb, ht⟩
  obtain ⟨_, _, _, _, _, _, _, k1, k2⟩ := simStep_inv h ⟨hf, hb, ht⟩
  refine ⟨e', h, ?_⟩
  rw [k1, k2]
  exact mid_score ⟨hf, hb, ht⟩

example : Arrives { makePong with ballY := 1, vY := -1 } ∧
    BatCovers { makePong with ballY := 1, vY := -1 } (nextColumn { makePong with ballY := 1, vY := -1 }) ∧
    ¬ BatCovers { makePong with ballY := 1, vY := -1, batX := 15 } (nextColumn { makePong with ballY := 1, vY := -1 }) := by
  refine ⟨⟨rfl, .inl rfl⟩, ?_, ?_⟩ <;> unfold BatCovers <;> decide

/-- C43: in each step the ball moves diagonally, one row, and one column in every second step; if it comes to the bottom or to a
side, a new ball appears at a random place of the upper half instead. -/
theorem C43_moves (e : Pong) (hf : SaneField e) (hb : BallOnField e) (ht : 0 ≤ e.t) (rng : List Nat) :
    ∃ e', simStep e rng = .ok e' ∧ e'.t = e.t + 1 ∧
      (¬ Arrives e → nextColumn e ≠ 0 → nextColumn e ≠ e.szX - 1 →
        e'.ballX = nextColumn e ∧ e'.ballY = e.ballY + (if e.ballY = e.szY - 1 then -1 else e.vY) ∧ e'.wasBallSpawned = false) ∧
      (Arrives e ∨ nextColumn e = 0 ∨ nextColumn e = e.szX - 1 →
        0 ≤ e'.ballX ∧ e'.ballX < e.szX ∧ e.szY / 2 ≤ e'.ballY ∧ e'.ballY < e.szY ∧ e'.wasBallSpawned = true) := by
  have hi : PongInv e := ⟨hf, hb, ht⟩
  obtain ⟨e', h⟩ := simStep_total e rng hi
  have hfix := simStep_inv h hi
  obtain ⟨e1, h1, rfl⟩ := simStep_cases h
  obtain ⟨m1, m2, m3, m4, m5, m6, m7, m8, m9, m10, m11⟩ := mid_fixed e
  have hcol := nextColumn_in hi
  have ha := mid_arrives hi
  have hx := mid_column hi
  have hy := mid_row hi
  have hyb := hb.y
  have hr := hf.rows
  have hif : (if e.ballY ≥ e.szY - 1 then (-1 : Int) else e.vY) = if e.ballY = e.szY - 1 then -1 else e.vY := by
    split <;> split <;> first | rfl | omega
  refine ⟨_, h, hfix.2.2.2.2.1, ?_, ?_⟩
  · intro n1 n2 n3
    rcases spawn_cases h1 with ⟨_, rfl⟩ | ⟨hc, _⟩
    · exact ⟨by show (pongMid e).ballX = _; rw [m10, hx], by show (pongMid e).ballY = _; rw [m11, hy, hif], rfl⟩
    · rw [ha, m10, hx, m1] at hc
      rcases hc with hc | hc | hc
      · exact absurd hc n1
      · exact absurd hc n2
      · omega
  · intro hc
    rcases spawn_cases h1 with ⟨hn, _⟩ | ⟨_, y, x, w, hy', hx', _, rfl⟩
    · rw [ha, m10, hx, m1] at hn
      exact absurd (by rcases hc with hc | hc | hc <;> [exact .inl hc; exact .inr (.inl hc); exact .inr (.inr (by omega))]) hn
    · rw [m2, Int.tdiv_eq_ediv_of_nonneg (by omega)] at hy'
      rw [m1] at hx'
      show 0 ≤ (x : Int) ∧ (x : Int) < e.szX ∧ e.szY / 2 ≤ Int.tdiv (pongMid e).szY 2 + (y : Int) ∧
        Int.tdiv (pongMid e).szY 2 + (y : Int) < e.szY ∧ true = true
      rw [m2, Int.tdiv_eq_ediv_of_nonneg (by omega)]
      refine ⟨by omega, by omega, by omega, ?_, rfl⟩
      have hl : (y : Int) < e.szY / 2 := by omega
      omega

example : ¬ Arrives makePong ∧ nextColumn makePong ≠ 0 ∧ nextColumn makePong ≠ makePong.szX - 1 := by decide
example : nextColumn { makePong with ballX := 48, t := 2 } = makePong.szX - 1 := by decide

/-- C43: over every history hits and misses together grow by the number of arrivals at the bottom. -/
theorem C43_every_arrival_counted (ops : List PongOp) : ∀ (e : Pong), SaneField e → BallOnField e → 0 ≤ e.t →
    ∃ e' n, runPong e ops = .ok e' ∧ arrivals e ops = .ok n ∧ e'.hits + e'.misses = e.hits + e.misses + n := by
  induction ops with
  | nil => exact fun e _ _ _ => ⟨e, 0, rfl, rfl, by simp⟩
  | cons op ops ih =>
    intro e hf hb ht
    cases op with
    | op name =>
      have hi := pongOp_inv name ⟨hf, hb, ht⟩
      obtain ⟨e', n, h1, h2, h3⟩ := ih (pongOp e name) hi.field hi.ball hi.time
      obtain ⟨_, _, _, _, k5, k6⟩ := pongOp_fixed e name
      rw [k5, k6] at h3
      refine ⟨e', n, h1, ?_, h3⟩
      unfold arrivals
      simp only [PongOp.run, bind, Except.bind, h2]
    | step rng =>
      obtain ⟨e1, h1, s1, s2, s3⟩ := C43_score e hf hb ht rng
      have hi := (simStep_inv h1 ⟨hf, hb, ht⟩).1
      obtain ⟨e', n, h2, h3, h4⟩ := ih e1 hi.field hi.ball hi.time
      have hr : runPong e (.step rng :: ops) = .ok e' := by
        unfold runPong
        rw [List.foldlM_cons]
        show (simStep e rng).bind _ = _
        rw [h1]; exact h2
      by_cases ha : Arrives e
      · refine ⟨e', n + 1, hr, ?_, ?_⟩
        · unfold arrivals
          simp only [PongOp.run, bind, Except.bind, h1, h3]
          rw [if_pos ha]
        · by_cases hc : BatCovers e (nextColumn e)
          · obtain ⟨q1, q2⟩ := s2 ha hc
            rw [h4, q1, q2]; push_cast; omega
          · obtain ⟨q1, q2⟩ := s3 ha hc
            rw [h4, q1, q2]; push_cast; omega
      · refine ⟨e', n, hr, ?_, ?_⟩
        · unfold arrivals
          simp only [PongOp.run, bind, Except.bind, h1, h3]
          rw [if_neg ha]
        · obtain ⟨q1, q2⟩ := s1 ha
          rw [h4, q1, q2]

example : arrivals { makePong with ballY := 1, vY := -1 } [.step [], .op "^L", .step []] = .ok 1 := by decide

/-- C43: the perceived event tells exactly where the ball is relative to the bat. -/
theorem C43_perception (e : Pong) (hw : 0 ≤ e.batWidth) :
    (pongEvent e = .Name "0-1-xc" ↔ BatCovers e e.ballX) ∧
    (pongEvent e = .Name "0-1-xl" ↔ e.ballX < e.batX - e.batWidth) ∧
    (pongEvent e = .Name "0-1-xr" ↔ e.batX + e.batWidth < e.ballX) := by
  have n1 : ¬ (Term.Name "0-1-xc" = .Name "0-1-xl") := by decide
  have n2 : ¬ (Term.Name "0-1-xc" = .Name "0-1-xr") := by decide
  have n3 : ¬ (Term.Name "0-1-xl" = .Name "0-1-xr") := by decide
  unfold pongEvent BatCovers
  by_cases h1 : (e.ballX - e.batX).natAbs ≤ e.batWidth
  · rw [if_pos h1]
    exact ⟨⟨fun _ => by omega, fun _ => rfl⟩, ⟨fun h => absurd h n1, fun h => by omega⟩,
      ⟨fun h => absurd h n2, fun h => by omega⟩⟩
  · rw [if_neg h1]
    by_cases h2 : e.ballX - e.batX < 0
    · rw [if_pos h2]
      exact ⟨⟨fun h => absurd h.symm n1, fun h => by omega⟩, ⟨fun _ => by omega, fun _ => rfl⟩,
        ⟨fun h => absurd h n3, fun h => by omega⟩⟩
    · rw [if_neg h2]
      exact ⟨⟨fun h => absurd h.symm n2, fun h => by omega⟩, ⟨fun h => absurd h.symm n3, fun h => by omega⟩,
        ⟨fun _ => by omega, fun _ => rfl⟩⟩

example : pongEvent makePong = .Name "0-1-xc" ∧ pongEvent { makePong with batX := 40 } = .Name "0-1-xl" := by decide

/-- C43: the operators set the direction of the bat: after "^L" it moves by half its width towards larger columns in each
step, after "^R" towards smaller columns, as far as the limits allow. -/
theorem C43_operators (e : Pong) (hf : SaneField e) (hb : BallOnField e) (ht : 0 ≤ e.t) (rng : List Nat) :
    (∃ e', runPong e [.op "^L", .step rng] = .ok e' ∧ e'.batVX = 1 ∧
      e'.batX = max (e.batWidth * 2) (min (e.szX - 1 + e.batWidth) (e.batX + e.batWidth / 2))) ∧
    (∃ e', runPong e [.op "^R", .step rng] = .ok e' ∧ e'.batVX = -1 ∧
      e'.batX = max (e.batWidth * 2) (min (e.szX - 1 + e.batWidth) (e.batX - e.batWidth / 2))) := by
  have hw := hf.bat.1
  have gen : ∀ name v, (pongOp e name) = { e with batVX := v } → ∃ e', runPong e [.op name, .step rng] = .ok e' ∧ e'.batVX = v ∧
      e'.batX = max (e.batWidth * 2) (min (e.szX - 1 + e.batWidth) (e.batX + Int.tdiv (v * e.batWidth) 2)) := by
    intro name v hn
    have hi := pongOp_inv name (e := e) ⟨hf, hb, ht⟩
    obtain ⟨e', h⟩ := simStep_total (pongOp e name) rng hi
    have hr : runPong e [.op name, .step rng] = .ok e' := by
      show (simStep (pongOp e name) rng).bind _ = _
      rw [h]; rfl
    obtain ⟨e1, h1, rfl⟩ := simStep_cases h
    obtain ⟨m1, m2, m3, m4, m5, m6, m7, _⟩ := mid_fixed (pongOp e name)
    have n1 : (pongOp e name).szX = e.szX := by rw [hn]
    have n3 : (pongOp e name).batWidth = e.batWidth := by rw [hn]
    have n6 : (pongOp e name).batX = e.batX := by rw [hn]
    have n7 : (pongOp e name).batVX = v := by rw [hn]
    refine ⟨_, hr, ?_⟩
    rcases spawn_cases h1 with ⟨_, rfl⟩ | ⟨_, y, x, w, _, _, _, rfl⟩ <;>
    · unfold pongBat
      simp only
      rw [m1, m3, m6, m7, n1, n3, n6, n7]
      exact ⟨rfl, rfl⟩
  constructor
  · obtain ⟨e', h1, h2, h3⟩ := gen "^L" 1 rfl
    refine ⟨e', h1, h2, ?_⟩
    rw [h3, Int.one_mul, Int.tdiv_eq_ediv_of_nonneg hw]
  · obtain ⟨e', h1, h2, h3⟩ := gen "^R" (-1) rfl
    refine ⟨e', h1, h2, ?_⟩
    rw [h3, Int.neg_mul, Int.one_mul, Int.neg_tdiv, Int.tdiv_eq_ediv_of_nonneg hw, Int.sub_eq_add_neg (b := e.batWidth / 2)]

example : ((runPong makePong [.op "^L", .step []]).map Pong.batX) = .ok 23 ∧
    ((runPong makePong [.op "^R", .step []]).map Pong.batX) = .ok 17 := by decide

/-- C43: once the ball flies downwards it never flies upwards again: also every new ball falls. -/
theorem C43_only_falls (e e' : Pong) (hf : SaneField e) (hb : BallOnField e) (ht : 0 ≤ e.t) (ops : List PongOp)
    (hv : e.vY = -1) (h : runPong e ops = .ok e') : e'.vY = -1 := by
  refine (foldlM_inv (fun e : Pong => PongInv e ∧ e.vY = -1) h ⟨⟨hf, hb, ht⟩, hv⟩ (fun op _ a b ha hs => ?_)).2
  cases op with
  | op name =>
    refine ⟨PongOp.run_inv hs ha.1, ?_⟩
    cases hs
    have : (pongOp a name).vY = a.vY := by
      unfold pongOp
      split
      · rfl
      · split <;> rfl
    rw [this]; exact ha.2
  | step rng =>
    refine ⟨PongOp.run_inv hs ha.1, ?_⟩
    obtain ⟨e1, h1, rfl⟩ := simStep_cases hs
    have hm := (mid_fixed a).2.2.2.2.2.2.2.2.1
    have hy := ha.1.ball.y
    have hw : (pongWalls a).vY = -1 := by
      unfold pongWalls
      simp only
      split
      · rfl
      · rw [if_neg (by omega)]; exact ha.2
    rcases spawn_cases h1 with ⟨_, rfl⟩ | ⟨_, y, x, w, _, _, _, rfl⟩
    · exact hm.trans hw
    · exact hm.trans hw

example : BallOnField { makePong with vY := -1, ballY := 19 } ∧ SaneField { makePong with vY := -1, ballY := 19 } :=
  ⟨⟨by decide, by decide, .inl rfl, .inr rfl⟩, ⟨by decide, by decide, by decide, rfl⟩⟩

/-- C43, where the game is unfair: whatever the player does, a ball which arrives in one of the six leftmost columns is a
miss. -/
theorem C43_left_always_missed (ops : List PongOp) (rng : List Nat) (e : Pong) (h : runPong makePong ops = .ok e)
    (ha : Arrives e) (hc : nextColumn e < 6) :
    ∃ e', simStep e rng = .ok e' ∧ e'.hits = e.hits ∧ e'.misses = e.misses + 1 := by
  have hi := runPong_inv h ⟨makePong_sane.1, makePong_sane.2.1, by rw [makePong_sane.2.2]⟩
  obtain ⟨e', h', _, _, _, _, hb, _⟩ := C43_bounds ops
  rw [h] at h'
  cases h'
  have hw : e.batWidth = 6 := foldlM_inv (fun e : Pong => PongInv e ∧ e.batWidth = 6) h
    ⟨⟨makePong_sane.1, makePong_sane.2.1, by rw [makePong_sane.2.2]⟩, rfl⟩
    (fun op _ a b ha hs => by
      refine ⟨PongOp.run_inv hs ha.1, ?_⟩
      cases op with
      | op name => cases hs; rw [(pongOp_fixed a name).2.2.1]; exact ha.2
      | step rng => rw [(simStep_inv hs ha.1).2.2.2.1]; exact ha.2) |>.2
  obtain ⟨e', h1, _, _, h3⟩ := C43_score e hi.field hi.ball hi.time rng
  exact ⟨e', h1, h3 ha (by unfold BatCovers; omega)⟩

/-- C43: such a ball does occur: it comes in a column near the left wall. -/
theorem C43_left_occurs : ∃ (ops : List PongOp) (e : Pong), runPong makePong ops = .ok e ∧ Arrives e ∧ nextColumn e < 6 := by
  have h : ((runPong makePong (List.replicate 33 (.step []) ++ [.step [0, 7, 1]] ++ List.replicate 9 (.step []))).map fun e =>
      decide (e.ballY = 1 ∧ e.vY = -1) && decide (nextColumn e < 6)) = .ok true := by decide +kernel
  obtain ⟨e, h1, h2⟩ := R.map_ok.1 h
  rw [Bool.and_eq_true, decide_eq_true_iff, decide_eq_true_iff] at h2
  exact ⟨_, e, h1, ⟨h2.1.1, .inl h2.1.2⟩, h2.2⟩

/-- C43, violated: the bat does not stay on the field: its centre gets six columns beyond the right wall. -/
theorem C43_bat_leaves_field : ∃ (ops : List PongOp) (e : Pong), runPong makePong ops = .ok e ∧ e.batX = 55 ∧ e.szX = 50 := by
  have h : ((runPong makePong (.op "^L" :: List.replicate 12 (.step []))).map fun e =>
      decide (e.batX = 55) && decide (e.szX = 50)) = .ok true := by decide +kernel
  obtain ⟨e, h1, h2⟩ := R.map_ok.1 h
  rw [Bool.and_eq_true, decide_eq_true_iff, decide_eq_true_iff] at h2
  exact ⟨_, e, h1, h2⟩

/-- C43, violated for fast balls (the world has a speed setting): from the inside of the field the ball flies through the
left wall and is not replaced. -/
theorem C43_fast_ball_escapes : ∃ (e e' : Pong), e.mulVX = 1 ∧ e.t = 0 ∧ e.szX = 50 ∧ e.szY = 20 ∧ BallOnField e ∧
    runPong e [.step []] = .ok e' ∧ e'.ballX < 0 := by
  refine ⟨{ makePong with mulVX := 1, ballX := 1, vX := -1 }, _, rfl, rfl, rfl, rfl,
    ⟨by decide, by decide, .inr rfl, .inl rfl⟩, rfl, ?_⟩
  decide

end Nar.Props
