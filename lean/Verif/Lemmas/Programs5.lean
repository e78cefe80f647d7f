import Verif.Lemmas.Programs4
/-! # Lemmas about the stress test, the score of Pong, and a Pong program whose storage worker never runs -/
namespace Nar
open Term

/-! ## the stress test -/

theorem adoptBestAlone_total {p : Proc} (hp : PSafe p) {best : Option BestEntry} (hb : BestOk p best) :
    adoptBestAlone p best = .ok p ∨ adoptBestAlone p best = .error .unwrapNone := by
  unfold adoptBestAlone
  split
  · exact .inl rfl
  · split
    · rename_i b _
      obtain ⟨g, h, _⟩ := adoptBest_total hp hb
      right
      rw [h]
      rfl
    · exact .inl rfl

theorem adoptBestAlone_ok {p p' : Proc} {best : Option BestEntry} (h : adoptBestAlone p best = .ok p') : p' = p := by
  unfold adoptBestAlone at h
  split at h
  · exact (Except.ok.inj h).symm
  · split at h
    · obtain ⟨_, _, h⟩ := R.bind_ok.1 h
      cases h
    · exact (Except.ok.inj h).symm

theorem limitMem_spec {p : Proc} {m : PMem} (h : limitMem p = .ok m) : m.heap = p.mem.heap ∧ ∀ c ∈ m.concepts, c ∈ p.mem.concepts := by
  unfold limitMem at h
  split at h
  · obtain ⟨cs, rfl, -, hsub, -⟩ := limitMemoryP_spec h
    exact ⟨rfl, hsub⟩
  · cases h
    exact ⟨rfl, fun _ h => h⟩

theorem limitMem_total {p : Proc} (hp : PSafe p) : ∃ m, limitMem p = .ok m := by
  unfold limitMem
  split
  · exact limitMemoryP_total hp.valid p.nConcepts
  · exact ⟨_, rfl⟩

theorem pickAction_time {p p' : Proc} {best : Option (Entry × Nat)} {picked : Option Term} (h : pickAction p best = .ok (p', picked)) :
    p'.t = p.t ∧ p'.trace = p.trace ∧ p'.queue = p.queue ∧ p'.ops = p.ops := by
  rcases pickAction_spec h with ⟨rfl, _⟩ | ⟨e, i, r, b, iv, _, _, _, _, _, _, rfl⟩ <;> exact ⟨rfl, rfl, rfl, rfl⟩

/-- without a declarative memory a step which forgets goals or infers goals never succeeds -/
theorem narStep1Alone_ok {p p' : Proc} {rng : List Nat} {infs : List (Rat × Rat × List Nat)}
    (h : narStep1Alone p rng infs = .ok p') : p.t.tmod 13 ≠ 1 ∧ infs = [] ∧ p'.t = p.t + 1 := by
  unfold narStep1Alone at h
  obtain ⟨b0, _, h⟩ := R.bind_ok.1 h
  obtain ⟨⟨b1, rng1⟩, _, h⟩ := R.bind_ok.1 h
  obtain ⟨p1, h1, h⟩ := R.bind_ok.1 h
  obtain ⟨act, _, h⟩ := R.bind_ok.1 h
  obtain ⟨⟨p2, picked⟩, h2, h⟩ := R.bind_ok.1 h
  obtain ⟨⟨picked3, rng3⟩, _, h⟩ := R.bind_ok.1 h
  obtain ⟨⟨p3, ex⟩, h3, h⟩ := R.bind_ok.1 h
  obtain ⟨m, _, h⟩ := R.bind_ok.1 h
  have ht : p3.t = p.t := by
    have e1 := (pickAction_time h2).1
    rw [adoptBestAlone_ok h1] at e1
    rcases execute_spec envCall_reports h3 with ⟨_, rfl, _⟩ | ⟨t, args, name, q1, evs, rfl, rfl, k1, k2, k3, k4, rfl⟩
    · exact e1
    · exact e1
  split at h
  · cases h
  · rename_i hn
    split at h
    · cases h
    · rename_i hi
      rw [← Except.ok.inj h, ← ht]
      exact ⟨hn, Classical.not_not.1 hi, rfl⟩

theorem narStep1Alone_total {p : Proc} (hp : EnvSafe p) (rng : List Nat) (infs : List (Rat × Rat × List Nat)) :
    narStep1Alone p rng infs = .error .unwrapNone ∨
    ∃ p', narStep1Alone p rng infs = .ok p' ∧ EnvSafe p' ∧ p'.ops = p.ops ∧ p'.nOpsMax = p.nOpsMax := by
  obtain ⟨b0, h0⟩ := bestByStates_total hp.safe.goals.usable (List.range p.perceptWindow) none
  have hb0 : BestOk p b0 := bestByState_fold_ok _ (by simp) h0 (by intro b hb; cases hb)
  obtain ⟨⟨b1, rng1⟩, h1⟩ := predictAll_total hp.safe b0 rng
  have hb1 := predictAll_ok hb0 h1
  obtain ⟨b2, h3⟩ := bestActive_total hp.safe.goals.usable
  obtain ⟨p3, picked3, h4, hp3, ho3, hn3, hc3⟩ := pickAction_total hp.safe (best := b2) (by
    rintro e i rfl
    exact .inl (bestActive_spec h3).1.1)
  obtain ⟨picked4, rng4, h5, hc4⟩ := babble_total (p := p3) (rng := rng1) hc3
  obtain ⟨p5, ex, h6, hp5, ho5, hn5⟩ := execute_total (call := envCall) (envCall_wellBehaved _) hp3 hc4
  obtain ⟨m, h7⟩ := limitMem_total hp5
  have htr : (∀ e ∈ p5.trace, NoProp e.name) ∧ p5.queue = p.queue := by
    obtain ⟨_, e1, e2, _⟩ := pickAction_time h4
    rcases execute_spec envCall_reports h6 with ⟨_, rfl, _⟩ | ⟨t, args, name, q1, evs, rfl, rfl, k1, k2, k3, k4, rfl⟩
    · exact ⟨by rw [e1]; exact hp.trace, e2⟩
    · cases k3
      have : evs = [] := by
        have := congrArg Proc.trace k4
        simpa using this
      subst this
      refine ⟨?_, e2⟩
      intro e he
      have htx := (hp5.trace e he).2.1
      have he : e ∈ p3.trace ++ [] ++ [⟨t, p3.t, p3.t⟩] := he
      rw [List.append_nil, e1] at he
      rcases List.mem_append.1 he with he | he
      · exact hp.trace e he
      · rw [List.mem_singleton.1 he] at htx ⊢
        exact noProp_call k1 htx
  unfold narStep1Alone
  rcases adoptBestAlone_total hp.safe hb1 with h2 | h2
  · simp only [bind, Except.bind, h0, h1, h2, h3, h4, h5, h6, h7]
    split
    · exact .inl rfl
    · split
      · exact .inl rfl
      · right
        obtain ⟨hh, hc⟩ := limitMem_spec h7
        refine ⟨_, rfl, ⟨⟨?_, hp5.queue, ?_, ?_, ?_, ?_, ?_, hp5.table, hp5.alive, hp5.weights⟩, ?_, ?_⟩, ho5.trans ho3, hn5.trans hn3⟩
        · show ∀ b ∈ m.heap, _
          rw [hh]; exact hp5.heap
        · intro c hcc r hr
          show r < m.heap.length
          rw [hh]
          exact hp5.refs c (hc c hcc) r hr
        · show ∀ a ∈ p5.anticipated, a.evi < m.heap.length
          rw [hh]; exact hp5.antic
        · show GSafe m.heap.length p5.goals
          rw [hh]; exact hp5.goals
        · intro e he
          have he : e ∈ traceLimit p5.trace := he
          rw [traceLimit_newest] at he
          exact hp5.trace e ((newest_suffix _ _).subset he)
        · show 0 ≤ p5.t + 1
          have := hp5.time
          omega
        · intro e he
          have he : e ∈ traceLimit p5.trace := he
          rw [traceLimit_newest] at he
          exact htr.1 e ((newest_suffix _ _).subset he)
        · show ∀ m ∈ p5.queue, _
          rw [htr.2]; exact hp.queue
  · left
    simp only [bind, Except.bind, h0, h1, h2]

theorem chaosRound_total {env : Env} {k : Nat} {r : Reasoner} {d : RoundDraws} (hd : d.Fair) (hs : PongSt k r)
    (hp : EnvSafe r.proc) :
    chaosRound env r (k, d) = .error .unwrapNone ∨
    ∃ r', chaosRound env r (k, d) = .ok r' ∧ EnvSafe r'.proc ∧ PongSt (k + 1) r' := by
  obtain ⟨r1, h1, s1⟩ := remind_total (env := env) hs hp
  obtain ⟨_, hs1, _⟩ := remind_spec hs h1
  obtain ⟨p2, h2, s2, o2, n2, t2, tt2⟩ := s1.step0 hd.ops hs1.nOps
  have s3 := ((s2.workers d.before).event (noProp_name (toString k))).workers d.between
  unfold chaosRound
  rcases narStep1Alone_total s3 d.decide d.infs with h | ⟨p', h, s4, o4, n4⟩
  · left
    simp only [bind, Except.bind, h1, h2, h]
  · right
    refine ⟨{ r1 with proc := p' }, ?_, s4, hs1.verbosity, hs1.counter, ?_, ?_, ?_⟩
    · simp only [bind, Except.bind, h1, h2, h]
    · show p'.ops = _
      rw [o4]
      simp only [workerSteps_frame, eventHappened]
      rw [o2]; exact hs1.ops
    · show p'.nOpsMax = _
      rw [n4]
      simp only [workerSteps_frame, eventHappened]
      rw [n2]; exact hs1.nOps
    · show p'.t = _
      rw [(narStep1Alone_ok h).2.2]
      simp only [workerSteps_frame, eventHappened]
      rw [tt2]; exact hs1.time

theorem chaosRound_time {env : Env} {r r' : Reasoner} {d : RoundDraws} {k : Nat} (hv : r.verbosity = 0)
    (h : chaosRound env r (k, d) = .ok r') : r.proc.t.tmod 13 ≠ 1 ∧ d.infs = [] ∧ r'.proc.t = r.proc.t + 1 := by
  obtain ⟨r1, h1, h⟩ := R.bind_ok.1 h
  have ht : r1.proc.t = r.proc.t := by
    have h1 : remindEvery10 env k r = .ok r1 := h1
    rw [remind_eq env k hv] at h1
    split at h1
    · obtain ⟨p, hp, rfl⟩ := R.map_ok.1 h1
      obtain ⟨g, rfl⟩ := inputGoal_frame hp
      rfl
    · rw [Except.ok.inj h1]
  obtain ⟨p2, h2, h⟩ := R.bind_ok.1 h
  obtain ⟨p3, h3, h⟩ := R.bind_ok.1 h
  obtain ⟨k1, k2, k3⟩ := narStep1Alone_ok h3
  simp only [workerSteps_frame, eventHappened] at k1 k3
  obtain ⟨_, _, e, _⟩ := narStep0_spec h2
  rw [e] at k1 k3
  rw [← ht, ← Except.ok.inj h]
  exact ⟨k1, k2, k3⟩

theorem chaos_list (draws : Nat → RoundDraws) (n : Nat) : ((List.range (n + 2)).map fun k => (k, draws k)) =
    (0, draws 0) :: (1, draws 1) :: ((List.range n).map fun k => (k + 2, draws (k + 2))) := by
  rw [List.range_succ_eq_map, List.range_succ_eq_map]
  simp

theorem chaos_error (env : Env) (draws : Nat → RoundDraws) (n : Nat) : ∃ e, chaosRounds env draws (n + 2) = .error e := by
  cases h : chaosRounds env draws (n + 2) with
  | error e => exact ⟨e, rfl⟩
  | ok r =>
    unfold chaosRounds at h
    rw [chaos_list] at h
    obtain ⟨r1, h1, h⟩ := foldlM_cons_ok.1 h
    obtain ⟨r2, h2, h⟩ := foldlM_cons_ok.1 h
    have t1 := (chaosRound_time rfl h1).2.2
    have hv : r1.verbosity = 0 := by
      obtain ⟨r0, h0, h1⟩ := R.bind_ok.1 h1
      obtain ⟨_, hs, _⟩ := remind_spec pongNar_st h0
      obtain ⟨p2, _, h1⟩ := R.bind_ok.1 h1
      obtain ⟨p3, _, h1⟩ := R.bind_ok.1 h1
      rw [← Except.ok.inj h1]
      exact hs.verbosity
    exact absurd (by rw [t1]; rfl) (chaosRound_time hv h2).1

theorem chaos_unwrap (env : Env) {draws : Nat → RoundDraws} (hd : ∀ k, (draws k).Fair) (n : Nat) :
    chaosRounds env draws (n + 2) = .error .unwrapNone := by
  obtain ⟨e, he⟩ := chaos_error env draws n
  rw [he]
  unfold chaosRounds at he
  rw [chaos_list, List.foldlM_cons] at he
  rcases chaosRound_total (env := env) (hd 0) pongNar_st pongNar_safe with h | ⟨r1, h, s1, st1⟩
  · rw [h] at he
    exact he.symm
  · rw [h] at he
    have he : List.foldlM (m := R) (chaosRound env) r1 _ = _ := he
    rw [List.foldlM_cons] at he
    rcases chaosRound_total (env := env) (hd 1) st1 s1 with h | ⟨r2, h, s2, st2⟩
    · rw [h] at he
      exact he.symm
    · exact absurd (by rw [st1.time]; rfl) (chaosRound_time st1.verbosity h).1

/-! ## the first ball -/

/-- the flight of the first ball, and the score after it arrived -/
structure Flight (e : Pong) : Prop where
  inv : PongInv e
  szX : e.szX = 50
  szY : e.szY = 20
  hits : 0 ≤ e.hits
  misses : 0 ≤ e.misses
  score : 34 ≤ e.t → 1 ≤ e.hits + e.misses
  x : e.t ≤ 33 → e.ballX = 25 + (e.t + 1) / 2
  vx : e.t ≤ 33 → e.vX = 1
  up : e.t ≤ 15 → e.ballY = 4 + e.t ∧ e.vY = 1
  down : 15 < e.t → e.t ≤ 33 → e.ballY = 34 - e.t ∧ e.vY = -1

theorem Flight.op {e : Pong} (h : Flight e) (name : String) : Flight (pongOp e name) := by
  have hi := pongOp_inv name h.inv
  unfold pongOp at hi ⊢
  split
  · rename_i hn
    rw [if_pos hn] at hi
    exact ⟨hi, h.szX, h.szY, h.hits, h.misses, h.score, h.x, h.vx, h.up, h.down⟩
  · rename_i hn
    rw [if_neg hn] at hi
    split
    · rename_i hn2
      rw [if_pos hn2] at hi
      exact ⟨hi, h.szX, h.szY, h.hits, h.misses, h.score, h.x, h.vx, h.up, h.down⟩
    · exact h

theorem Flight.step {e e' : Pong} {rng : List Nat} (h : Flight e) (hs : simStep e rng = .ok e') : Flight e' := by
  obtain ⟨k0, k1, k2, k3, k4, k5, k6, k7, k8⟩ := simStep_inv hs h.inv
  obtain ⟨e1, h1, rfl⟩ := simStep_cases hs
  obtain ⟨m1, m2, m3, m4, m5, m6, m7, m8, m9, m10, m11⟩ := mid_fixed e
  rw [mid_column h.inv] at m10
  rw [mid_row h.inv] at m11
  have hx := h.szX
  have hy := h.szY
  have ht := h.inv.time
  have hh := h.hits
  have hm := h.misses
  -- the score
  have hsc : 0 ≤ (pongMid e).hits ∧ 0 ≤ (pongMid e).misses ∧ (1 ≤ e.hits + e.misses → 1 ≤ (pongMid e).hits + (pongMid e).misses) ∧
      ((pongMid e).ballY = 0 → 1 ≤ (pongMid e).hits + (pongMid e).misses) := by
    have hb : (pongMid e).ballY = (pongMove (pongWalls e)).ballY := (mid_fixed e).2.2.2.2.2.2.2.2.2.2
    rw [hb]
    unfold pongMid pongScore
    split
    · split
      · refine ⟨?_, ?_, ?_, ?_⟩ <;> simp only [pongMove, pongWalls] <;> omega
      · refine ⟨?_, ?_, ?_, ?_⟩ <;> simp only [pongMove, pongWalls] <;> omega
    · refine ⟨hh, hm, id, fun h0 => ?_⟩
      rename_i hne
      exact absurd h0 hne
  -- before the ball arrives nothing is drawn
  have hfly : e.t ≤ 32 → (pongBat e1).ballX = (pongMid e).ballX ∧ (pongBat e1).ballY = (pongMid e).ballY ∧
      (pongBat e1).vX = (pongMid e).vX ∧ (pongBat e1).vY = (pongMid e).vY := by
    intro hle
    have a1 := h.x (by omega)
    have a2 := h.vx (by omega)
    have a3 := h.up
    have a4 := h.down
    have c1 : (pongMid e).ballX = 25 + (e.t + 2) / 2 := by
      rw [m10]
      unfold nextColumn
      split
      · omega
      · rw [if_neg (by omega), if_neg (by omega)]
        omega
    have c2 : (pongMid e).ballY ≠ 0 := by
      rw [m11]
      by_cases h15 : e.t ≤ 15
      · obtain ⟨b1, b2⟩ := a3 h15
        split <;> omega
      · obtain ⟨b1, b2⟩ := a4 (by omega) (by omega)
        split <;> omega
    unfold pongSpawn at h1
    rw [if_neg (by omega)] at h1
    cases h1
    exact ⟨rfl, rfl, rfl, rfl⟩
  have hwall : e.t ≤ 33 → (pongMid e).vX = 1 ∧ (pongMid e).vY = if e.ballY ≥ 19 then -1 else e.vY := by
    intro hle
    have a1 := h.x hle
    have a2 := h.vx hle
    rw [m8, m9]
    have hy0 := h.inv.ball.y
    simp only [pongWalls]
    constructor
    · rw [if_neg (by omega), if_neg (by omega)]
      exact a2
    · rw [hy]
      show (if e.ballY ≥ 19 then _ else _) = _
      by_cases h19 : e.ballY ≥ 19
      · rw [if_pos h19, if_pos h19]
      · rw [if_neg h19, if_neg h19, if_neg (by omega)]
  refine ⟨k0, k1.trans hx, k2.trans hy, by rw [k7]; exact hsc.1, by rw [k8]; exact hsc.2.1, ?_, ?_, ?_, ?_, ?_⟩
  · intro h34
    rw [k4] at h34
    rw [k7, k8]
    by_cases h33 : e.t = 33
    · obtain ⟨b1, b2⟩ := h.down (by omega) (by omega)
      apply hsc.2.2.2
      rw [m11]
      split <;> omega
    · exact hsc.2.2.1 (h.score (by omega))
  · intro hle
    rw [k4] at hle ⊢
    rw [(hfly (by omega)).1, m10]
    have a1 := h.x (by omega)
    have a2 := h.vx (by omega)
    unfold nextColumn
    split
    · omega
    · rw [if_neg (by omega), if_neg (by omega)]
      omega
  · intro hle
    rw [k4] at hle
    rw [(hfly (by omega)).2.2.1]
    exact (hwall (by omega)).1
  · intro hle
    rw [k4] at hle ⊢
    rw [(hfly (by omega)).2.1, (hfly (by omega)).2.2.2, (hwall (by omega)).2, m11]
    obtain ⟨b1, b2⟩ := h.up (by omega)
    rw [if_neg (by omega), if_neg (by omega)]
    omega
  · intro hgt hle
    rw [k4] at hle hgt ⊢
    rw [(hfly (by omega)).2.1, (hfly (by omega)).2.2.2, (hwall (by omega)).2, m11]
    by_cases h15 : e.t = 15
    · obtain ⟨b1, b2⟩ := h.up (by omega)
      rw [if_pos (by omega), if_pos (by omega)]
      omega
    · obtain ⟨b1, b2⟩ := h.down (by omega) (by omega)
      rw [if_neg (by omega), if_neg (by omega)]
      omega

theorem makePong_flight : Flight makePong :=
  ⟨makePong_inv, rfl, rfl, by decide, by decide, by decide, by decide, by decide, by decide, by decide⟩

theorem Flight.round {e e' : Pong} {name : Option String} {rng : List Nat} (h : Flight e)
    (hr : runPong e (worldOps name rng) = .ok e') : Flight e' ∧ e'.t = e.t + 1 := by
  cases name with
  | none =>
    obtain ⟨e1, h1, h2⟩ := foldlM_cons_ok.1 hr
    rw [← foldlM_nil_ok.1 h2]
    exact ⟨h.step h1, (simStep_inv h1 h.inv).2.2.2.2.1⟩
  | some n =>
    obtain ⟨e1, h1, h2⟩ := foldlM_cons_ok.1 hr
    obtain ⟨e2, h2, h3⟩ := foldlM_cons_ok.1 h2
    rw [← foldlM_nil_ok.1 h3]
    cases h1
    have ho := h.op n
    refine ⟨ho.step h2, ?_⟩
    rw [(simStep_inv h2 ho.inv).2.2.2.2.1]
    unfold pongOp
    split
    · rfl
    · split <;> rfl

theorem pongRounds_flight {env : Env} {draws : Nat → RoundDraws} {n : Nat} {r : Reasoner} {e : Pong}
    (h : pongRounds env draws n = .ok (r, e)) : Flight e ∧ e.t = n := by
  obtain ⟨_, w, acts, names, w0, wn, hw, _⟩ := pongRounds_history h
  have : ∀ k, k ≤ n → Flight (w k) ∧ (w k).t = k := by
    intro k
    induction k with
    | zero => intro _; rw [w0]; exact ⟨makePong_flight, rfl⟩
    | succ k ih =>
      intro hk
      obtain ⟨f, t⟩ := ih (by omega)
      obtain ⟨f', t'⟩ := f.round (hw k (by omega)).2
      refine ⟨f', ?_⟩
      rw [t', t]
      rfl
  rw [← wn]
  exact this n (le_refl n)

/-! ## the storage worker never runs -/

theorem envStep_concepts {env : Env} {p p' : Proc} {event : Option Term} {d : RoundDraws} {act : Option Term}
    (h : envStep env p event d = .ok (p', act)) (h1 : d.before = []) (h2 : d.between = []) :
    ∀ c ∈ p'.mem.concepts, c ∈ p.mem.concepts := by
  unfold envStep at h
  obtain ⟨p1, hp1, h⟩ := R.bind_ok.1 h
  obtain ⟨heap, new, rfl, _⟩ := narStep0_spec hp1
  rw [h1, h2] at h
  obtain ⟨_, _, _, _, _, _, k, _⟩ := narStep1_env h
  cases event with
  | none => exact k
  | some e => exact k

theorem pongRounds_idle {env : Env} {draws : Nat → RoundDraws} {n : Nat} {r : Reasoner} {e : Pong}
    (hd : ∀ k, (draws k).before = [] ∧ (draws k).between = []) (h : pongRounds env draws n = .ok (r, e)) :
    r.proc.mem.concepts = [] := by
  induction n generalizing r e with
  | zero => cases h; rfl
  | succ n ih =>
    rw [pongRounds_succ] at h
    obtain ⟨⟨r0, e0⟩, h0, h⟩ := R.bind_ok.1 h
    have hst := (pongRounds_history h0).1
    have hc := ih h0
    obtain ⟨r1, h1, h⟩ := R.bind_ok.1 h
    obtain ⟨⟨p, act⟩, h2, h⟩ := R.bind_ok.1 h
    obtain ⟨e2, h3, h⟩ := R.bind_ok.1 h
    obtain ⟨rfl, rfl⟩ := Prod.mk.inj (Except.ok.inj h)
    obtain ⟨⟨g, hg⟩, _, _⟩ := remind_spec hst h1
    have := envStep_concepts h2 (hd n).1 (hd n).2
    show p.mem.concepts = []
    rw [List.eq_nil_iff_forall_not_mem]
    intro c hcc
    have := this c hcc
    rw [hg] at this
    have this : c ∈ r0.proc.mem.concepts := this
    rw [hc] at this
    cases this

end Nar
