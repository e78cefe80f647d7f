import Verif.Lemmas.Programs3
/-! # Lemmas about the Pong program and the stress test -/
namespace Nar
open Term

theorem parse_pongGoal (pf : List Char → Option Rat) :
    parseNarsese pf pongGoal = .ok (some (.Name "0-1-xc", ⟨1, 9/10⟩, .GOAL, true)) := by
  unfold pongGoal
  rfl

/-- an event line given to a silent reasoner -/
theorem inputN_event {env : Env} {r : Reasoner} {txt : List Char} {rng : List Nat} {t : Term} {tv : Tv} {p : Punct}
    (hv : r.verbosity = 0) (h : parseNarsese env.pf txt = .ok (some (t, tv, p, true))) :
    inputN env r txt rng = (inputEventT env { r with sh := { r.sh with stampIdCounter := r.sh.stampIdCounter + 1 } }
      (newEternalSentenceByTv t p tv ⟨[r.sh.stampIdCounter]⟩)).map (·, true) := by
  have he : ∀ r' : Reasoner, r'.verbosity = 0 → ∀ s, echo env r' s = .ok () := fun r' h s => if_neg (by omega)
  unfold inputN
  rw [h]
  show Except.bind (Except.bind (echo env _ _) fun _ => _) _ = _
  rw [he { r with sh := { r.sh with stampIdCounter := r.sh.stampIdCounter + 1 } } hv]
  show Except.bind (inputEventT env _ _) _ = _
  cases inputEventT env { r with sh := { r.sh with stampIdCounter := r.sh.stampIdCounter + 1 } }
      (newEternalSentenceByTv t p tv ⟨[r.sh.stampIdCounter]⟩) <;> rfl

theorem remind_eq (env : Env) (k : Nat) {r : Reasoner} (hv : r.verbosity = 0) : remindEvery10 env k r =
    if k % 10 = 0 then (inputGoal r.proc (.Name "0-1-xc") ⟨1, 9/10⟩ r.sh.stampIdCounter).map
      (fun p => { r with proc := p, sh := { r.sh with stampIdCounter := r.sh.stampIdCounter + 1 } })
    else .ok r := by
  unfold remindEvery10
  split
  · rw [inputN_event hv (parse_pongGoal env.pf)]
    unfold inputGoal inputEventT
    show Except.bind (Except.map _ (Except.bind (addEntry r.proc.goals r.proc.t _ none 0) _)) _ =
      Except.map _ (Except.bind (addEntry r.proc.goals r.proc.t _ none 0) _)
    cases addEntry r.proc.goals r.proc.t (newEternalSentenceByTv (Name "0-1-xc") Punct.GOAL ⟨1, 9/10⟩ ⟨[r.sh.stampIdCounter]⟩) none 0 <;> rfl
  · rfl

/-- what the program never changes -/
structure PongSt (k : Nat) (r : Reasoner) : Prop where
  verbosity : r.verbosity = 0
  counter : r.sh.stampIdCounter = ((k + 9) / 10 : Nat)
  ops : r.proc.ops = [⟨"^L", true, 3⟩, ⟨"^R", true, 3⟩]
  nOps : r.proc.nOpsMax = 1
  time : r.proc.t = k

theorem inputGoal_frame {p p' : Proc} {term : Term} {tv : Tv} {id : Int} (h : inputGoal p term tv id = .ok p') :
    ∃ g, p' = { p with goals := g } := by
  obtain ⟨g, _, h⟩ := R.bind_ok.1 h
  exact ⟨g, (Except.ok.inj h).symm⟩

theorem remind_spec {env : Env} {k : Nat} {r r' : Reasoner} (hs : PongSt k r) (h : remindEvery10 env k r = .ok r') :
    (∃ g, r'.proc = { r.proc with goals := g }) ∧ PongSt (k + 1) { r' with proc := { r'.proc with t := r'.proc.t + 1 } } ∧
    runProc envCall env.goalDecay r.proc (if k % 10 = 0 then [.goal (.Name "0-1-xc") ⟨1, 9/10⟩ (k / 10 : Nat)] else []) =
      .ok r'.proc := by
  rw [remind_eq env k hs.verbosity] at h
  by_cases hk : k % 10 = 0
  · rw [if_pos hk] at h ⊢
    obtain ⟨p, hp, rfl⟩ := R.map_ok.1 h
    rw [hs.counter, show (k + 9) / 10 = k / 10 by omega] at hp
    obtain ⟨g, rfl⟩ := inputGoal_frame hp
    refine ⟨⟨g, rfl⟩, ⟨hs.verbosity, ?_, hs.ops, hs.nOps, ?_⟩, ?_⟩
    · show r.sh.stampIdCounter + 1 = _
      rw [hs.counter]
      omega
    · show r.proc.t + 1 = _
      rw [hs.time]
      rfl
    · rw [runProc_one]
      exact hp
  · rw [if_neg hk] at h ⊢
    cases h
    refine ⟨⟨r.proc.goals, rfl⟩, ⟨hs.verbosity, ?_, hs.ops, hs.nOps, ?_⟩, rfl⟩
    · show r.sh.stampIdCounter = _
      rw [hs.counter]
      omega
    · show r.proc.t + 1 = _
      rw [hs.time]
      rfl

theorem remind_total {env : Env} {k : Nat} {r : Reasoner} (hs : PongSt k r) (hp : EnvSafe r.proc) :
    ∃ r', remindEvery10 env k r = .ok r' ∧ EnvSafe r'.proc := by
  rw [remind_eq env k hs.verbosity]
  by_cases hk : k % 10 = 0
  · rw [if_pos hk]
    obtain ⟨g, h1, h2⟩ := hp.safe.goals.add (t := r.proc.t)
      (goal := newEternalSentenceByTv (.Name "0-1-xc") .GOAL ⟨1, 9/10⟩ ⟨[r.sh.stampIdCounter]⟩) (ev := none) (d := 0)
      rfl ⟨⟨1, 9/10⟩, rfl⟩ (le_refl _) (by intro r h; cases h) (printable_name _)
    refine ⟨_, R.map_ok.2 ⟨{ r.proc with goals := g }, ?_, rfl⟩, ⟨⟨hp.safe.heap, hp.safe.queue, hp.safe.refs, hp.safe.antic, h2,
      hp.safe.trace, hp.safe.time, hp.safe.table, hp.safe.alive, hp.safe.weights⟩, hp.trace, hp.queue⟩⟩
    simp only [inputGoal, bind, Except.bind, h1]
  · rw [if_neg hk]
    exact ⟨r, rfl, hp⟩

theorem pongAction_of {ops : List Op} {act : Option Term} (ho : ops = [⟨"^L", true, 3⟩, ⟨"^R", true, 3⟩])
    (h : ∀ t, act = some t → RegisteredCall ops t) : ∃ name, PongAction act name ∧ ∀ e rng,
      simStep (pongAct e act) rng = runPong e (worldOps name rng) := by
  cases act with
  | none =>
    refine ⟨none, trivial, fun e rng => ?_⟩
    show _ = Except.bind (simStep e rng) .ok
    unfold pongAct opName
    cases simStep e rng <;> rfl
  | some t =>
    obtain ⟨args, name, hc, o, ho1, ho2⟩ := h t rfl
    refine ⟨some name, ⟨?_, args, hc⟩, fun e rng => ?_⟩
    · rw [ho] at ho1
      rw [← ho2]
      simp only [List.mem_cons, List.not_mem_nil, or_false] at ho1
      rcases ho1 with rfl | rfl
      · exact .inl rfl
      · exact .inr rfl
    · show _ = Except.bind (simStep (pongOp e name) rng) .ok
      unfold pongAct opName
      simp only [(decodeOp_iff t args name).2 hc, Option.map]
      show simStep (pongOp e name) rng = _
      cases simStep (pongOp e name) rng <;> rfl

/-- one round -/
theorem pongRound_spec {env : Env} {draws : Nat → RoundDraws} {k : Nat} {r r' : Reasoner} {e e' : Pong} (hs : PongSt k r)
    (h : pongRound env (r, e) (k, draws k) = .ok (r', e')) :
    PongSt (k + 1) r' ∧ runProc envCall env.goalDecay r.proc (pongOps draws k (pongEvent e)) = .ok r'.proc ∧
    ∃ act name, PongAction act name ∧ runPong e (worldOps name (draws k).world) = .ok e' ∧
      r'.proc.trace = newest 20 (r.proc.trace ++ [⟨pongEvent e, k, k⟩] ++ actionEvent k act) := by
  obtain ⟨r1, h1, h⟩ := R.bind_ok.1 h
  obtain ⟨⟨p, act⟩, h2, h⟩ := R.bind_ok.1 h
  obtain ⟨e2, h3, h⟩ := R.bind_ok.1 h
  obtain ⟨rfl, rfl⟩ := Prod.mk.inj (Except.ok.inj h)
  obtain ⟨⟨g, hg⟩, hs1, hr⟩ := remind_spec hs h1
  obtain ⟨k1, k2, k3, k4, k5⟩ := envStep_spec h2
  have hops : r1.proc.ops = [⟨"^L", true, 3⟩, ⟨"^R", true, 3⟩] := hs1.ops
  obtain ⟨name, hn, hw⟩ := pongAction_of hops k5
  refine ⟨⟨hs1.verbosity, hs1.counter, k3.trans hops, k4.trans hs1.nOps, k2.trans hs1.time⟩, ?_, act, name, hn, ?_, ?_⟩
  · unfold pongOps
    rw [runProc_bind hr]
    have := envStep_history env r1.proc (some (pongEvent e)) (draws k)
    rw [h2] at this
    exact this.symm
  · rw [← hw]
    exact h3
  · show p.trace = _
    have e1 : r1.proc.trace = r.proc.trace := by rw [hg]
    have e2 : r1.proc.t = k := by rw [hg]; exact hs.time
    rw [k1, e1, e2, perceived]

theorem pongEvent_name (e : Pong) : ∃ n, pongEvent e = .Name n := by
  unfold pongEvent
  split
  · exact ⟨_, rfl⟩
  · split <;> exact ⟨_, rfl⟩

theorem pongRound_total {env : Env} {k : Nat} {r : Reasoner} {e : Pong} {d : RoundDraws} (hd : d.Fair) (hs : PongSt k r)
    (hp : EnvSafe r.proc) (he : PongInv e) :
    ∃ r' e', pongRound env (r, e) (k, d) = .ok (r', e') ∧ EnvSafe r'.proc := by
  obtain ⟨r1, h1, s1⟩ := remind_total (env := env) hs hp
  obtain ⟨_, hs1, _⟩ := remind_spec hs h1
  obtain ⟨n, hn⟩ := pongEvent_name e
  obtain ⟨p, act, h2, s2⟩ := s1.envStep (env := env) hs1.nOps (event := some (pongEvent e))
    (fun t ht => by cases ht; rw [hn]; exact noProp_name n) hd
  obtain ⟨_, _, _, _, k5⟩ := envStep_spec h2
  have hops : r1.proc.ops = [⟨"^L", true, 3⟩, ⟨"^R", true, 3⟩] := hs1.ops
  obtain ⟨name, _, hw⟩ := pongAction_of hops k5
  obtain ⟨e', h3⟩ := runPong_total (worldOps name d.world) e he
  rw [← hw] at h3
  refine ⟨{ r1 with proc := p }, e', ?_, s2⟩
  unfold pongRound
  simp only [bind, Except.bind, h1, h2, h3]

theorem pongNar_st : PongSt 0 pongNar := ⟨rfl, rfl, rfl, rfl, rfl⟩

theorem narTable_ne : narInit.table ≠ [] := by decide +kernel

theorem pongNar_safe : EnvSafe pongNar.proc := by
  refine ⟨Started.safe ⟨⟨rfl, rfl, rfl⟩, rfl, rfl, by decide, narTable_ne, ⟨20, 8, by decide, by decide, rfl⟩, ?_⟩, ?_, ?_⟩
  · intro o ho
    simp only [pongNar, List.mem_cons, List.not_mem_nil, or_false] at ho
    rcases ho with rfl | rfl <;> decide
  · intro e he; cases he
  · intro m hm; cases hm

theorem pongRounds_succ (env : Env) (draws : Nat → RoundDraws) (n : Nat) :
    pongRounds env draws (n + 1) = (pongRounds env draws n).bind fun st => pongRound env st (n, draws n) := by
  unfold pongRounds
  rw [List.range_succ, List.map_append, List.foldlM_append]
  show Except.bind _ _ = _
  congr 1
  funext st
  show Except.bind (pongRound env st (n, draws n)) .ok = _
  cases pongRound env st (n, draws n) <;> rfl

theorem makePong_inv : PongInv makePong :=
  ⟨⟨by decide, by decide, by decide, rfl⟩, ⟨by decide, by decide, .inl rfl, .inl rfl⟩, by decide⟩

theorem pongRounds_total (env : Env) {draws : Nat → RoundDraws} (hd : ∀ k, (draws k).Fair) (n : Nat) :
    ∃ r e, pongRounds env draws n = .ok (r, e) ∧ EnvSafe r.proc ∧ PongSt n r ∧ PongInv e := by
  induction n with
  | zero => exact ⟨_, _, rfl, pongNar_safe, pongNar_st, makePong_inv⟩
  | succ n ih =>
    obtain ⟨r, e, h, s, st, pi⟩ := ih
    obtain ⟨r', e', h', s'⟩ := pongRound_total (env := env) (hd n) st s pi
    obtain ⟨st', _, act, name, _, hw, _⟩ := pongRound_spec st h'
    refine ⟨r', e', ?_, s', st', runPong_inv hw pi⟩
    rw [pongRounds_succ, h]
    exact h'

/-- the whole run, round by round -/
theorem pongRounds_history {env : Env} {draws : Nat → RoundDraws} {n : Nat} {r : Reasoner} {e : Pong}
    (h : pongRounds env draws n = .ok (r, e)) : PongSt n r ∧
    ∃ (w : Nat → Pong) (acts : Nat → Option Term) (names : Nat → Option String),
      w 0 = makePong ∧ w n = e ∧
      (∀ k < n, PongAction (acts k) (names k) ∧ runPong (w k) (worldOps (names k) (draws k).world) = .ok (w (k + 1))) ∧
      (∀ k ≤ n, ∃ rk, runProc envCall env.goalDecay pongNar.proc ((List.range k).flatMap fun i => pongOps draws i (pongEvent (w i))) =
        .ok rk ∧ (k = n → rk = r.proc) ∧
        (k < n → ∃ rk', runProc envCall env.goalDecay rk (pongOps draws k (pongEvent (w k))) = .ok rk' ∧
          rk'.trace = newest 20 (rk.trace ++ [⟨pongEvent (w k), k, k⟩] ++ actionEvent k (acts k)))) := by
  induction n generalizing r e with
  | zero =>
    cases h
    refine ⟨pongNar_st, fun _ => makePong, fun _ => none, fun _ => none, rfl, rfl, by intro k hk; omega, ?_⟩
    intro k hk
    obtain rfl : k = 0 := by omega
    exact ⟨pongNar.proc, rfl, fun _ => rfl, fun h => by omega⟩
  | succ n ih =>
    rw [pongRounds_succ] at h
    obtain ⟨⟨r0, e0⟩, h0, h1⟩ := R.bind_ok.1 h
    obtain ⟨st, w, acts, names, w0, wn, hw, hp⟩ := ih h0
    obtain ⟨st', hproc, act, name, ha, hworld, htr⟩ := pongRound_spec st h1
    have hlt : ∀ i, i ≤ n → (fun i => if i ≤ n then w i else e) i = w i := fun i hi => if_pos hi
    refine ⟨st', fun i => if i ≤ n then w i else e, fun i => if i < n then acts i else act,
      fun i => if i < n then names i else name, by simp [w0], by simp, ?_, ?_⟩
    · intro k hk
      by_cases hkn : k < n
      · simp only [if_pos hkn, if_pos (show k ≤ n by omega), if_pos (show k + 1 ≤ n by omega)]
        exact hw k hkn
      · obtain rfl : k = n := by omega
        simp only [if_neg (lt_irrefl k), if_pos (le_refl k), if_neg (show ¬ k + 1 ≤ k by omega), wn]
        exact ⟨ha, hworld⟩
    · have hflat : ∀ k, k ≤ n + 1 → ((List.range k).flatMap fun i => pongOps draws i (pongEvent (if i ≤ n then w i else e))) =
          (List.range k).flatMap fun i => pongOps draws i (pongEvent (w i)) := by
        intro k hk
        rw [List.flatMap_def, List.flatMap_def]
        congr 1
        refine List.map_congr_left (fun i hi => ?_)
        rw [if_pos (by have := List.mem_range.1 hi; omega)]
      intro k hk
      rw [hflat k hk]
      by_cases hkn : k ≤ n
      · obtain ⟨rk, q1, q2, q3⟩ := hp k hkn
        refine ⟨rk, q1, fun h => by omega, fun _ => ?_⟩
        by_cases hkn' : k < n
        · simp only [if_pos hkn', if_pos hkn]
          exact q3 hkn'
        · obtain rfl : k = n := by omega
          obtain rfl := q2 rfl
          simp only [if_neg (lt_irrefl k), if_pos (le_refl k), wn]
          exact ⟨r.proc, hproc, htr⟩
      · obtain rfl : k = n + 1 := by omega
        obtain ⟨rk, q1, q2, _⟩ := hp n (le_refl _)
        obtain rfl := q2 rfl
        refine ⟨r.proc, ?_, fun _ => rfl, fun h => by omega⟩
        rw [List.range_succ, List.flatMap_append, runProc_bind q1]
        simp only [List.flatMap_cons, List.flatMap_nil, List.append_nil, wn]
        exact hproc

end Nar
