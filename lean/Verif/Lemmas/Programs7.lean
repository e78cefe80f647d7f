import Verif.Lemmas.Programs6
import Verif.Lemmas.MemSane
/-! # Lemmas about the tic-tac-toe program: it does not crash -/
namespace Nar
open Term

theorem bind_of_ok {α β : Type} {x : R α} {a : α} {f : α → R β} {y : R β} (h : x = .ok a) (hf : f a = y) : Except.bind x f = y := by
  subst h
  exact hf

theorem map_of_ok {α β : Type} {x : R α} {a : α} {f : α → β} (h : x = .ok a) : Except.map f x = .ok (f a) := by
  subst h
  rfl

/-! ## the declarative reasoner without tasks -/

/-- nothing to reason about -/
structure Idle (sh : Shared) : Prop where
  tasks : sh.judgementTasks = []
  questions : sh.questionTasks = []
  mem : sh.mem = []

theorem everyCleanup_idle (cfg : Cfg) {sh : Shared} (h : Idle sh) : ∃ sh', everyCleanup cfg sh = .ok sh' ∧ Idle sh' := by
  unfold everyCleanup
  split
  · refine ⟨{ sh with judgementTasks := [], judgementTasksByTerm := [] }, ?_, ⟨rfl, h.questions, h.mem⟩⟩
    simp only [cleanupTasks, rebuildLookup, h.tasks]
    rfl
  · exact ⟨sh, rfl, h⟩

theorem everyForget_idle {sh : Shared} (h : Idle sh) : ∃ sh', everyForget sh = .ok sh' ∧ Idle sh' := by
  unfold everyForget
  split
  · refine ⟨{ sh with mem := [] }, ?_, ⟨h.tasks, h.questions, rfl⟩⟩
    simp only [limitMemory, h.mem]
    rfl
  · exact ⟨sh, rfl, h⟩

theorem reasonCycle_idle (cfg : Cfg) (selVal : Rat) (now : Int) {sh : Shared} (h : Idle sh) :
    ∃ sh', reasonCycle cfg selVal now sh = .ok (sh', none, []) ∧ Idle sh' := by
  have h0 : Idle { sh with cycleCounter := sh.cycleCounter + 1 } := ⟨h.tasks, h.questions, h.mem⟩
  have e1 : creditQuestions { sh with cycleCounter := sh.cycleCounter + 1 } = { sh with cycleCounter := sh.cycleCounter + 1 } := by
    unfold creditQuestions
    rw [h0.questions]
    rfl
  have e2 : baseCredit { sh with cycleCounter := sh.cycleCounter + 1 } = .ok { sh with cycleCounter := sh.cycleCounter + 1 } := by
    unfold baseCredit
    simp only [h.tasks, List.foldl_nil]
    rfl
  have e3 : answerSampled cfg selVal { sh with cycleCounter := sh.cycleCounter + 1 } =
      .ok ({ sh with cycleCounter := sh.cycleCounter + 1 }, []) := by
    unfold answerSampled
    rw [if_neg (by rw [h0.questions]; simp)]
  have e4 : buildMsg cfg { sh with cycleCounter := sh.cycleCounter + 1 } = .ok ({ sh with cycleCounter := sh.cycleCounter + 1 }, none) := by
    unfold buildMsg selectPrimary
    rw [if_neg (by rw [h0.tasks]; simp)]
    rfl
  obtain ⟨s1, e5, h1⟩ := everyCleanup_idle cfg h0
  obtain ⟨s2, e6, h2⟩ := everyForget_idle h1
  refine ⟨s2, ?_, h2⟩
  unfold reasonCycle
  rw [e1, e2]
  show Except.bind (answerSampled cfg selVal _) _ = _
  rw [e3]
  show Except.bind (buildMsg cfg _) _ = _
  rw [e4]
  show Except.bind (everyCleanup cfg _) _ = _
  rw [show useMsg { sh with cycleCounter := sh.cycleCounter + 1 } now none = { sh with cycleCounter := sh.cycleCounter + 1 } from rfl, e5]
  show Except.bind (everyForget _) _ = _
  rw [e6]
  rfl

theorem cycle_idle (env : Env) (selVal : Rat) {r : Reasoner} (h : Idle r.sh) :
    ∃ r', cycle env r selVal = .ok r' ∧ Idle r'.sh ∧ r'.proc = r.proc ∧ r'.verbosity = r.verbosity := by
  have hl : Idle r.look := by
    unfold Reasoner.look
    split
    · exact ⟨h.tasks, h.questions, h.mem⟩
    · exact h
  obtain ⟨sh, e, hi⟩ := reasonCycle_idle (r.cfg env) selVal (r.currentTime + 1) hl
  unfold cycle
  rw [e]
  exact ⟨_, rfl, ⟨hi.tasks, hi.questions, hi.mem⟩, rfl, rfl⟩

/-! ## the steps -/

/-- what the program needs of the procedural reasoner -/
def ProcOk (p : Proc) : Prop := EnvSafe p ∧ p.nOpsMax = 1

/-- what the program needs of the reasoner -/
structure NarOk (r : Reasoner) : Prop where
  proc : ProcOk r.proc
  silent : r.verbosity = 0
  idle : Idle r.sh

theorem ProcOk.flags {p : Proc} (h : ProcOk p) (b : Bool) : ProcOk { p with enBabbling := b } :=
  ⟨⟨⟨h.1.safe.heap, h.1.safe.queue, h.1.safe.refs, h.1.safe.antic, h.1.safe.goals, h.1.safe.trace, h.1.safe.time, h.1.safe.table,
    h.1.safe.alive, h.1.safe.weights⟩, h.1.trace, h.1.queue⟩, h.2⟩

theorem ProcOk.noAnticipation {p : Proc} (h : ProcOk p) : ProcOk { p with anticipated := [] } :=
  ⟨⟨⟨h.1.safe.heap, h.1.safe.queue, h.1.safe.refs, (fun a ha => by cases ha), h.1.safe.goals, h.1.safe.trace, h.1.safe.time,
    h.1.safe.table, h.1.safe.alive, h.1.safe.weights⟩, h.1.trace, h.1.queue⟩, h.2⟩

theorem ProcOk.flush {p : Proc} (h : ProcOk p) : ProcOk (traceFlush p) :=
  ⟨⟨⟨h.1.safe.heap, h.1.safe.queue, h.1.safe.refs, h.1.safe.antic, h.1.safe.goals, (fun a ha => by cases ha), h.1.safe.time,
    h.1.safe.table, h.1.safe.alive, h.1.safe.weights⟩, (fun a ha => by cases ha), h.1.queue⟩, h.2⟩

theorem ProcOk.event {p : Proc} (h : ProcOk p) (n : String) : ProcOk (eventHappened p ⟨.Name n, p.t, p.t⟩) :=
  ⟨h.1.event (noProp_name n), h.2⟩

theorem ProcOk.goal {p : Proc} (h : ProcOk p) {g : GoalSystem} (hg : GSafe p.mem.heap.length g) : ProcOk { p with goals := g } :=
  ⟨⟨⟨h.1.safe.heap, h.1.safe.queue, h.1.safe.refs, h.1.safe.antic, hg, h.1.safe.trace, h.1.safe.time, h.1.safe.table,
    h.1.safe.alive, h.1.safe.weights⟩, h.1.trace, h.1.queue⟩, h.2⟩

theorem tttStep_total {env : Env} {st : Proc × Option Nat} {event : Option Term} {d : RoundDraws} (h : ProcOk st.1)
    (he : event = none ∨ ∃ n, event = some (.Name n)) (hd : d.Fair) : ∃ st', tttStep env st (event, d) = .ok st' ∧ ProcOk st'.1 := by
  obtain ⟨p', act, h1, h2⟩ := h.1.envStep (env := env) h.2 (event := event) (by
    rintro t rfl
    rcases he with he | ⟨n, he⟩
    · cases he
    · cases he; exact noProp_name n) hd
  refine ⟨(p', tttMove act st.2), ?_, h2, ?_⟩
  · unfold tttStep
    rw [h1]
    rfl
  · exact (envStep_spec h1).2.2.2.1.trans h.2

theorem tttThink_total {env : Env} {ds : List RoundDraws} (hd : ∀ d ∈ ds, d.Fair) {st : Proc × Option Nat} (h : ProcOk st.1) :
    ∃ st', tttThink env ds st = .ok st' ∧ ProcOk st'.1 := by
  induction ds generalizing st with
  | nil => exact ⟨st, rfl, h⟩
  | cons d ds ih =>
    obtain ⟨st1, h1, h2⟩ := tttStep_total (env := env) (event := none) h (.inl rfl) (hd d (by simp))
    unfold tttThink
    rw [h1]
    by_cases hm : st1.2.isSome
    · refine ⟨st1, ?_, h2⟩
      show (if st1.2.isSome then .ok st1 else tttThink env ds st1) = _
      rw [if_pos hm]
    · obtain ⟨st2, h3, h4⟩ := ih (fun d hd' => hd d (by simp [hd'])) h2
      refine ⟨st2, ?_, h4⟩
      show (if st1.2.isSome then .ok st1 else tttThink env ds st1) = _
      rw [if_neg hm]
      exact h3

theorem tttAsk_total {env : Env} {s : TttProg} {d : TttDraws} (hd : d.Fair) (h : NarOk s.nar) :
    ∃ s', tttAsk env s d = .ok s' ∧ NarOk s'.nar := by
  have hp : ProcOk { traceFlush s.nar.proc with anticipated := [], enBabbling := true } :=
    (h.proc.flush.noAnticipation).flags true
  obtain ⟨st, h1, h2⟩ := tttThink_total (env := env) (ds := d.think.take 4) (fun x hx => hd.think x (List.mem_of_mem_take hx))
    (st := (_, s.move)) (hp.event (String.ofList (tttText s.game.field)))
  refine ⟨{ s with nar := { s.nar with proc := st.1 }, move := st.2 }, ?_, h2, h.silent, h.idle⟩
  show Except.bind (tttThink env (d.think.take 4) _) _ = _
  exact bind_of_ok h1 rfl

theorem tttPause_total {env : Env} {s : TttProg} {d : TttDraws} (hd : d.Fair) (h : NarOk s.nar) :
    ∃ s', tttPause env s d = .ok s' ∧ NarOk s'.nar := by
  obtain ⟨st, h1, h2⟩ := foldlM_total (f := tttStep env) (fun st : Proc × Option Nat => ProcOk st.1)
    ((d.pause.take 50).map fun x => ((none : Option Term), x)) (by
      intro a ha b hb
      obtain ⟨x, hx, rfl⟩ := List.mem_map.1 ha
      exact tttStep_total hb (.inl rfl) (hd.pause x (List.mem_of_mem_take hx))) (s.nar.proc, s.move) h.proc
  refine ⟨{ s with nar := { s.nar with proc := st.1 }, move := st.2 }, ?_, h2, h.silent, h.idle⟩
  unfold tttPause
  rw [h1]
  rfl

theorem tttPerceive_total {env : Env} {s : TttProg} {d : TttDraws} (hd : d.Fair) (h : NarOk s.nar) :
    ∃ s', tttPerceive env s d = .ok s' ∧ NarOk s'.nar := by
  unfold tttPerceive
  split
  · exact ⟨s, rfl, h⟩
  · obtain ⟨st, h1, h2⟩ := tttStep_total (env := env) (st := (s.nar.proc, s.move)) (event := some (.Name (String.ofList (tttText s.game.field))))
      (d := d.perceive) h.proc (.inr ⟨_, rfl⟩) hd.perceive
    refine ⟨{ s with nar := { s.nar with proc := st.1 }, move := st.2 }, ?_, h2, h.silent, h.idle⟩
    rw [h1]
    rfl

theorem inputWon_total (env : Env) {r : Reasoner} (h : NarOk r) :
    ∃ r', inputN env r "w. :|:".toList [] = .ok (r', true) ∧ NarOk r' := by
  rw [inputN_event h.silent (rfl : parseNarsese env.pf "w. :|:".toList = .ok (some (.Name "w", ⟨1, 9/10⟩, .JUGEMENT, true)))]
  exact ⟨_, rfl, h.proc.event "w", h.silent, ⟨h.idle.tasks, h.idle.questions, h.idle.mem⟩⟩

theorem addEntry_known {g g' : GoalSystem} {t : Int} {goal : Sentence} {ev : Option Nat} {d : Int} (hi : GInv g)
    (h : addEntry g t goal ev d = .ok g') : ∃ x, Stored g' x ∧ x.sentence.term = goal.term := by
  rcases (addEntry_cases h).2 with ⟨hr, rfl⟩ | ⟨_, h2⟩
  · unfold goalRegistered lookupSents at hr
    cases hf : g'.entriesByTerm.find? (fun p => checkEqTerm p.1 goal.term) with
    | none => rw [hf] at hr; simp at hr
    | some ka =>
      rw [hf] at hr
      obtain ⟨iv, hiv, hs⟩ := List.any_eq_true.1 (show ka.2.any (fun iv => sameGoal iv goal) = true from hr)
      obtain ⟨_, i, e, he, hes⟩ := hi.reg ka.1 ka.2 (List.mem_of_find?_eq_some hf) iv hiv
      exact ⟨e, .inr ⟨i, he⟩, by rw [hes]; exact ((sameGoal_iff _ _).1 hs).1⟩
  · obtain ⟨_, _, ⟨x, hx, hs⟩, _⟩ := addEntry2_spec h2
    exact ⟨x, hx, hs.1⟩

theorem mem_retEntries {g : GoalSystem} {e : Entry} (h : e ∈ retEntries g) : Stored g e := by
  rcases List.mem_append.1 h with h | h
  · obtain ⟨level, hl, h⟩ := List.mem_flatMap.1 h
    obtain ⟨gr, hgr, he⟩ := List.mem_flatMap.1 h
    obtain ⟨i, hi⟩ := List.mem_iff_getElem?.1 hl
    exact .inr ⟨i, level, gr, hi, hgr, he⟩
  · exact .inl h

theorem tttRemind_total (env : Env) {r : Reasoner} (h : NarOk r) :
    ∃ r', tttRemind env r = .ok r' ∧ NarOk r' ∧ ∃ x, Stored r'.proc.goals x ∧ x.sentence.term = .Name "w" := by
  unfold tttRemind
  split
  · rename_i hk
    obtain ⟨e, he, ht⟩ := List.any_eq_true.1 hk
    exact ⟨r, rfl, h, e, mem_retEntries he, (checkEqTerm_iff _ _).1 ht⟩
  · rw [inputN_event h.silent (rfl : parseNarsese env.pf "w! :|:".toList = .ok (some (.Name "w", ⟨1, 9/10⟩, .GOAL, true)))]
    obtain ⟨g, h1, h2⟩ := h.proc.1.safe.goals.add (t := r.proc.t)
      (goal := newEternalSentenceByTv (.Name "w") .GOAL ⟨1, 9/10⟩ ⟨[r.sh.stampIdCounter]⟩) (ev := none) (d := 0)
      rfl ⟨⟨1, 9/10⟩, rfl⟩ (le_refl _) (by intro r h; cases h) (printable_name _)
    obtain ⟨x, hx, hxt⟩ := addEntry_known h.proc.1.safe.goals.inv h1
    refine ⟨{ r with sh := { r.sh with stampIdCounter := r.sh.stampIdCounter + 1 }, proc := { r.proc with goals := g } }, ?_,
      ⟨h.proc.goal h2, h.silent, ⟨h.idle.tasks, h.idle.questions, h.idle.mem⟩⟩, x, hx, hxt⟩
    have e : inputEventT env { r with sh := { r.sh with stampIdCounter := r.sh.stampIdCounter + 1 } }
        (newEternalSentenceByTv (.Name "w") .GOAL ⟨1, 9/10⟩ ⟨[r.sh.stampIdCounter]⟩) =
        .ok { r with sh := { r.sh with stampIdCounter := r.sh.stampIdCounter + 1 }, proc := { r.proc with goals := g } } := by
      simp only [inputEventT, newEternalSentenceByTv] at h1 ⊢
      rw [h1]
      rfl
    show Except.bind (Except.map _ (inputEventT env _ _)) _ = _
    exact bind_of_ok (map_of_ok e) rfl

theorem tttAfter_total {env : Env} {s : TttProg} {d : TttDraws} (hd : d.Fair) (h : NarOk s.nar) (hf : s.game.field.length = 9) :
    ∃ s', tttAfter env s d = .ok s' ∧ NarOk s'.nar := by
  have h0 : NarOk { s.nar with proc := { s.nar.proc with enBabbling := false } } := ⟨h.proc.flags false, h.silent, h.idle⟩
  obtain ⟨w, hw, _⟩ := tttWinner_ok hf
  unfold tttAfter
  simp only [hw]
  cases w with
  | some c =>
    show ∃ s', (if c = 'a' then _ else _) = _ ∧ _
    by_cases hc : c = 'a'
    · rw [if_pos hc]
      obtain ⟨r1, e1, h1⟩ := inputWon_total env h0
      rw [e1]
      obtain ⟨s2, e2, h2⟩ := tttPause_total (env := env) (s := { s with nar := r1, wins := s.wins + 1 }) hd h1
      refine ⟨{ s2 with phase := .newGame }, ?_, h2⟩
      show Except.bind (tttPause env _ d) _ = _
      rw [e2]
      rfl
    · rw [if_neg hc]
      exact ⟨_, rfl, h0⟩
  | none =>
    simp only [bind, Except.bind]
    split
    · exact ⟨_, rfl, h0⟩
    · obtain ⟨s1, e1, h1⟩ := tttPerceive_total (env := env) (s := { s with nar := { s.nar with proc := { s.nar.proc with enBabbling := false } } }) hd h0
      obtain ⟨s2, e2, h2⟩ := tttPause_total (env := env) hd h1
      obtain ⟨r3, e3, i3, p3, v3⟩ := cycle_idle env d.selVal h2.idle
      refine ⟨{ s2 with nar := r3, game := { s2.game with player := !s2.game.player } }, ?_, ⟨by rw [p3]; exact h2.proc, v3.trans h2.silent, i3⟩⟩
      rw [e1]
      show Except.bind (tttPause env _ d) _ = _
      rw [e2]
      show Except.bind (cycle env _ _) _ = _
      rw [e3]
      rfl

theorem tttTry_total {env : Env} {s : TttProg} {d : TttDraws} {idx : Nat} (hd : d.Fair) (h : NarOk s.nar) (hf : s.game.field.length = 9)
    (hi : idx < 9) : ∃ s', tttTry env s d idx = .ok s' ∧ NarOk s'.nar := by
  unfold tttTry
  rcases tryMove_ok (g := s.game) (idx := (idx : Int)) (by omega) (by omega) with ⟨_, e⟩ | ⟨_, e⟩
  · rw [e]
    exact tttAfter_total (s := { s with game := _ }) hd h (by simpa using hf)
  · rw [e]
    exact ⟨s, rfl, h⟩

theorem Played.size {s : TttProg} {fin : List (List Int)} {cur : List Int} (p : Played s fin cur) (hp : s.phase = .turn) :
    s.game.field.length = 9 := by
  obtain ⟨s', k, e, _, hi⟩ := runTtt_inv cur (newTtt, .running) 0 newTtt_inv (p.moves cur (by simp))
  have e' : runTtt cur = .ok s' := e
  rw [p.running hp] at e'
  rw [← Except.ok.inj e'] at hi
  exact hi.size

theorem tttPhase_total {env : Env} {max : Int} {s : TttProg} {d : TttDraws} (hd : d.Fair) (hs : TttSt max s) (h : NarOk s.nar) :
    ∃ s', tttPhase env max s d = .ok s' ∧ NarOk s'.nar := by
  unfold tttPhase
  split
  · exact ⟨s, rfl, h⟩
  · split
    · exact ⟨_, rfl, h⟩
    · obtain ⟨r, e, h1, _⟩ := tttRemind_total env h
      rw [e]
      exact ⟨_, rfl, h1.proc.flush, h1.silent, h1.idle⟩
  · rename_i hp
    obtain ⟨fin, cur, p⟩ := hs.played
    have hsize := p.size hp
    split
    · obtain ⟨s1, e1, h1⟩ := tttAsk_total (env := env) hd h
      obtain ⟨hg, hm⟩ := tttAsk_ok e1 hs.move
      rw [e1]
      show ∃ s', (match s1.move with | some m => tttTry env { s1 with move := none } d m | none => .ok s1) = _ ∧ _
      cases hmv : s1.move with
      | none => exact ⟨s1, rfl, h1⟩
      | some m =>
        exact tttTry_total (s := { s1 with move := none }) hd h1 (by show s1.game.field.length = 9; rw [hg.1]; exact hsize) (hm m hmv)
    · exact tttTry_total (s := { s with nar := { s.nar with proc := { s.nar.proc with anticipated := [] } } }) hd
        ⟨h.proc.noAnticipation, h.silent, h.idle⟩ hsize (Nat.mod_lt _ (by omega))

theorem startTtt_ok : NarOk startTtt.nar := by
  have hs : PSafe { startTtt.nar.proc with goals := makeGoalSystem 1000 8 } := by
    refine Started.safe ⟨⟨rfl, rfl, rfl⟩, rfl, rfl, by decide, narTable_ne, ⟨1000, 8, by decide, by decide, rfl⟩, ?_⟩
    intro o ho
    obtain ⟨i, _, rfl⟩ := List.mem_map.1 (show o ∈ tttOps from ho)
    show (1 : Int) ≤ 10000
    decide
  have hg := hs.goals
  refine ⟨⟨⟨⟨hs.heap, hs.queue, hs.refs, hs.antic, ?_, hs.trace, hs.time, hs.table, hs.alive, hs.weights⟩, (fun a ha => by cases ha),
    (fun a ha => by cases ha)⟩, rfl⟩, rfl, ⟨rfl, rfl, rfl⟩⟩
  exact ⟨⟨hg.inv.nlevels, hg.inv.groups, hg.inv.distinct, hg.inv.entries, hg.inv.activeOp, hg.inv.activeOnce, hg.inv.keys, hg.inv.reg⟩,
    hg.depth, hg.cap, hg.usable, hg.ev, hg.text⟩

theorem playTtt_total {env : Env} {max : Int} {draws : List TttDraws} (hd : ∀ d ∈ draws, d.Fair) :
    ∃ s, playTtt env max draws = .ok s ∧ TttSt max s ∧ NarOk s.nar := by
  refine foldlM_total (f := tttPhase env max) (fun s => TttSt max s ∧ NarOk s.nar) draws ?_ startTtt ⟨startTtt_st max, startTtt_ok⟩
  intro d hdm s ⟨h1, h2⟩
  obtain ⟨s', e, h3⟩ := tttPhase_total (env := env) (max := max) (hd d hdm) h1 h2
  exact ⟨s', e, tttPhase_st h1 e, h3⟩

/-- a game starts with the goal known -/
theorem tttPhase_goal {env : Env} {max : Int} {s s' : TttProg} {d : TttDraws} (h : NarOk s.nar) (hp : s.phase = .newGame)
    (e : tttPhase env max s d = .ok s') (hp' : s'.phase = .turn) : ∃ x, Stored s'.nar.proc.goals x ∧ x.sentence.term = .Name "w" := by
  unfold tttPhase at e
  rw [hp] at e
  simp only at e
  split at e
  · cases e; cases hp'
  · obtain ⟨r, e1, h1, x, hx, ht⟩ := tttRemind_total env h
    rw [e1] at e
    cases e
    exact ⟨x, hx, ht⟩

end Nar
