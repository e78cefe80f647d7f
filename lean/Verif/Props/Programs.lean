import Verif.Lemmas.Programs7
import Verif.Lemmas.Programs8
import Verif.Props.Nar
/-! # Properties of the programs: files, session, benchmark, stress test, Pong, tic-tac-toe -/
namespace Nar.Props
open Nar Term

/-! ## C84: files, session and command line -/

/-- C84: the interactive program is one history of a reasoner: the lines of the files which can be opened, one after the other,
then what is typed, where an empty line stands for the last line which is not empty.  It ends after the first line which is the
command to quit; nothing after that has any effect. -/
theorem C84_interactive (env : Env) (files : List (Option (List Read))) (typed : List Read) :
    interactive env files typed =
      (runNar env (.link :: readOps ((files.filterMap id).flatten ++ repeated typed))).map fun r =>
        (r, ((files.filterMap id).flatten ++ repeated typed).any Read.quits) := by
  rw [interactive_eq, readLines_eq]
  rfl

/-- C84: a file which cannot be opened changes nothing. -/
theorem C84_missing_file (env : Env) (a b : List (Option (List Read))) (typed : List Read) :
    interactive env (a ++ none :: b) typed = interactive env (a ++ b) typed := by
  rw [interactive_eq, interactive_eq]
  simp

/-- C84: splitting the lines among files makes no difference. -/
theorem C84_files_joined (env : Env) (a b : List Read) (rest : List (Option (List Read))) (typed : List Read) :
    interactive env (some (a ++ b) :: rest) typed = interactive env (some a :: some b :: rest) typed := by
  rw [interactive_eq, interactive_eq]
  simp

/-- C84: after the command to quit nothing is read any more. -/
theorem C84_nothing_after_quit (env : Env) (lines after : List Read) (q : Read) (hq : q.quits = true) (r : Reasoner) :
    readLines env r (lines ++ q :: after) = readLines env r (lines ++ [q]) := by
  rw [readLines_eq, readLines_eq]
  have h : untilQuit (lines ++ q :: after) = untilQuit (lines ++ [q]) := by
    unfold untilQuit
    induction lines with
    | nil => simp [hq]
    | cons l lines ih =>
      by_cases hl : l.quits
      · simp [hl]
      · simpa [hl] using ih
  unfold readOps
  rw [h]
  simp [hq]

/-- C84, violated: a session whose input has ended does not end.  Each further read yields the empty text, and each time the last
command is given to the reasoner again. -/
theorem C84_end_of_input_repeats (env : Env) (typed : List Read) (more : List Read) (hm : ∀ l ∈ more, trimNewline l.line = [])
    (r : Reasoner) :
    (session env (r, []) (typed ++ more)).map (fun x => (x.1.1, x.2)) =
      readLines env r (repeated typed ++ more.map fun l => { l with line := lastGiven (typed.map (·.line)) typed.length }) := by
  rw [session_repeated]
  congr 1
  unfold repeated
  rw [List.mapIdx_append]
  congr 1
  · apply List.mapIdx_eq_mapIdx_iff.2
    intro i hi
    have e : lastGiven ((typed ++ more).map (·.line)) i = lastGiven (typed.map (·.line)) i := by
      unfold lastGiven
      rw [List.map_append, List.take_append_of_le_length (by rw [List.length_map]; omega)]
    rw [e]
  · apply List.ext_getElem
    · simp
    · intro i h1 h2
      have e : lastGiven ((typed ++ more).map (·.line)) (typed.length + i) = lastGiven (typed.map (·.line)) typed.length := by
        unfold lastGiven
        rw [List.map_append, List.take_append, List.map_append, List.filter_append]
        have hz : ((((more.map (·.line)).take (typed.length + i + 1 - (typed.map (·.line)).length)).map trimNewline).filter (· ≠ [])) = [] := by
          apply List.filter_eq_nil_iff.2
          intro x hx
          obtain ⟨y, hy, rfl⟩ := List.mem_map.1 hx
          obtain ⟨l, hl, rfl⟩ := List.mem_map.1 (List.mem_of_mem_take hy)
          simp [hm l hl]
        rw [hz, List.append_nil, List.take_of_length_le (by rw [List.length_map]; omega), List.take_of_length_le (by rw [List.length_map]; omega)]
      simp only [List.getElem_mapIdx, List.getElem_map]
      rw [Nat.add_comm i typed.length, e]

/-- a line typed -/
def typedLine (s : String) : Read := ⟨s.toList, [], draws [] [5]⟩

/-- after "!s1" each empty text is "!s1" again: three commands for one -/
example : (repeated [typedLine "<a --> b>.\n", typedLine "!s1\n", typedLine "", typedLine ""]).map (·.line) =
    ["<a --> b>.".toList, "!s1".toList, "!s1".toList, "!s1".toList] := by decide

example : (interactive env0 [some [typedLine "<a --> b>."], none] [typedLine "<b --> c>.", typedLine "!QQ", typedLine "<c --> d>."]).map
    (fun x => (x.1.sh.heap.length, x.2)) = .ok (2, true) := by decide +kernel

/-- C84: what the program does is decided by the first argument; without one it panics, an unknown one does nothing, and the
benchmark with several runs needs a number. -/
theorem C84_command_line (m : String) (args : List String) :
    mainMode [] = .error .explicit ∧
    mainMode ("it" :: args) = .ok (.interactive args) ∧
    mainMode ("bQA" :: args) = .ok (.benchmark args) ∧
    mainMode ["bQA2"] = .error .unwrapNone ∧
    (∀ n k, parseI64 n.toList = some k → mainMode ("bQA2" :: n :: args) = .ok (.benchmarkRuns k args)) ∧
    (∀ n, parseI64 n.toList = none → mainMode ("bQA2" :: n :: args) = .error .parse) ∧
    (m ∉ ["it", "envPong3", "envTTT2", "envTTTprof", "chaos", "srv", "pe", "bQA", "bQA2", "nnTrain.nlp"] →
      mainMode (m :: args) = .ok .nothing) := by
  refine ⟨rfl, rfl, rfl, rfl, ?_, ?_, ?_⟩
  · intro n k h
    show (match parseI64 n.toList with | some k => _ | none => _) = _
    rw [h]
  · intro n h
    show (match parseI64 n.toList with | some k => _ | none => _) = _
    rw [h]
  · intro h
    simp only [List.mem_cons, List.not_mem_nil, or_false, not_or] at h
    obtain ⟨h1, h2, h3, h4, h5, h6, h7, h8, h9, h10⟩ := h
    simp only [mainMode]
    rw [if_neg h1, if_neg h2, if_neg h3, if_neg h4, if_neg h5, if_neg h6, if_neg h7, if_neg h8, if_neg h9, if_neg h10]

example : mainMode ["bQA2", "50", "a.nal"] = .ok (.benchmarkRuns 50 ["a.nal"]) := by decide
example : mainMode ["bQA2", "a.nal"] = .error .parse := by decide

/-! ## C85: the benchmark of question answering -/

/-- C85: the benchmark reports cycle `i` just if that is one of the first 180 cycles, there is an answer after it which was not
there before the benchmark started, and there is none after any earlier cycle. -/
theorem C85_first_answer (env : Env) (draws : Nat → EvalDraws) (r r' : Reasoner) (i : Nat) :
    evalRun env draws r = .ok (r', some i) ↔
      i < 180 ∧ evalCycles env draws { r with nGlobal := r.nGlobal + 1 } (i + 1) = .ok r' ∧ r.answers.length < r'.answers.length ∧
        ∀ j < i, ∃ rj, evalCycles env draws { r with nGlobal := r.nGlobal + 1 } (j + 1) = .ok rj ∧
          rj.answers.length ≤ r.answers.length := by
  unfold evalRun
  rw [evalLoop_some]
  simp only [cyclesFrom_zero, Nat.sub_zero, Nat.zero_add, Nat.zero_le, true_and]

/-- C85: it reports that there is no answer just if 180 cycles went by without one. -/
theorem C85_no_answer (env : Env) (draws : Nat → EvalDraws) (r r' : Reasoner) :
    evalRun env draws r = .ok (r', none) ↔
      evalCycles env draws { r with nGlobal := r.nGlobal + 1 } 180 = .ok r' ∧
        ∀ j < 180, ∃ rj, evalCycles env draws { r with nGlobal := r.nGlobal + 1 } (j + 1) = .ok rj ∧
          rj.answers.length ≤ r.answers.length := by
  unfold evalRun
  rw [evalLoop_none]
  simp only [cyclesFrom_zero]

/-- draws of the benchmark: two rounds of the worker before, one after -/
def evalDraws (_ : Nat) : EvalDraws := ⟨[.decl, .decl], 0, [.decl]⟩

/-- a question which needs a conclusion: the benchmark reports the cycle -/
example : evalFile env0 (some [typedLine "<a --> b>.", typedLine "<b --> c>.", typedLine "<a --> c>? :|:"]) evalDraws = .ok (some 0) := by
  decide +kernel

/-- C85, violated: a question which is not marked as an event is never answered.  Whatever the file, whatever the draws: if no line
ends in the mark `:|:`, the benchmark reports that there is no answer, even if a line of the file states what another one asks. -/
theorem C85_unmarked_questions (env : Env) (lines : List Read) (draws : Nat → EvalDraws) (res : Option Nat)
    (hn : ∀ l ∈ lines, ¬ " :|:".toList <:+ trimNewline l.line) (h : evalFile env (some lines) draws = .ok res) : res = none := by
  refine evalFile_quiet h ?_
  intro ls he l hl hq
  cases he
  obtain ⟨t, tv, hp⟩ := hq
  exact hn l hl (parseNarsese_event hp)

/-- `nalExp/ExTimAnimalProd0.nal`, one of the seven files of the benchmark `Eval.sh`; none of the seven has the mark in any line -/
def exTimAnimal : List Read :=
  [typedLine "// example from #nars in 2019", typedLine "<({sam}*{tim}) --> likes>.", typedLine "<({sam}*animal) --> likes>?",
    typedLine "<{tim} --> animal>.", typedLine "", typedLine "// expected answer without TV   <({sam}*animal) --> likes>."]

/-- so that file is never answered -/
example (draws : Nat → EvalDraws) (res : Option Nat) (h : evalFile env0 (some exTimAnimal) draws = .ok res) : res = none :=
  C85_unmarked_questions env0 _ _ res (by decide) h

/-- the same with the mark is answered, without it not even the statement itself is -/
example : evalFile env0 (some [typedLine "<a --> b>.", typedLine "<a --> b>? :|:"]) (fun _ => ⟨[], 0, []⟩) = .ok (some 0) := by decide +kernel
example : ∀ res, evalFile env0 (some [typedLine "<a --> b>.", typedLine "<a --> b>?"]) (fun _ => ⟨[], 0, []⟩) = .ok res → res = none :=
  fun res h => C85_unmarked_questions env0 _ _ res (by decide) h

/-- C85: the score is at least zero and at most the number of files, the ratio of unanswered questions is between zero and one. -/
theorem C85_score (ex : Nat → Rat) (hex : ∀ n, 0 < ex n ∧ ex n ≤ 1) (runs : List (List (Option Nat))) (files : Nat)
    (hl : ∀ r ∈ runs, r.length = files) (h0 : 0 < runs.length) :
    0 ≤ (benchmark ex runs).1 ∧ (benchmark ex runs).1 ≤ files ∧ 0 ≤ (benchmark ex runs).2 ∧ (benchmark ex runs).2 ≤ 1 := by
  obtain ⟨h1, h2⟩ := score_bounds hex runs.flatten
  have hp : (0 : Rat) < runs.length := by exact_mod_cast h0
  refine ⟨div_nonneg h1 hp.le, ?_, by unfold benchmark; positivity, ?_⟩
  · refine (div_le_iff₀ hp).2 (h2.trans ?_)
    rw [flatten_length hl]
    push_cast
    exact le_of_eq (mul_comm _ _)
  · unfold benchmark
    refine div_le_one_of_le₀ ?_ (by positivity)
    exact_mod_cast List.length_filter_le _ _

/-- C85: if no question is answered, the score is zero and the ratio is one. -/
theorem C85_nothing_answered (ex : Nat → Rat) (runs : List (List (Option Nat))) (h : ∀ r ∈ runs, ∀ x ∈ r, x = none)
    (hne : runs.flatten ≠ []) : benchmark ex runs = (0, 1) := by
  obtain ⟨h1, h2⟩ := score_none (ex := ex) (l := runs.flatten) (by
    intro x hx
    obtain ⟨r, hr, hx⟩ := List.mem_flatten.1 hx
    exact h r hr x hx)
  have hp : ((runs.flatten.length : Nat) : Rat) ≠ 0 := by
    have := List.length_pos_of_ne_nil hne
    exact_mod_cast (by omega)
  unfold benchmark
  rw [h1, h2, zero_div, div_self hp]

/-- C85: the score is no average over the files: it grows with their number. -/
example : benchmark (fun _ => 1) [[some 0, some 0, none], [some 3, some 1, none]] = (2, 1/3) := by decide +kernel

/-! ## C86: the stress test -/

/-- C86, violated: the stress test crashes within two rounds, whatever the draws. -/
theorem C86_always_crashes (env : Env) (draws : Nat → RoundDraws) (n : Nat) (hn : 2 ≤ n) : ∃ e, chaosRounds env draws n = .error e := by
  obtain ⟨k, rfl⟩ : ∃ k, n = k + 2 := ⟨n - 2, by omega⟩
  exact chaos_error env draws k

/-- C86: it is the missing declarative memory which is unwrapped. -/
theorem C86_crash_is_unwrap (env : Env) (draws : Nat → RoundDraws) (hd : ∀ k, (draws k).Fair) (n : Nat) (hn : 2 ≤ n) :
    chaosRounds env draws n = .error .unwrapNone := by
  obtain ⟨k, rfl⟩ : ∃ k, n = k + 2 := ⟨n - 2, by omega⟩
  exact chaos_unwrap env hd k

/-- draws of a round in which nothing is decided -/
def idleRound : RoundDraws := ⟨fun _ => ⟨1, [0], 0, 0⟩, [], [], [80], [], []⟩

theorem idleRound_fair : idleRound.Fair := ⟨fun _ => by simp [idleRound], fun x hx => by cases hx⟩

/-- the first round can pass -/
example : (chaosRounds env0 (fun _ => idleRound) 1).map (fun _ => ()) = .ok () := by decide +kernel
example : chaosRounds env0 (fun _ => idleRound) 1101 = .error .unwrapNone :=
  C86_crash_is_unwrap env0 _ (fun _ => idleRound_fair) _ (by omega)

/-! ## C87: the Pong program -/

/-- C87: the rounds never crash, however many there are. -/
theorem C87_never_crashes (env : Env) (draws : Nat → RoundDraws) (hd : ∀ k, (draws k).Fair) (n : Nat) :
    ∃ r e, pongRounds env draws n = .ok (r, e) :=
  let ⟨r, e, h, _⟩ := pongRounds_total env hd n
  ⟨r, e, h⟩

/-- C87: the coupling of reasoner and world.  In each round the reasoner perceives the event which describes the world as it is,
every tenth round it is given the goal before; the operator it executes, if it does, acts on the world, which then makes one step.
Perceived event and action are the newest entries of its window. -/
theorem C87_coupling (env : Env) (draws : Nat → RoundDraws) (n : Nat) (r : Reasoner) (e : Pong)
    (h : pongRounds env draws n = .ok (r, e)) :
    ∃ (w : Nat → Pong) (acts : Nat → Option Term) (names : Nat → Option String),
      w 0 = makePong ∧ w n = e ∧
      (∀ k < n, PongAction (acts k) (names k) ∧ runPong (w k) (worldOps (names k) (draws k).world) = .ok (w (k + 1))) ∧
      (∀ k ≤ n, ∃ rk, runProc envCall env.goalDecay pongNar.proc ((List.range k).flatMap fun i => pongOps draws i (pongEvent (w i))) =
        .ok rk ∧ (k = n → rk = r.proc) ∧
        (k < n → ∃ rk', runProc envCall env.goalDecay rk (pongOps draws k (pongEvent (w k))) = .ok rk' ∧
          rk'.trace = newest 20 (rk.trace ++ [⟨pongEvent (w k), k, k⟩] ++ actionEvent k (acts k)))) :=
  (pongRounds_history h).2

/-- C87: the clocks of the reasoner and of the world count the rounds. -/
theorem C87_clocks (env : Env) (draws : Nat → RoundDraws) (n : Nat) (r : Reasoner) (e : Pong)
    (h : pongRounds env draws n = .ok (r, e)) : r.proc.t = n ∧ e.t = n :=
  ⟨(pongRounds_history h).1.time, (pongRounds_flight h).2⟩

/-- C87: after 34 rounds the ball has been hit or missed at least once, whatever the reasoner does. -/
theorem C87_first_ball (env : Env) (draws : Nat → RoundDraws) (n : Nat) (hn : 34 ≤ n) (r : Reasoner) (e : Pong)
    (h : pongRounds env draws n = .ok (r, e)) : 0 ≤ e.hits ∧ 0 ≤ e.misses ∧ 1 ≤ e.hits + e.misses := by
  obtain ⟨f, ht⟩ := pongRounds_flight h
  exact ⟨f.hits, f.misses, f.score (by rw [ht]; exact_mod_cast hn)⟩

/-- C87: the ratio which the program reports is that of the hits among the hits and misses; it is never divided by zero and lies
between zero and one. -/
theorem C87_ratio (env : Env) (draws : Nat → RoundDraws) (x : Rat) (h : pongProgram env draws = .ok x) :
    ∃ r e, pongRounds env draws 5001 = .ok (r, e) ∧ e.misses + e.hits ≠ 0 ∧ x = e.hits / (e.misses + e.hits) ∧ 0 ≤ x ∧ x ≤ 1 := by
  obtain ⟨r, e, h1, _, rfl⟩ := pongProgram_ok h
  obtain ⟨h2, h3, h4⟩ := C87_first_ball env draws 5001 (by omega) r e h1
  have a : (0 : Rat) ≤ e.hits := by exact_mod_cast h2
  have b : (0 : Rat) ≤ e.misses := by exact_mod_cast h3
  refine ⟨r, e, h1, by omega, rfl, div_nonneg a (by linarith), div_le_one_of_le₀ (by linarith) (by linarith)⟩

/-- C87, violated: that there is a result depends on the speed of the thread which stores what is learned.  If it does not get to
run, the program ends with a panic after its 5001 rounds. -/
theorem C87_slow_worker_crash (env : Env) (draws : Nat → RoundDraws) (hf : ∀ k, (draws k).Fair)
    (hd : ∀ k, (draws k).before = [] ∧ (draws k).between = []) : pongProgram env draws = .error .explicit :=
  pongProgram_idle hf hd

example : pongProgram env0 (fun _ => idleRound) = .error .explicit :=
  C87_slow_worker_crash env0 _ (fun _ => idleRound_fair) (fun _ => ⟨rfl, rfl⟩)

/-- three rounds with babbling -/
example : (pongRounds env0 (fun k => { idleRound with decide := [k] }) 3).map (fun x => (x.2.t, x.1.proc.trace.length)) = .ok (3, 5) := by
  decide +kernel

/-! ## C88: the tic-tac-toe program -/

/-- C88: the program never crashes, whoever wins and whatever is drawn. -/
theorem C88_never_crashes (env : Env) (max : Int) (draws : List TttDraws) (hd : ∀ d ∈ draws, d.Fair) :
    ∃ s, playTtt env max draws = .ok s :=
  let ⟨s, h, _⟩ := playTtt_total (env := env) (max := max) hd
  ⟨s, h⟩

/-- C88: the counters are right at any time: the games played are games of tic-tac-toe from the empty board, with moves on the board
and to their end; the wins and losses counted are those of the finished games, and all games are counted. -/
theorem C88_counters (env : Env) (max : Int) (draws : List TttDraws) (s : TttProg) (h : playTtt env max draws = .ok s) :
    ∃ finished current, Played s finished current := (playTtt_st h).played

/-- C88: what is counted adds up: there are at least as many finished games as wins and losses. -/
theorem C88_counters_add_up (env : Env) (max : Int) (draws : List TttDraws) (s : TttProg) (h : playTtt env max draws = .ok s) :
    0 ≤ s.wins ∧ 0 ≤ s.losses ∧ s.wins + s.losses ≤ s.games + 1 := by
  obtain ⟨fin, cur, p⟩ := (playTtt_st h).played
  have hc := p.count
  have : (fin.filter (wonBy 'a')).length + (fin.filter (wonBy 'b')).length ≤ fin.length := by
    clear p hc
    induction fin with
    | nil => simp
    | cons ms fin ih =>
      rw [List.filter_cons, List.filter_cons]
      by_cases ha : wonBy 'a' ms
      · have hb : wonBy 'b' ms = false := by
          unfold wonBy at ha ⊢
          split at ha
          · rename_i x he
            have hx : x = 'a' := by simpa using ha
            rw [hx]
            rfl
          · cases ha
        simp [ha, hb]
        omega
      · by_cases hb : wonBy 'b' ms
        · simp [ha, hb]; omega
        · simp [ha, hb]; omega
  have h1 := p.wins
  have h2 := p.losses
  refine ⟨by omega, by omega, ?_⟩
  rw [h1, h2, hc]
  split <;> omega

/-- C88: when a game starts the reasoner knows the goal. -/
theorem C88_goal_known (env : Env) (max : Int) (draws : List TttDraws) (hd : ∀ d ∈ draws, d.Fair) (s s' : TttProg) (d : TttDraws)
    (h : playTtt env max draws = .ok s) (hp : s.phase = .newGame) (hs : tttPhase env max s d = .ok s') (hp' : s'.phase = .turn) :
    ∃ x, Stored s'.nar.proc.goals x ∧ x.sentence.term = .Name "w" := by
  obtain ⟨s0, h0, _, hok⟩ := playTtt_total (env := env) (max := max) hd
  rw [h] at h0
  rw [← Except.ok.inj h0] at hok
  exact tttPhase_goal hok hp hs hp'

/-- C88, violated: the program plays one game more than it is told to. -/
theorem C88_one_game_more (env : Env) (max : Int) (hmax : 0 ≤ max) (draws : List TttDraws) (s : TttProg)
    (h : playTtt env max draws = .ok s) (hp : s.phase = .done) :
    ∃ finished current, Played s finished current ∧ (finished.length : Int) = max + 1 := by
  have hs := playTtt_st h
  obtain ⟨fin, cur, p⟩ := hs.played
  refine ⟨fin, cur, p, ?_⟩
  have h1 := hs.done hp
  have h2 : s.games = max := by
    rcases hs.high with h | h
    · omega
    · omega
  have hc := p.count
  rw [hp] at hc
  simp at hc
  omega

/-- draws with which the reasoner babbles the move, or the opponent draws it -/
def babbled (m : Nat) : TttDraws :=
  ⟨List.replicate 4 { idleRound with decide := [m] }, m, idleRound, List.replicate 50 idleRound, 0⟩

/-- told to play no games the program plays one, which the reasoner wins -/
example : (playTtt env0 0 [babbled 80, babbled 0, babbled 3, babbled 1, babbled 4, babbled 2, babbled 0]).map
    (fun s => (s.wins, s.losses, s.games, s.phase, s.game.field)) =
    .ok (1, 0, 0, .done, ['a', 'a', 'a', 'b', 'b', ' ', ' ', ' ', ' ']) := by decide +kernel

end Nar.Props
