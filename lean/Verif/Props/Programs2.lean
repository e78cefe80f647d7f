import Verif.Props.Programs
/-! # C88: a move decided too early (concrete runs of the whole program, slow to check) -/
namespace Nar.Props
open Nar Term

/-- draws of a round with eight rounds of the storage thread before and after, the given draws for deriving goals, and the given
draw for the decision -/
def busyRound (infs : List (Rat × Rat × List Nat)) (m : Nat) : RoundDraws :=
  ⟨fun i => ⟨1, [i / 4], i / 2, i⟩, List.replicate 8 [], List.replicate 8 [], [m], infs, []⟩

/-- draws for deriving goals -/
def goalDraws : List (Rat × Rat × List Nat) :=
  (List.range 3).flatMap fun (i : Nat) => (List.range 3).map fun (j : Nat) => ((i : Rat) / 3, (j : Rat) / 3, [i, j, 0])

/-- a phase with busy rounds -/
def busyPhase (b : List (Rat × Rat × List Nat)) (m : Nat) : TttDraws :=
  ⟨List.replicate 4 (busyRound [] m), m, busyRound b 80, List.replicate 5 (busyRound b 80) ++ List.replicate 45 idleRound, 0⟩

/-- a phase in which nothing is decided or stored, with the given draw of the opponent -/
def idlePhase (m : Nat) : TttDraws := ⟨List.replicate 4 idleRound, m, idleRound, List.replicate 50 idleRound, 0⟩

/-- one game won by the reasoner, and the first moves of a second one -/
def twoGames : List TttDraws :=
  [busyPhase [] 80, busyPhase [] 0, busyPhase [] 3, busyPhase [] 1, busyPhase [] 4, busyPhase [] 2,
    busyPhase [] 80, busyPhase goalDraws 0, busyPhase goalDraws 3, busyPhase goalDraws 1, idlePhase 6]

theorem busyRound_fair (b : List (Rat × Rat × List Nat)) (hb : ∀ x ∈ b, 0 ≤ x.2.1) (m : Nat) : (busyRound b m).Fair :=
  ⟨fun _ => by simp [busyRound], hb⟩

theorem goalDraws_fair : ∀ x ∈ goalDraws, 0 ≤ x.2.1 := by decide +kernel

theorem busyPhase_fair (b : List (Rat × Rat × List Nat)) (hb : ∀ x ∈ b, 0 ≤ x.2.1) (m : Nat) : (busyPhase b m).Fair where
  think := fun d hd => by
    rw [List.eq_of_mem_replicate hd]
    exact busyRound_fair [] (fun x hx => by cases hx) m
  perceive := busyRound_fair b hb 80
  pause := fun d hd => by
    rcases List.mem_append.1 hd with h | h
    · rw [List.eq_of_mem_replicate h]; exact busyRound_fair b hb 80
    · rw [List.eq_of_mem_replicate h]; exact idleRound_fair

theorem idlePhase_fair (m : Nat) : (idlePhase m).Fair where
  think := fun d hd => by rw [List.eq_of_mem_replicate hd]; exact idleRound_fair
  perceive := idleRound_fair
  pause := fun d hd => by rw [List.eq_of_mem_replicate hd]; exact idleRound_fair

theorem twoGames_fair : ∀ d ∈ twoGames, d.Fair := by
  intro d hd
  simp only [twoGames, List.mem_cons, List.not_mem_nil, or_false] at hd
  have h0 : ∀ m, (busyPhase [] m).Fair := busyPhase_fair [] (fun x hx => by cases hx)
  have h1 : ∀ m, (busyPhase goalDraws m).Fair := busyPhase_fair goalDraws goalDraws_fair
  rcases hd with rfl | rfl | rfl | rfl | rfl | rfl | rfl | rfl | rfl | rfl | rfl
  all_goals first | exact h0 _ | exact h1 _ | exact idlePhase_fair _

theorem ok_of_map {S T : Type} {o : R S} {f : S → T} {P : T → Bool} (h : (o.map fun s => P (f s)) = .ok true) :
    ∃ s, o = .ok s ∧ P (f s) = true := by
  cases o with
  | error e => cases h
  | ok s => exact ⟨s, rfl, Except.ok.inj h⟩

/-- what is checked of the state after the two games -/
def staleCheck (s : TttProg) : Bool :=
  decide (s.phase = .turn) && s.game.player && decide (s.move = some 1) && decide (s.game.field.getD 1 ' ' ≠ ' ') &&
  (match tttAsk env0 { s with move := none } (idlePhase 0), tttAsk env0 s (idlePhase 0) with
    | .ok a, .ok b => decide (a.move = none) && decide (b.move = some 1)
    | _, _ => false)

set_option maxRecDepth 100000 in
theorem staleRun : ((playTtt env0 100 twoGames).map fun s => staleCheck s) = .ok true := by decide +kernel

/-- C88, violated: the move which is tried when the reasoner is asked need not be one it decides on then.  What it decides during
the pause after an earlier move is kept: here it is asked for its move, decides on nothing at all, and still a move is tried, onto a
field which is taken. -/
theorem C88_stale_move : ∃ (draws : List TttDraws) (d : TttDraws) (s asked fresh : TttProg) (m : Nat),
    (∀ x ∈ draws, x.Fair) ∧ d.Fair ∧ playTtt env0 100 draws = .ok s ∧ s.phase = .turn ∧ s.game.player = true ∧
    tttAsk env0 s d = .ok asked ∧ tttAsk env0 { s with move := none } d = .ok fresh ∧
    fresh.move = none ∧ asked.move = some m ∧ s.game.field.getD m ' ' ≠ ' ' := by
  obtain ⟨s, hs, hc⟩ := ok_of_map (f := id) (P := staleCheck) staleRun
  simp only [staleCheck, id, Bool.and_eq_true, decide_eq_true_eq] at hc
  obtain ⟨⟨⟨⟨h1, h2⟩, h3⟩, h4⟩, h5⟩ := hc
  split at h5
  · rename_i a b ha hb
    rw [Bool.and_eq_true, decide_eq_true_eq, decide_eq_true_eq] at h5
    exact ⟨twoGames, idlePhase 0, s, b, a, 1, twoGames_fair, idlePhase_fair 0, hs, h1, h2, hb, ha, h5.1, h5.2, h4⟩
  · cases h5

end Nar.Props
