import Verif.Lemmas.TicTacToe
/-! # Property theorems about tic-tac-toe (C46) -/
namespace Nar.Props
open Nar

/-- C46: a move to a cell of the board is accepted exactly if the cell is free; then that cell gets the sign of the player to
move and nothing else changes; a refused move changes nothing. -/
theorem C46_move (g : Ttt) (idx : Nat) (h : idx < g.field.length) :
    (g.field[idx]? = some ' ' → ∃ g', tryMove g idx = .ok (g', true) ∧ g'.player = g.player ∧
      g'.field[idx]? = some (if g.player then 'a' else 'b') ∧ g'.field.length = g.field.length ∧
      ∀ j, j ≠ idx → g'.field[j]? = g.field[j]?) ∧
    (g.field[idx]? ≠ some ' ' → tryMove g idx = .ok (g, false)) := by
  have hlt : ((idx : Int)).toNat < g.field.length := by simpa using h
  rcases tryMove_ok (g := g) (idx := idx) (by omega) hlt with ⟨hf, ht⟩ | ⟨hf, ht⟩
  · simp only [Int.toNat_natCast] at hf ht
    refine ⟨fun _ => ⟨_, ht, rfl, List.getElem?_set_self h, List.length_set, fun j hj => List.getElem?_set_ne (fun e => hj e.symm)⟩,
      fun hn => absurd ?_ hn⟩
    rw [List.getElem?_eq_getElem h, hf]
  · simp only [Int.toNat_natCast] at hf ht
    refine ⟨fun hs => absurd ?_ hf, fun _ => ht⟩
    rw [List.getElem?_eq_getElem h] at hs
    exact Option.some.inj hs

/-- C46: a move outside of the board crashes. -/
theorem C46_move_crash (g : Ttt) (idx : Int) (h : idx < 0 ∨ (g.field.length : Int) ≤ idx) : tryMove g idx = .error .index := by
  unfold tryMove
  by_cases h0 : idx < 0
  · rw [if_pos h0]
  · rw [if_neg h0, indexAt_err (by omega)]; rfl

example : tryMove { field := "ab       ".toList, player := true } 4 = .ok ({ field := "ab  a    ".toList, player := true }, true) ∧
    tryMove { field := "ab       ".toList, player := true } 1 = .ok ({ field := "ab       ".toList, player := true }, false) := by
  decide

/-- C46: on every board the winner reported fills a line, and if a sign fills a line then a winner is reported. -/
theorem C46_winner (f : List Char) (hf : f.length = 9) :
    ∃ o, tttWinner f = .ok o ∧ (∀ c, o = some c → c ≠ ' ' ∧ OwnsLine f c) ∧
      (o = none ↔ ¬ ∃ c, c ≠ ' ' ∧ OwnsLine f c) := by
  obtain ⟨o, h1, h2, h3⟩ := tttWinner_ok hf
  refine ⟨o, h1, h2, fun h ⟨c, hc, ho⟩ => h3 h c hc ho, fun h => ?_⟩
  cases o with
  | none => rfl
  | some c => exact absurd ⟨c, h2 c rfl⟩ h

example : tttWinner "ab  ab   ".toList = .ok none ∧ tttWinner "abb a   a".toList = .ok (some 'a') := by decide

/-- C46: no sequence of attempted moves on the board crashes the game, and at any time: the board has nine cells which are free
or have the sign of a player; the number of marks is the number of accepted moves, hence there are at most nine; the first
player has as many marks as the second one or one more; it is the player's turn whose mark is missing. -/
theorem C46_game (moves : List Int) (hm : ∀ m ∈ moves, 0 ≤ m ∧ m < 9) :
    ∃ s n, runTtt moves = .ok s ∧ accepted (newTtt, .running) moves = .ok n ∧
      s.1.field.length = 9 ∧ (∀ c ∈ s.1.field, c = ' ' ∨ c = 'a' ∨ c = 'b') ∧
      s.1.field.count 'a' + s.1.field.count 'b' = n ∧ n ≤ 9 ∧
      s.1.field.count 'b' ≤ s.1.field.count 'a' ∧ s.1.field.count 'a' ≤ s.1.field.count 'b' + 1 ∧
      (s.2 = .running → (s.1.player = true ↔ s.1.field.count 'a' = s.1.field.count 'b')) := by
  obtain ⟨s, k, h1, h2, h3⟩ := runTtt_inv moves _ 0 newTtt_inv hm
  rw [Nat.zero_add] at h3
  have hle : s.1.field.count 'a' + s.1.field.count 'b' ≤ 9 := by
    have hz : ∀ l : List Char, l.count 'a' + l.count 'b' ≤ l.length := by
      intro l
      induction l with
      | nil => simp
      | cons c l ih =>
        rw [List.count_cons, List.count_cons, List.length_cons]
        by_cases h1 : c = 'a'
        · subst h1; simp; omega
        · have : (c == 'a') = false := by simpa using h1
          rw [this]
          simp only [Bool.false_eq_true, if_false]
          split <;> omega
    have := hz s.1.field
    rw [h3.size] at this
    exact this
  refine ⟨s, k, h1, h2, h3.size, h3.cells, h3.marks, by rw [← h3.marks]; exact hle, ?_, ?_, fun hr => ?_⟩
  · by_cases hr : s.2 = .running
    · have := h3.turn hr; split at this <;> omega
    · have := h3.turnOver hr; simp only [ite_self] at this; split at this <;> omega
  · by_cases hr : s.2 = .running
    · have := h3.turn hr; split at this <;> omega
    · have := h3.turnOver hr; simp only [ite_self] at this; split at this <;> omega
  · have := h3.turn hr
    cases hp : s.1.player with
    | true => rw [hp] at this; simp at this; simp [this]
    | false => rw [hp] at this; simp at this; simp [this]

/-- C46: the result of a game is right: while it runs there is a free cell and no line; a reported winner is the player who
made the last move, it fills a line, and nobody else does; a draw means that no cell is free and nobody fills a line. -/
theorem C46_result (moves : List Int) (hm : ∀ m ∈ moves, 0 ≤ m ∧ m < 9) (s : Ttt × TttResult) (h : runTtt moves = .ok s) :
    match s.2 with
    | .running => ' ' ∈ s.1.field ∧ ∀ c, c ≠ ' ' → ¬ OwnsLine s.1.field c
    | .won c => c = tttSign s.1.player ∧ OwnsLine s.1.field c ∧ ∀ c', c' ≠ ' ' → OwnsLine s.1.field c' → c' = c
    | .draw => ' ' ∉ s.1.field ∧ ∀ c, c ≠ ' ' → ¬ OwnsLine s.1.field c := by
  obtain ⟨s', k, h1, h2, h3⟩ := runTtt_inv moves _ 0 newTtt_inv hm
  have : s = s' := Except.ok.inj (h.symm.trans h1)
  subst this
  split
  · rename_i hr; exact h3.running hr
  · rename_i c hr; exact h3.won c hr
  · rename_i hr; exact h3.draw hr

/-- the first player wins with the first column; later attempts change nothing -/
example : (runTtt [0, 1, 3, 1, 4, 6, 8]).map (fun s => (s.1.field, s.2)) = .ok ("ab ab a  ".toList, .won 'a') := by decide
/-- a draw -/
example : (runTtt [0, 1, 2, 4, 3, 5, 7, 6, 8]).map (fun s => (s.1.field, s.2)) = .ok ("abaabbbaa".toList, .draw) := by decide

/-- C46: once a game has ended, no attempt changes anything. -/
theorem C46_end_is_final (s : Ttt × TttResult) (h : s.2 ≠ .running) (moves : List Int) : moves.foldlM tttAttempt s = .ok s := by
  induction moves with
  | nil => rfl
  | cons m ms ih => exact foldlM_cons_ok.2 ⟨s, if_pos h, ih⟩

/-- C46: what the reasoner perceives determines the board. -/
theorem C46_perception (f g : List Char) (hf : ∀ c ∈ f, c = ' ' ∨ c = 'a' ∨ c = 'b') (hg : ∀ c ∈ g, c = ' ' ∨ c = 'a' ∨ c = 'b')
    (h : tttText f = tttText g) : f = g := by
  induction f generalizing g with
  | nil =>
    cases g with
    | nil => rfl
    | cons c g => cases h
  | cons c f ih =>
    cases g with
    | nil => cases h
    | cons d g =>
      unfold tttText at h
      rw [List.map_cons, List.map_cons] at h
      obtain ⟨h1, h2⟩ := List.cons.inj h
      have e := ih g (fun c hc => hf c (List.mem_cons_of_mem _ hc)) (fun c hc => hg c (List.mem_cons_of_mem _ hc)) h2
      subst e
      congr 1
      rcases hf c List.mem_cons_self with rfl | rfl | rfl <;> rcases hg d List.mem_cons_self with rfl | rfl | rfl <;>
        first | rfl | exact absurd h1 (by decide)

example : tttText "ab  a    ".toList = "abSSaSSSS".toList := by decide

end Nar.Props
