import Verif.Lemmas.Programs4
import Verif.Lemmas.TicTacToe
/-! # Lemmas about the tic-tac-toe program -/
namespace Nar
open Term

/-! ## what the steps of the reasoner leave alone -/

/-- the same program state up to the reasoner and the pending move -/
def SameGame (s s' : TttProg) : Prop :=
  s'.game = s.game ∧ s'.wins = s.wins ∧ s'.losses = s.losses ∧ s'.games = s.games ∧ s'.phase = s.phase

theorem SameGame.rfl' (s : TttProg) : SameGame s s := ⟨rfl, rfl, rfl, rfl, rfl⟩

/-- the pending move is a cell -/
def MoveOk (m : Option Nat) : Prop := ∀ i, m = some i → i < 9

theorem tttMove_ok {ex : Option Term} {m : Option Nat} (h : MoveOk m) : MoveOk (tttMove ex m) := by
  unfold tttMove
  split
  · rename_i name _
    intro i hi
    cases hf : ((List.range 9).find? fun i => "^" ++ toString i == name) with
    | none => rw [hf] at hi; exact h i hi
    | some j =>
      rw [hf] at hi
      have : j = i := Option.some.inj hi
      subst this
      exact List.mem_range.1 (List.mem_of_find?_eq_some hf)
  · exact h

theorem tttStep_ok {env : Env} {st st' : Proc × Option Nat} {ed : Option Term × RoundDraws} (h : tttStep env st ed = .ok st')
    (hm : MoveOk st.2) : MoveOk st'.2 := by
  obtain ⟨⟨p, ex⟩, _, h⟩ := R.bind_ok.1 h
  cases h
  exact tttMove_ok hm

theorem tttThink_ok {env : Env} {ds : List RoundDraws} {st st' : Proc × Option Nat} (h : tttThink env ds st = .ok st')
    (hm : MoveOk st.2) : MoveOk st'.2 := by
  induction ds generalizing st with
  | nil => cases h; exact hm
  | cons d ds ih =>
    obtain ⟨st1, h1, h⟩ := R.bind_ok.1 h
    split at h
    · cases h; exact tttStep_ok h1 hm
    · exact ih h (tttStep_ok h1 hm)

theorem tttAsk_ok {env : Env} {s s' : TttProg} {d : TttDraws} (h : tttAsk env s d = .ok s') (hm : MoveOk s.move) :
    SameGame s s' ∧ MoveOk s'.move := by
  obtain ⟨⟨p, m⟩, h1, h⟩ := R.bind_ok.1 h
  cases h
  exact ⟨SameGame.rfl' s, tttThink_ok h1 hm⟩

theorem tttPause_ok {env : Env} {s s' : TttProg} {d : TttDraws} (h : tttPause env s d = .ok s') (hm : MoveOk s.move) :
    SameGame s s' ∧ MoveOk s'.move := by
  obtain ⟨⟨p, m⟩, h1, h⟩ := R.bind_ok.1 h
  cases h
  exact ⟨SameGame.rfl' s, foldlM_inv (fun st : Proc × Option Nat => MoveOk st.2) h1 hm (fun _ _ _ _ ha hs => tttStep_ok hs ha)⟩

theorem tttPerceive_ok {env : Env} {s s' : TttProg} {d : TttDraws} (h : tttPerceive env s d = .ok s') (hm : MoveOk s.move) :
    SameGame s s' ∧ MoveOk s'.move := by
  unfold tttPerceive at h
  split at h
  · cases h; exact ⟨SameGame.rfl' s, hm⟩
  · obtain ⟨⟨p, m⟩, h1, h⟩ := R.bind_ok.1 h
    cases h
    exact ⟨SameGame.rfl' s, tttStep_ok h1 hm⟩

/-! ## the games -/

/-- how a result changes the counters -/
def scored (c : Char) (res : TttResult) : Int := if res = .won c then 1 else 0

theorem tttAfter_ok {env : Env} {s s' : TttProg} {d : TttDraws} (h : tttAfter env s d = .ok s') (hm : MoveOk s.move) :
    MoveOk s'.move ∧ s'.games = s.games ∧ ∃ res, tttJudge s.game = .ok (s'.game, res) ∧
      s'.wins = s.wins + scored 'a' res ∧ s'.losses = s.losses + scored 'b' res ∧
      s'.phase = (if res = .running then s.phase else .newGame) := by
  obtain ⟨w, hw, h⟩ := R.bind_ok.1 h
  have hw : tttWinner s.game.field = .ok w := hw
  cases w with
  | some c =>
    have hj : tttJudge s.game = .ok (s.game, .won c) := by
      unfold tttJudge
      rw [hw]
      rfl
    simp only at h
    split at h
    · rename_i hc
      subst hc
      obtain ⟨⟨r, _⟩, h1, h⟩ := R.bind_ok.1 h
      obtain ⟨s2, h2, h⟩ := R.bind_ok.1 h
      obtain ⟨⟨g1, g2, g3, g4, g5⟩, hm2⟩ := tttPause_ok h2 hm
      cases h
      refine ⟨hm2, g4, .won 'a', ?_, ?_, ?_, rfl⟩
      · show tttJudge s.game = .ok (s2.game, _)
        rw [g1]
        exact hj
      · show s2.wins = _
        rw [g2]
        rfl
      · show s2.losses = _
        rw [g3]
        exact (Int.add_zero _).symm
    · rename_i hc
      cases h
      refine ⟨hm, rfl, .won c, hj, ?_, ?_, rfl⟩
      · show s.wins = _
        rw [scored, if_neg (by intro h; exact hc (TttResult.won.inj h)), Int.add_zero]
      · show (if c = 'b' then s.losses + 1 else s.losses) = _
        unfold scored
        by_cases hb : c = 'b'
        · subst hb; rfl
        · rw [if_neg hb, if_neg (by intro h; exact hb (TttResult.won.inj h)), Int.add_zero]
  | none =>
    simp only at h
    split at h
    · rename_i hc
      cases h
      refine ⟨hm, rfl, .draw, ?_, (Int.add_zero _).symm, (Int.add_zero _).symm, rfl⟩
      unfold tttJudge
      rw [hw]
      exact if_pos hc
    · rename_i hc
      obtain ⟨s1, h1, h⟩ := R.bind_ok.1 h
      obtain ⟨s2, h2, h⟩ := R.bind_ok.1 h
      obtain ⟨r, h3, h⟩ := R.bind_ok.1 h
      obtain ⟨⟨f1, f2, f3, f4, f5⟩, hm1⟩ := tttPerceive_ok h1 hm
      obtain ⟨⟨g1, g2, g3, g4, g5⟩, hm2⟩ := tttPause_ok h2 hm1
      cases h
      refine ⟨hm2, g4.trans f4, .running, ?_, ?_, ?_, ?_⟩
      · show tttJudge s.game = .ok ({ s2.game with player := !s2.game.player }, _)
        rw [g1, f1]
        unfold tttJudge
        rw [hw]
        exact if_neg hc
      · show s2.wins = _
        rw [g2, f2]
        exact (Int.add_zero _).symm
      · show s2.losses = _
        rw [g3, f3]
        exact (Int.add_zero _).symm
      · show s2.phase = _
        rw [g5, f5]
        rfl

theorem runTtt_snoc {current : List Int} {st : Ttt × TttResult} {idx : Int} (h : runTtt current = .ok st) :
    runTtt (current ++ [idx]) = tttAttempt st idx := by
  unfold runTtt at h ⊢
  rw [List.foldlM_append, h]
  show Except.bind (tttAttempt st idx) .ok = _
  cases tttAttempt st idx <;> rfl

theorem tttTry_ok {env : Env} {s s' : TttProg} {d : TttDraws} {idx : Nat} {current : List Int} (h : tttTry env s d idx = .ok s')
    (hm : MoveOk s.move) (hc : runTtt current = .ok (s.game, .running)) :
    MoveOk s'.move ∧ s'.games = s.games ∧ ∃ res, runTtt (current ++ [(idx : Int)]) = .ok (s'.game, res) ∧
      s'.wins = s.wins + scored 'a' res ∧ s'.losses = s.losses + scored 'b' res ∧
      s'.phase = (if res = .running then s.phase else .newGame) := by
  obtain ⟨⟨g, valid⟩, h1, h⟩ := R.bind_ok.1 h
  have hat : tttAttempt (s.game, .running) idx = if valid then tttJudge g else .ok (g, .running) := by
    unfold tttAttempt
    rw [if_neg (by simp)]
    show Except.bind (tryMove s.game idx) _ = _
    rw [h1]
    rfl
  rw [runTtt_snoc hc, hat]
  cases valid with
  | true =>
    rw [if_pos rfl]
    exact tttAfter_ok (s := { s with game := g }) h hm
  | false =>
    rw [if_neg (by simp)]
    cases h
    have hg : g = s.game := by
      unfold tryMove at h1
      split at h1
      · cases h1
      · obtain ⟨c, _, h1⟩ := R.bind_ok.1 h1
        split at h1
        · exact (Prod.mk.inj (Except.ok.inj h1)).1.symm
        · exact absurd (Prod.mk.inj (Except.ok.inj h1)).2 (by simp)
    subst hg
    exact ⟨hm, rfl, .running, rfl, (Int.add_zero _).symm, (Int.add_zero _).symm, rfl⟩

theorem wonBy_iff {ms : List Int} {g : Ttt} {res : TttResult} {c : Char} (h : runTtt ms = .ok (g, res)) :
    wonBy c ms = decide (res = .won c) := by
  unfold wonBy
  rw [h]
  cases res with
  | won x =>
    by_cases hx : x = c
    · subst hx; simp
    · simp [hx]
  | running => simp
  | draw => simp

theorem count_snoc {finished : List (List Int)} {ms : List Int} {g : Ttt} {res : TttResult} {c : Char}
    (h : runTtt ms = .ok (g, res)) :
    (((finished ++ [ms]).filter (wonBy c)).length : Int) = ((finished.filter (wonBy c)).length : Int) + scored c res := by
  rw [List.filter_append, List.length_append, List.filter_cons, wonBy_iff h]
  unfold scored
  by_cases hr : res = .won c
  · simp [hr]
  · simp [hr]

/-- what holds of the program at any time -/
structure TttSt (max : Int) (s : TttProg) : Prop where
  move : MoveOk s.move
  played : ∃ finished current, Played s finished current
  low : -1 ≤ s.games
  high : s.games ≤ max ∨ s.games = -1
  done : s.phase = .done → max ≤ s.games

theorem startTtt_st (max : Int) : TttSt max startTtt where
  move := fun i h => by cases h
  played := ⟨[], [], ⟨(by intro ms h; simp at h; subst h; simp), (fun ms h => by cases h), rfl, rfl, rfl,
    (fun h => by cases h)⟩⟩
  low := by decide
  high := .inr rfl
  done := fun h => by cases h

theorem tttTry_st {env : Env} {max : Int} {s s' : TttProg} {d : TttDraws} {idx : Nat} (hi : idx < 9) (hs : TttSt max s)
    (hp : s.phase = .turn) (h : tttTry env s d idx = .ok s') : TttSt max s' := by
  obtain ⟨hm, ⟨fin, cur, p⟩, hl, hh, hd⟩ := hs
  obtain ⟨hm', hg, res, hr, hw, hls, hph⟩ := tttTry_ok h hm (p.running hp)
  have hmv : ∀ ms ∈ fin ++ [cur ++ [(idx : Int)]], ∀ m ∈ ms, 0 ≤ m ∧ m < 9 := by
    intro ms hms m hmm
    rcases List.mem_append.1 hms with hms | hms
    · exact p.moves ms (by simp [hms]) m hmm
    · rw [List.mem_singleton.1 hms] at hmm
      rcases List.mem_append.1 hmm with hmm | hmm
      · exact p.moves cur (by simp) m hmm
      · rw [List.mem_singleton.1 hmm]
        omega
  have hcnt := p.count
  rw [if_pos hp] at hcnt
  refine ⟨hm', ?_, by rw [hg]; exact hl, by rw [hg]; exact hh, ?_⟩
  · by_cases hres : res = .running
    · subst hres
      rw [if_pos rfl] at hph
      have hph' : s'.phase = .turn := hph.trans hp
      refine ⟨fin, cur ++ [(idx : Int)], hmv, p.ended, ?_, ?_, ?_, fun _ => hr⟩
      · rw [hw, p.wins]; simp [scored]
      · rw [hls, p.losses]; simp [scored]
      · rw [hg, if_pos hph']; exact hcnt
    · rw [if_neg hres] at hph
      refine ⟨fin ++ [cur ++ [(idx : Int)]], [], ?_, ?_, ?_, ?_, ?_, fun h => by rw [hph] at h; cases h⟩
      · intro ms hms
        rcases List.mem_append.1 hms with hms | hms
        · exact hmv ms hms
        · rw [List.mem_singleton.1 hms]; intro m hm; cases hm
      · intro ms hms
        rcases List.mem_append.1 hms with hms | hms
        · exact p.ended ms hms
        · rw [List.mem_singleton.1 hms]; exact ⟨_, _, hr, hres⟩
      · rw [count_snoc hr, hw, p.wins]
      · rw [count_snoc hr, hls, p.losses]
      · rw [hg, hph, hcnt]; simp
  · intro hdone
    rw [hph] at hdone
    split at hdone
    · rw [hp] at hdone; cases hdone
    · cases hdone

theorem TttSt.same {max : Int} {s s' : TttProg} (hs : TttSt max s) (hg : SameGame s s') (hm : MoveOk s'.move) : TttSt max s' := by
  obtain ⟨e1, e2, e3, e4, e5⟩ := hg
  obtain ⟨fin, cur, p⟩ := hs.played
  exact ⟨hm, ⟨fin, cur, p.moves, p.ended, by rw [e2]; exact p.wins, by rw [e3]; exact p.losses, by rw [e4, e5]; exact p.count,
    by rw [e5, e1]; exact p.running⟩, by rw [e4]; exact hs.low, by rw [e4]; exact hs.high, by rw [e4, e5]; exact hs.done⟩

theorem tttPhase_st {env : Env} {max : Int} {s s' : TttProg} {d : TttDraws} (hs : TttSt max s)
    (h : tttPhase env max s d = .ok s') : TttSt max s' := by
  unfold tttPhase at h
  split at h
  · cases h; exact hs
  · rename_i hp
    obtain ⟨fin, cur, p⟩ := hs.played
    have hcnt := p.count
    rw [hp, if_neg (by simp)] at hcnt
    split at h
    · rename_i hge
      cases h
      refine ⟨hs.move, ⟨fin, cur, p.moves, p.ended, p.wins, p.losses, ?_, fun h => by cases h⟩, hs.low, hs.high, fun _ => hge⟩
      exact hcnt
    · rename_i hge
      obtain ⟨r, h1, h⟩ := R.bind_ok.1 h
      cases h
      have hl := hs.low
      refine ⟨hs.move, ⟨fin, [], ?_, p.ended, p.wins, p.losses, ?_, fun _ => rfl⟩, ?_, ?_, fun h => by cases h⟩
      · intro ms hms
        rcases List.mem_append.1 hms with hms | hms
        · exact p.moves ms (by simp [hms])
        · rw [List.mem_singleton.1 hms]; intro m hm; cases hm
      · show s.games + 1 + 1 = _
        simp
        omega
      · show -1 ≤ s.games + 1
        omega
      · left
        show s.games + 1 ≤ max
        omega
  · rename_i hp
    split at h
    · obtain ⟨s1, h1, h⟩ := R.bind_ok.1 h
      obtain ⟨hg, hm⟩ := tttAsk_ok h1 hs.move
      have hs1 := hs.same hg hm
      have hp1 : s1.phase = .turn := hg.2.2.2.2.trans hp
      cases hmv : s1.move with
      | none =>
        rw [hmv] at h
        cases h
        exact hs1
      | some m =>
        rw [hmv] at h
        exact tttTry_st (hm m hmv) (s := { s1 with move := none }) (hs1.same ⟨rfl, rfl, rfl, rfl, rfl⟩ (fun i h => by cases h)) hp1 h
    · exact tttTry_st (Nat.mod_lt _ (by omega)) (hs.same (s' := { s with nar := { s.nar with proc := { s.nar.proc with anticipated := [] } } })
        ⟨rfl, rfl, rfl, rfl, rfl⟩ hs.move) hp h

theorem playTtt_st {env : Env} {max : Int} {draws : List TttDraws} {s : TttProg} (h : playTtt env max draws = .ok s) : TttSt max s :=
  foldlM_inv (TttSt max) h (startTtt_st max) (fun _ _ _ _ ha hs => tttPhase_st ha hs)

end Nar
