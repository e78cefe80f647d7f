import Verif.Lemmas.Programs2
import Verif.Lemmas.Programs5
/-! # Lemmas about the benchmark and the end of the Pong program -/
namespace Nar

/-! ## the benchmark -/

theorem evalLoop_succ (env : Env) (draws : Nat → EvalDraws) (n k i : Nat) (r : Reasoner) :
    evalLoop env draws n (k + 1) i r = (evalCycle env r (draws i)).bind fun r =>
      if n < r.answers.length then .ok (r, some i) else evalLoop env draws n k (i + 1) r := rfl

/-- the cycles from the one with the number `i` on -/
def cyclesFrom (env : Env) (draws : Nat → EvalDraws) (i : Nat) (r : Reasoner) (n : Nat) : R Reasoner :=
  evalCycles env (fun j => draws (i + j)) r n

theorem cyclesFrom_succ (env : Env) (draws : Nat → EvalDraws) (i : Nat) (r : Reasoner) (n : Nat) :
    cyclesFrom env draws i r (n + 1) = (evalCycle env r (draws i)).bind fun r => cyclesFrom env draws (i + 1) r n := by
  unfold cyclesFrom evalCycles
  rw [List.range_succ_eq_map, List.map_cons, List.map_map, List.foldlM_cons]
  have : ((fun j => draws (i + j)) ∘ Nat.succ) = fun j => draws (i + 1 + j) := by
    funext j
    show draws (i + (j + 1)) = _
    congr 1
    omega
  rw [this]
  rfl

theorem evalLoop_some {env : Env} {draws : Nat → EvalDraws} {n k i j : Nat} {r r' : Reasoner} :
    evalLoop env draws n k i r = .ok (r', some j) ↔
      i ≤ j ∧ j < i + k ∧ cyclesFrom env draws i r (j - i + 1) = .ok r' ∧ n < r'.answers.length ∧
        ∀ m < j - i, ∃ rm, cyclesFrom env draws i r (m + 1) = .ok rm ∧ rm.answers.length ≤ n := by
  induction k generalizing i r with
  | zero =>
    constructor
    · intro h; cases h
    · rintro ⟨h1, h2, _⟩; omega
  | succ k ih =>
    rw [evalLoop_succ]
    cases hc : evalCycle env r (draws i) with
    | error x =>
      constructor
      · intro h; cases h
      · rintro ⟨h1, h2, h3, _⟩
        rw [cyclesFrom_succ, hc] at h3
        cases h3
    | ok r1 =>
      show (if n < r1.answers.length then _ else _) = _ ↔ _
      have hcy : ∀ m, cyclesFrom env draws i r (m + 1) = cyclesFrom env draws (i + 1) r1 m := by
        intro m; rw [cyclesFrom_succ, hc]; rfl
      by_cases hn : n < r1.answers.length
      · rw [if_pos hn]
        constructor
        · intro h
          obtain ⟨h1, h2⟩ := Prod.mk.inj (Except.ok.inj h)
          obtain rfl := Option.some.inj h2
          subst h1
          refine ⟨by omega, by omega, ?_, hn, by intro m hm; omega⟩
          rw [hcy, Nat.sub_self]
          rfl
        · rintro ⟨h1, h2, h3, h4, h5⟩
          by_cases hj : j = i
          · subst hj
            rw [hcy, Nat.sub_self] at h3
            have h3 : Except.ok r1 = Except.ok r' := h3
            rw [Except.ok.inj h3]
          · obtain ⟨rm, h6, h7⟩ := h5 0 (by omega)
            rw [hcy] at h6
            have h6 : Except.ok r1 = Except.ok rm := h6
            rw [← Except.ok.inj h6] at h7
            omega
      · rw [if_neg hn, ih]
        constructor
        · rintro ⟨h1, h2, h3, h4, h5⟩
          refine ⟨by omega, by omega, ?_, h4, ?_⟩
          · rw [hcy, show j - i = j - (i + 1) + 1 by omega]
            exact h3
          · intro m hm
            rw [hcy]
            cases m with
            | zero => exact ⟨r1, rfl, by omega⟩
            | succ m => exact h5 m (by omega)
        · rintro ⟨h1, h2, h3, h4, h5⟩
          have hj : j ≠ i := by
            rintro rfl
            rw [hcy, Nat.sub_self] at h3
            have h3 : Except.ok r1 = Except.ok r' := h3
            rw [← Except.ok.inj h3] at h4
            omega
          refine ⟨by omega, by omega, ?_, h4, ?_⟩
          · rw [hcy, show j - i = j - (i + 1) + 1 by omega] at h3
            exact h3
          · intro m hm
            have := h5 (m + 1) (by omega)
            rw [hcy] at this
            exact this

theorem evalLoop_none {env : Env} {draws : Nat → EvalDraws} {n k i : Nat} {r r' : Reasoner} :
    evalLoop env draws n k i r = .ok (r', none) ↔
      cyclesFrom env draws i r k = .ok r' ∧ ∀ m < k, ∃ rm, cyclesFrom env draws i r (m + 1) = .ok rm ∧ rm.answers.length ≤ n := by
  induction k generalizing i r with
  | zero =>
    constructor
    · intro h
      obtain ⟨rfl, _⟩ := Prod.mk.inj (Except.ok.inj h)
      exact ⟨rfl, by intro m hm; omega⟩
    · rintro ⟨h, _⟩
      have h : Except.ok r = Except.ok r' := h
      rw [Except.ok.inj h]
      rfl
  | succ k ih =>
    rw [evalLoop_succ, cyclesFrom_succ]
    cases hc : evalCycle env r (draws i) with
    | error x =>
      constructor
      · intro h; cases h
      · rintro ⟨h, _⟩; cases h
    | ok r1 =>
      show (if n < r1.answers.length then _ else _) = _ ↔ cyclesFrom env draws (i + 1) r1 k = _ ∧ _
      have hcy : ∀ m, cyclesFrom env draws i r (m + 1) = cyclesFrom env draws (i + 1) r1 m := by
        intro m; rw [cyclesFrom_succ, hc]; rfl
      by_cases hn : n < r1.answers.length
      · rw [if_pos hn]
        constructor
        · intro h
          cases (Prod.mk.inj (Except.ok.inj h)).2
        · rintro ⟨_, h⟩
          obtain ⟨rm, h6, h7⟩ := h 0 (by omega)
          rw [hcy] at h6
          have h6 : Except.ok r1 = Except.ok rm := h6
          rw [← Except.ok.inj h6] at h7
          omega
      · rw [if_neg hn, ih]
        constructor
        · rintro ⟨h1, h2⟩
          refine ⟨h1, ?_⟩
          intro m hm
          rw [hcy]
          cases m with
          | zero => exact ⟨r1, rfl, by omega⟩
          | succ m => exact h2 m (by omega)
        · rintro ⟨h1, h2⟩
          refine ⟨h1, fun m hm => ?_⟩
          have := h2 (m + 1) (by omega)
          rw [hcy] at this
          exact this

theorem cyclesFrom_zero (env : Env) (draws : Nat → EvalDraws) (r : Reasoner) (n : Nat) :
    cyclesFrom env draws 0 r n = evalCycles env draws r n := by
  unfold cyclesFrom
  simp

/-! ## the score -/

theorem score_bounds {ex : Nat → Rat} (hex : ∀ n, 0 < ex n ∧ ex n ≤ 1) (l : List (Option Nat)) :
    0 ≤ (l.map (evalScore ex)).sum ∧ (l.map (evalScore ex)).sum ≤ l.length := by
  induction l with
  | nil => simp
  | cons a l ih =>
    have h : 0 ≤ evalScore ex a ∧ evalScore ex a ≤ 1 := by
      cases a with
      | none => exact ⟨le_refl _, by norm_num [evalScore]⟩
      | some n => exact ⟨(hex n).1.le, (hex n).2⟩
    rw [List.map_cons, List.sum_cons, List.length_cons]
    push_cast
    constructor <;> linarith [h.1, h.2, ih.1, ih.2]

theorem flatten_length {runs : List (List (Option Nat))} {files : Nat} (hl : ∀ r ∈ runs, r.length = files) :
    runs.flatten.length = runs.length * files := by
  induction runs with
  | nil => simp
  | cons a runs ih =>
    rw [List.flatten_cons, List.length_append, hl a (by simp), ih (fun r hr => hl r (by simp [hr])), List.length_cons]
    ring

theorem score_none {ex : Nat → Rat} {l : List (Option Nat)} (h : ∀ x ∈ l, x = none) :
    (l.map (evalScore ex)).sum = 0 ∧ (l.filter (·.isNone)).length = l.length := by
  induction l with
  | nil => exact ⟨rfl, rfl⟩
  | cons a l ih =>
    obtain rfl := h a (by simp)
    obtain ⟨h1, h2⟩ := ih (fun x hx => h x (by simp [hx]))
    rw [List.map_cons, List.sum_cons, h1]
    refine ⟨by simp [evalScore], ?_⟩
    rw [List.filter_cons_of_pos (by rfl), List.length_cons, h2, List.length_cons]

/-! ## the end of the Pong program -/

theorem pongProgram_ok {env : Env} {draws : Nat → RoundDraws} {x : Rat} (h : pongProgram env draws = .ok x) :
    ∃ r e, pongRounds env draws 5001 = .ok (r, e) ∧ r.proc.mem.concepts ≠ [] ∧ x = e.hits / (e.misses + e.hits) := by
  obtain ⟨⟨r, e⟩, h1, h⟩ := R.bind_ok.1 h
  obtain ⟨_, _, h⟩ := R.bind_ok.1 h
  refine ⟨r, e, h1, ?_⟩
  split at h
  · cases h
  · rename_i hc
    exact ⟨fun h => hc (by rw [h]; rfl), (Except.ok.inj h).symm⟩

theorem pongProgram_idle {env : Env} {draws : Nat → RoundDraws} (hf : ∀ k, (draws k).Fair)
    (hd : ∀ k, (draws k).before = [] ∧ (draws k).between = []) : pongProgram env draws = .error .explicit := by
  obtain ⟨r, e, h, _⟩ := pongRounds_total env hf 5001
  have hc := pongRounds_idle hd h
  unfold pongProgram
  rw [h]
  show Except.bind (debugEvidence r.proc.mem) _ = _
  have : debugEvidence r.proc.mem = .ok () := by
    unfold debugEvidence
    rw [hc]
    rfl
  rw [this]
  show (if r.proc.mem.concepts.length = 0 then _ else _) = _
  rw [if_pos (by rw [hc]; rfl)]

end Nar
