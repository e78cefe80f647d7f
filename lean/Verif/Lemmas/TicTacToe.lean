import Verif.Spec.TicTacToe
import Verif.Lemmas.MlUtils
/-! # Lemmas about tic-tac-toe -/
namespace Nar

theorem tttLine_ok {f : List Char} (hf : f.length = 9) {i j k : Nat} (hi : i < 9) (hj : j < 9) (hk : k < 9) :
    ∃ o, tttLine f i j k = .ok o ∧ ∀ c, o = some c ↔ c ≠ ' ' ∧ f[i]? = some c ∧ f[j]? = some c ∧ f[k]? = some c := by
  rw [List.getElem?_eq_getElem (by omega), List.getElem?_eq_getElem (by omega), List.getElem?_eq_getElem (by omega)]
  unfold tttLine
  rw [indexAt_lt (show i < f.length by omega), indexAt_lt (show j < f.length by omega), indexAt_lt (show k < f.length by omega)]
  simp only [bind, Except.bind]
  split
  · rename_i h
    exact ⟨none, rfl, fun c => ⟨fun hc => (by cases hc), fun ⟨h1, h2, _⟩ => absurd ((Option.some.inj h2).symm.trans h) h1⟩⟩
  · rename_i h
    split
    · rename_i h1
      refine ⟨none, rfl, fun c => ⟨fun hc => (by cases hc), fun ⟨_, h2, h3, _⟩ => absurd ?_ h1⟩⟩
      exact (Option.some.inj h2).trans (Option.some.inj h3).symm
    · rename_i h1
      split
      · rename_i h4
        refine ⟨none, rfl, fun c => ⟨fun hc => (by cases hc), fun ⟨_, _, h2, h3⟩ => absurd ?_ h4⟩⟩
        exact (Option.some.inj h2).trans (Option.some.inj h3).symm
      · rename_i h4
        have e1 := not_not.1 h1
        have e2 := not_not.1 h4
        refine ⟨_, rfl, fun c => ⟨fun hc => ?_, fun ⟨_, h2, _⟩ => h2⟩⟩
        have hc' := Option.some.inj hc
        rw [← e2, ← e1, hc']
        exact ⟨fun hs => h (hc'.trans hs), rfl, rfl, rfl⟩

theorem tttFirst_ok {f : List Char} (hf : f.length = 9) : ∀ (ls : List (Nat × Nat × Nat)),
    (∀ l ∈ ls, l.1 < 9 ∧ l.2.1 < 9 ∧ l.2.2 < 9) →
    ∃ o, tttFirst f ls = .ok o ∧
      (∀ c, o = some c → c ≠ ' ' ∧ ∃ l ∈ ls, f[l.1]? = some c ∧ f[l.2.1]? = some c ∧ f[l.2.2]? = some c) ∧
      (o = none → ∀ c, c ≠ ' ' → ¬ ∃ l ∈ ls, f[l.1]? = some c ∧ f[l.2.1]? = some c ∧ f[l.2.2]? = some c)
  | [], _ => ⟨none, rfl, fun c h => (by cases h), fun _ c _ ⟨l, hl, _⟩ => absurd hl List.not_mem_nil⟩
  | (i, j, k) :: ls, h => by
    obtain ⟨h1, h2, h3⟩ := h (i, j, k) List.mem_cons_self
    obtain ⟨o, ho, hc⟩ := tttLine_ok hf h1 h2 h3
    unfold tttFirst
    rw [ho]
    simp only [bind, Except.bind]
    cases o with
    | some c =>
      refine ⟨some c, rfl, fun c' h' => ?_, fun h' => by cases h'⟩
      obtain ⟨k1, k2⟩ := (hc c').1 h'
      exact ⟨k1, (i, j, k), List.mem_cons_self, k2⟩
    | none =>
      obtain ⟨o, e1, e2, e3⟩ := tttFirst_ok hf ls (fun l hl => h l (List.mem_cons_of_mem _ hl))
      refine ⟨o, e1, fun c h' => ?_, fun h' c hne => ?_⟩
      · obtain ⟨k1, l, k2, k3⟩ := e2 c h'
        exact ⟨k1, l, List.mem_cons_of_mem _ k2, k3⟩
      · rintro ⟨l, hl, k⟩
        rcases List.mem_cons.1 hl with rfl | hl
        · have := (hc c).2 ⟨hne, k⟩
          cases this
        · exact e3 h' c hne ⟨l, hl, k⟩

theorem tttWinner_ok {f : List Char} (hf : f.length = 9) :
    ∃ o, tttWinner f = .ok o ∧ (∀ c, o = some c → c ≠ ' ' ∧ OwnsLine f c) ∧ (o = none → ∀ c, c ≠ ' ' → ¬ OwnsLine f c) := by
  obtain ⟨r, h1, r1, r2⟩ := tttFirst_ok hf [(0, 1, 2), (3, 4, 5), (6, 7, 8)] (by decide)
  obtain ⟨cl, h2, c1, c2⟩ := tttFirst_ok hf [(0, 3, 6), (1, 4, 7), (2, 5, 8)] (by decide)
  obtain ⟨d, h3, d1⟩ := tttLine_ok hf (i := 0) (j := 4) (k := 8) (by decide) (by decide) (by decide)
  obtain ⟨e, h4, e1⟩ := tttLine_ok hf (i := 2) (j := 4) (k := 6) (by decide) (by decide) (by decide)
  refine ⟨_, by unfold tttWinner; rw [h1, h2, h3, h4]; rfl, fun c hc => ?_, fun hn c hc => ?_⟩
  · cases he : e with
    | some x =>
      rw [he] at hc
      obtain ⟨k1, k2⟩ := (e1 c).1 (by rw [he]; exact hc)
      exact ⟨k1, (2, 4, 6), by decide, k2⟩
    | none =>
      rw [he] at hc
      cases hd : d with
      | some x =>
        rw [hd] at hc
        obtain ⟨k1, k2⟩ := (d1 c).1 (by rw [hd]; exact hc)
        exact ⟨k1, (0, 4, 8), by decide, k2⟩
      | none =>
        rw [hd] at hc
        cases hcl : cl with
        | some x =>
          rw [hcl] at hc
          obtain ⟨k1, l, k2, k3⟩ := c1 c (by rw [hcl]; exact hc)
          refine ⟨k1, l, ?_, k3⟩
          simp only [List.mem_cons, List.not_mem_nil, or_false] at k2
          rcases k2 with rfl | rfl | rfl <;> decide
        | none =>
          rw [hcl] at hc
          obtain ⟨k1, l, k2, k3⟩ := r1 c hc
          refine ⟨k1, l, ?_, k3⟩
          simp only [List.mem_cons, List.not_mem_nil, or_false] at k2
          rcases k2 with rfl | rfl | rfl <;> decide
  · cases e with
    | some x => cases hn
    | none =>
    cases d with
    | some x => cases hn
    | none =>
    cases cl with
    | some x => cases hn
    | none =>
    cases r with
    | some x => cases hn
    | none =>
    rintro ⟨l, hl, k⟩
    have r3 := r2 rfl c hc
    have c3 := c2 rfl c hc
    have d3 : ¬ (f[0]? = some c ∧ f[4]? = some c ∧ f[8]? = some c) := fun h => by
      have := (d1 c).2 ⟨hc, h⟩; cases this
    have e3 : ¬ (f[2]? = some c ∧ f[4]? = some c ∧ f[6]? = some c) := fun h => by
      have := (e1 c).2 ⟨hc, h⟩; cases this
    unfold tttLines at hl
    simp only [List.mem_cons, List.not_mem_nil, or_false] at hl
    rcases hl with rfl | rfl | rfl | rfl | rfl | rfl | rfl | rfl
    · exact r3 ⟨_, by simp, k⟩
    · exact r3 ⟨_, by simp, k⟩
    · exact r3 ⟨_, by simp, k⟩
    · exact c3 ⟨_, by simp, k⟩
    · exact c3 ⟨_, by simp, k⟩
    · exact c3 ⟨_, by simp, k⟩
    · exact d3 k
    · exact e3 k

theorem tryMove_ok {g : Ttt} {idx : Int} (h0 : 0 ≤ idx) (h : idx.toNat < g.field.length) :
    (g.field[idx.toNat] = ' ' ∧ tryMove g idx = .ok ({ g with field := g.field.set idx.toNat (tttSign g.player) }, true)) ∨
    (g.field[idx.toNat] ≠ ' ' ∧ tryMove g idx = .ok (g, false)) := by
  unfold tryMove
  rw [if_neg (by omega), indexAt_lt h]
  simp only [bind, Except.bind]
  by_cases hc : g.field[idx.toNat] = ' '
  · exact .inl ⟨hc, if_neg (not_not.2 hc)⟩
  · exact .inr ⟨hc, if_pos hc⟩

theorem text_has_free (f : List Char) (hf : ∀ c ∈ f, c = ' ' ∨ c = 'a' ∨ c = 'b') :
    (tttText f).contains 'S' = true ↔ ' ' ∈ f := by
  rw [List.contains_iff_mem]
  unfold tttText
  rw [List.mem_map]
  constructor
  · rintro ⟨c, hc, h⟩
    rcases hf c hc with rfl | rfl | rfl
    · exact hc
    · exact absurd h (by decide)
    · exact absurd h (by decide)
  · intro h
    exact ⟨' ', h, rfl⟩

/-- sane games; `n` accepted moves so far -/
structure TttInv (s : Ttt × TttResult) (n : Nat) : Prop where
  size : s.1.field.length = 9
  cells : ∀ c ∈ s.1.field, c = ' ' ∨ c = 'a' ∨ c = 'b'
  marks : s.1.field.count 'a' + s.1.field.count 'b' = n
  turn : s.2 = .running → s.1.field.count 'a' = s.1.field.count 'b' + (if s.1.player then 0 else 1)
  turnOver : s.2 ≠ .running → s.1.field.count 'a' + (if s.1.player then 0 else 0) =
    s.1.field.count 'b' + (if s.1.player then 1 else 0)
  running : s.2 = .running → ' ' ∈ s.1.field ∧ ∀ c, c ≠ ' ' → ¬ OwnsLine s.1.field c
  won : ∀ c, s.2 = .won c → c = tttSign s.1.player ∧ OwnsLine s.1.field c ∧ ∀ c', c' ≠ ' ' → OwnsLine s.1.field c' → c' = c
  draw : s.2 = .draw → ' ' ∉ s.1.field ∧ ∀ c, c ≠ ' ' → ¬ OwnsLine s.1.field c

theorem count_set {l : List Char} {i : Nat} (h : i < l.length) (x c : Char) (hx : l[i] ≠ c) :
    (l.set i x).count c = l.count c + (if x = c then 1 else 0) := by
  rw [List.count_set h]
  have : (l[i] == c) = false := by simpa using hx
  rw [this]
  simp only [Bool.false_eq_true, if_false, Nat.sub_zero, beq_iff_eq]

theorem newTtt_inv : TttInv (newTtt, .running) 0 := by
  refine ⟨by decide, ?_, by decide, fun _ => by decide, fun h => absurd rfl h, fun _ => ⟨by decide, ?_⟩, fun c h => (by cases h),
    fun h => by cases h⟩
  · intro c hc
    left
    simpa [newTtt] using hc
  · rintro c hc ⟨l, hl, h1, _⟩
    have : c ∈ newTtt.field := List.mem_of_getElem? h1
    exact hc (by simpa [newTtt] using this)

/-- a line after a move: an old line, or a line of the moved sign -/
theorem owns_set {f : List Char} {i : Nat} {s c : Char} (h : OwnsLine (f.set i s) c) (hc : c ≠ s) : OwnsLine f c := by
  obtain ⟨l, hl, h1, h2, h3⟩ := h
  have key : ∀ j : Nat, (f.set i s)[j]? = some c → f[j]? = some c := by
    intro j hj
    rw [List.getElem?_set] at hj
    split at hj
    · split at hj
      · exact absurd (Option.some.inj hj).symm hc
      · cases hj
    · exact hj
  exact ⟨l, hl, key _ h1, key _ h2, key _ h3⟩

theorem tttAttempt_inv {s : Ttt × TttResult} {n : Nat} {idx : Int} (hi : TttInv s n) (h0 : 0 ≤ idx) (h9 : idx < 9) :
    ∃ s', tttAttempt s idx = .ok s' ∧
      ((s' = s ∧ (s.2 ≠ .running ∨ s.1.field[idx.toNat]? ≠ some ' ')) ∨
        (s.2 = .running ∧ s.1.field[idx.toNat]? = some ' ' ∧
          s'.1.field = s.1.field.set idx.toNat (tttSign s.1.player) ∧ TttInv s' (n + 1))) := by
  obtain ⟨g, st⟩ := s
  unfold tttAttempt
  by_cases hr : st = .running
  swap
  · exact ⟨_, if_pos hr, .inl ⟨rfl, .inl hr⟩⟩
  subst hr
  rw [if_neg (fun h => h rfl)]
  have hsz := hi.size
  simp only at hsz
  have hlt : idx.toNat < g.field.length := by omega
  rcases tryMove_ok h0 hlt with ⟨hfree, ht⟩ | ⟨hocc, ht⟩
  swap
  · refine ⟨(g, .running), by rw [ht]; rfl, .inl ⟨rfl, .inr ?_⟩⟩
    rw [List.getElem?_eq_getElem hlt]
    exact fun hc => hocc (Option.some.inj hc)
  rw [ht]
  simp only [bind, Except.bind, if_true]
  -- the field after the move
  have hnl := (hi.running rfl).2
  simp only at hnl
  have hsign : tttSign g.player = 'a' ∨ tttSign g.player = 'b' := by
    unfold tttSign; split
    · exact .inl rfl
    · exact .inr rfl
  have hsz' : (g.field.set idx.toNat (tttSign g.player)).length = 9 := by rw [List.length_set]; exact hsz
  have hcells : ∀ c ∈ g.field.set idx.toNat (tttSign g.player), c = ' ' ∨ c = 'a' ∨ c = 'b' := by
    intro c hc
    rcases List.mem_or_eq_of_mem_set hc with h | h
    · exact hi.cells c h
    · rw [h]; exact .inr hsign
  have ha : g.field[idx.toNat] ≠ 'a' := by rw [hfree]; decide
  have hb : g.field[idx.toNat] ≠ 'b' := by rw [hfree]; decide
  have ca := count_set hlt (tttSign g.player) 'a' ha
  have cb := count_set hlt (tttSign g.player) 'b' hb
  have hm := hi.marks
  simp only at hm
  have hturn := hi.turn rfl
  simp only at hturn
  have hmarks : (g.field.set idx.toNat (tttSign g.player)).count 'a' + (g.field.set idx.toNat (tttSign g.player)).count 'b' = n + 1 := by
    rw [ca, cb]
    rcases hsign with hs | hs
    · rw [hs, if_pos rfl, if_neg (by decide)]; omega
    · rw [hs, if_neg (by decide), if_pos rfl]; omega
  have honly : ∀ c, c ≠ ' ' → OwnsLine (g.field.set idx.toNat (tttSign g.player)) c → c = tttSign g.player := by
    intro c hc ho
    by_contra hne
    exact hnl c hc (owns_set ho hne)
  have hturn2 : (g.field.set idx.toNat (tttSign g.player)).count 'a' =
      (g.field.set idx.toNat (tttSign g.player)).count 'b' + (if g.player then 1 else 0) := by
    rw [ca, cb]
    cases hp : g.player with
    | true =>
      rw [hp] at hturn
      simp only [tttSign] at hturn ⊢
      simp at hturn ⊢
      omega
    | false =>
      rw [hp] at hturn
      simp only [tttSign] at hturn ⊢
      simp at hturn ⊢
      omega
  obtain ⟨o, hw, w1, w2⟩ := tttWinner_ok hsz'
  have hq : g.field[idx.toNat]? = some ' ' := by rw [List.getElem?_eq_getElem hlt, hfree]
  unfold tttJudge
  simp only [hw, bind, Except.bind]
  cases o with
  | some c =>
    obtain ⟨k1, k2⟩ := w1 c rfl
    have kc := honly c k1 k2
    refine ⟨_, rfl, .inr ⟨trivial, hq, rfl, ⟨hsz', hcells, hmarks, fun h => (by cases h), fun _ => ?_, fun h => (by cases h), ?_,
      fun h => by cases h⟩⟩⟩
    · simp only [ite_self, Nat.add_zero]
      exact hturn2
    · intro c' hc'
      cases hc'
      exact ⟨kc, k2, fun c' h1 h2 => (honly c' h1 h2).trans kc.symm⟩
  | none =>
    have hno := w2 rfl
    simp only
    have htxt := text_has_free _ hcells
    by_cases hfr : (tttText (g.field.set idx.toNat (tttSign g.player))).contains 'S' = true
    · rw [if_neg (by rw [not_not]; exact hfr)]
      refine ⟨_, rfl, .inr ⟨trivial, hq, rfl, ⟨hsz', hcells, hmarks, fun _ => ?_, fun h => absurd rfl h, fun _ => ⟨htxt.1 hfr, hno⟩,
        fun c h => (by cases h), fun h => by cases h⟩⟩⟩
      simp only
      rw [hturn2]
      cases g.player <;> rfl
    · rw [if_pos hfr]
      refine ⟨_, rfl, .inr ⟨trivial, hq, rfl, ⟨hsz', hcells, hmarks, fun h => (by cases h), fun _ => ?_, fun h => (by cases h),
        fun c h => (by cases h), fun _ => ⟨fun hin => hfr (htxt.2 hin), hno⟩⟩⟩⟩
      simp only [ite_self, Nat.add_zero]
      exact hturn2

theorem runTtt_inv (moves : List Int) : ∀ (s : Ttt × TttResult) (n : Nat), TttInv s n → (∀ m ∈ moves, 0 ≤ m ∧ m < 9) →
    ∃ s' k, moves.foldlM tttAttempt s = .ok s' ∧ accepted s moves = .ok k ∧ TttInv s' (n + k) := by
  induction moves with
  | nil => exact fun s n hi _ => ⟨s, 0, rfl, rfl, hi⟩
  | cons m ms ih =>
    intro s n hi hm
    have hm0 := hm m List.mem_cons_self
    obtain ⟨s1, h1, hs⟩ := tttAttempt_inv hi hm0.1 hm0.2
    rcases hs with ⟨rfl, _⟩ | ⟨_, hfree, hset, hi1⟩
    · obtain ⟨s', k, h2, h3, h4⟩ := ih s1 n hi (fun m h => hm m (List.mem_cons_of_mem _ h))
      refine ⟨s', k, foldlM_cons_ok.2 ⟨s1, h1, h2⟩, ?_, h4⟩
      unfold accepted
      rw [h1]
      simp only [bind, Except.bind, h3, if_true]
    · obtain ⟨s', k, h2, h3, h4⟩ := ih s1 (n + 1) hi1 (fun m h => hm m (List.mem_cons_of_mem _ h))
      refine ⟨s', k + 1, foldlM_cons_ok.2 ⟨s1, h1, h2⟩, ?_, by rw [show n + (k + 1) = n + 1 + k by omega]; exact h4⟩
      unfold accepted
      rw [h1]
      simp only [bind, Except.bind, h3]
      rw [if_neg]
      intro he
      rw [hset] at he
      have e1 : (s.1.field.set m.toNat (tttSign s.1.player))[m.toNat]? = some (tttSign s.1.player) := by
        rw [List.getElem?_set_self]
        have := hi.size
        omega
      rw [he, hfree] at e1
      have e2 := Option.some.inj e1
      revert e2
      unfold tttSign
      cases s.1.player <;> decide

end Nar
