import Verif.Lemmas.VarIntro
/-! # Property theorems about variable introduction (C48, C49) -/
namespace Nar.Props
open Nar Term

/-- C48: if a variable is introduced for `x` in `t`, then `x` occurs at least twice in `t`; and if the chosen
variable does not already occur in `t`, putting `x` back for the variable gives exactly `t`, the variable stands
at exactly as many places as `x` did, and no occurrence of `x` is left. -/
theorem C48_introduction_generalises (t x t' v : Term) (rng rng' : List Nat)
    (h : introVars t x rng = .ok ([t'], rng')) (hv : createRandomVarname rng = .ok (v, rng'))
    (hfresh : ¬ IsSubterm v t) :
    2 ≤ timesIn x t ∧ (∀ θ, Realises [⟨v, x⟩] θ → inst θ t' = t) ∧
      timesIn v t' = timesIn x t ∧ timesIn x t' = 0 := by
  obtain ⟨h2, w, hw, rfl⟩ := introVars_ok h
  rw [hv] at hw
  cases hw
  have hvar : IsVar v := by
    unfold createRandomVarname at hv
    obtain ⟨p, _, hv⟩ := R.bind_ok.1 hv
    cases hv
    trivial
  have hx : IsSubterm x t := occurrences_sub (List.count_pos_iff.1 (by unfold timesIn at h2; omega))
  have hvx : ¬ IsSubterm v x := fun h' => hfresh (h'.trans hx)
  refine ⟨h2, ?_, ?_, ?_⟩
  · intro θ hθ
    refine inst_replace hvar (hθ.1 ⟨v, x⟩ (by simp)) (fun y hy => hθ.2 y ?_) t hfresh
    intro a ha
    rw [List.mem_singleton] at ha
    subst ha
    exact fun e => hy e.symm
  · rw [← count_eq_timesIn, ← count_eq_timesIn,
      count_replace (fun t ht he => replaceTerm_ne_var hvar t ht he) t hfresh, countOccurence_self, Nat.mul_one]
  · rw [← count_eq_timesIn, count_replace (fun t ht he => replaceTerm_ne_repl hvar hvx t ht he) t hfresh]
    have : countOccurence v x = 0 := by
      rw [count_eq_timesIn, timesIn, List.count_eq_zero]
      intro hm
      have : x = v := by
        cases v <;> simp only [IsVar] at hvar <;>
          (rw [occurrences, List.mem_singleton] at hm; exact hm)
      exact hvx (this ▸ .refl _)
    rw [this, Nat.mul_zero]

/-- C48: which rules get a generalised copy: exactly those of the shape `<(<x --> [ps]>, b) =/> c>` in which
`x` occurs at least twice; and never more than one copy. -/
theorem C48_introduced_exactly_when_repeated (r : Term) (rng rng' : List Nat) (out : List Term)
    (h : matchandintroVar1 r rng = .ok (out, rng')) :
    out.length ≤ 1 ∧ (out ≠ [] ↔ ∃ x, Introducible x r ∧ 2 ≤ timesIn x r) ∧
      ∀ x t', Introducible x r → t' ∈ out → introVars r x rng = .ok ([t'], rng') := by
  have iv : ∀ (t x : Term) (out : List Term), introVars t x rng = .ok (out, rng') →
      out.length ≤ 1 ∧ (out ≠ [] ↔ 2 ≤ timesIn x t) := by
    intro t x out h
    unfold introVars at h
    rw [count_eq_timesIn] at h
    split at h
    · cases h; exact ⟨by simp, by simp; omega⟩
    · obtain ⟨⟨w, rng1⟩, _, h⟩ := R.bind_ok.1 h
      cases h
      exact ⟨by simp, by simp; omega⟩
  unfold matchandintroVar1 at h
  split at h
  · rename_i subj ps b c
    obtain ⟨h1, h2⟩ := iv _ _ _ h
    refine ⟨h1, h2.trans ⟨fun h3 => ⟨subj, ⟨ps, b, c, rfl⟩, h3⟩, ?_⟩, ?_⟩
    · rintro ⟨x, ⟨_, _, _, he⟩, h3⟩
      simp only [Stmt.injEq, Seq.injEq, List.cons.injEq] at he
      obtain rfl := he.2.1.1.2.1
      exact h3
    · rintro x t' ⟨_, _, _, he⟩ ht
      simp only [Stmt.injEq, Seq.injEq, List.cons.injEq] at he
      rw [← he.2.1.1.2.1, h]
      match out, h1, ht with
      | [a], _, ht => rw [List.mem_singleton] at ht; rw [ht]
  · rename_i hne
    cases h
    refine ⟨by simp, ⟨fun h => absurd rfl h, ?_⟩, by simp⟩
    rintro ⟨x, ⟨ps, b, c, he⟩, _⟩
    exact absurd he (hne _ _ _ _)

/-- C48: the copy of a sentence differs from it only in the statement. -/
theorem C48_copy_keeps_attributes (s s' : Sentence) (rng rng' : List Nat) (out : List Sentence)
    (h : matchandintroVar1Sentence s rng = .ok (out, rng')) (hs : s' ∈ out) :
    (∃ ts, matchandintroVar1 s.term rng = .ok (ts, rng') ∧ s'.term ∈ ts) ∧
      s' = { s with term := s'.term } := by
  unfold matchandintroVar1Sentence at h
  obtain ⟨⟨ts, rng1⟩, h1, h⟩ := R.bind_ok.1 h
  cases h
  obtain ⟨t, ht, rfl⟩ := List.mem_map.1 hs
  exact ⟨⟨ts, h1, ht⟩, rfl⟩

/-- `<(<a --> [p]>, op) =/> <a --> [q]>>`: `a` occurs twice and is generalised -/
def generalisable : Term :=
  Stmt .PREDIMPL (.Seq [Stmt .INH (Name "a") (SetInt [Name "p"]), Name "op"])
    (Stmt .INH (Name "a") (SetInt [Name "q"]))

example : matchandintroVar1 generalisable (List.replicate 24 0) =
    .ok ([Stmt .PREDIMPL (.Seq [Stmt .INH (IndepVar "Q000000000000000000000000") (SetInt [Name "p"]), Name "op"])
      (Stmt .INH (IndepVar "Q000000000000000000000000") (SetInt [Name "q"]))], []) := by decide +kernel

example : Introducible (Name "a") generalisable ∧ timesIn (Name "a") generalisable = 2 :=
  ⟨⟨_, _, _, rfl⟩, by decide +kernel⟩

/-- C49, what holds: if none of the 24 draws (each below 16) is 15, a name is produced; it consists of the letter
`Q` and 24 characters, and different draws give different names. -/
theorem C49_name_is_produced_partial (draws rest : List Nat) (hl : draws.length = 24) (hd : ∀ d ∈ draws, d < 15) :
    ∃ cs, createRandomVarname (draws ++ rest) = .ok (IndepVar (String.ofList ('Q' :: cs)), rest) ∧
      cs.length = 24 := by
  obtain ⟨cs, h1, h2⟩ := varNameLoop_ok draws rest hd
  rw [hl] at h1
  refine ⟨cs, ?_, by rw [← h2.length_eq, hl]⟩
  unfold createRandomVarname
  rw [h1]; rfl

/-- C49: names drawn differently are different, so two introduced variables coincide only if all 24 draws do. -/
theorem C49_names_distinct (ds es rest rest' : List Nat) (n : Term) (hl : ds.length = 24) (hl' : es.length = 24)
    (hd : ∀ d ∈ ds, d < 15) (he : ∀ d ∈ es, d < 15) (h : createRandomVarname (ds ++ rest) = .ok (n, rest))
    (h' : createRandomVarname (es ++ rest') = .ok (n, rest')) : ds = es := by
  obtain ⟨cs, h1, h2⟩ := varNameLoop_ok ds rest hd
  obtain ⟨cs', h1', h2'⟩ := varNameLoop_ok es rest' he
  rw [hl] at h1
  rw [hl'] at h1'
  unfold createRandomVarname at h h'
  rw [h1] at h
  rw [h1'] at h'
  have e1 := (Prod.mk.inj (Except.ok.inj h)).1
  have e2 := (Prod.mk.inj (Except.ok.inj h')).1
  have e3 := Term.IndepVar.inj (e1.trans e2.symm)
  have e4 := String.ofList_injective e3
  have e5 := (List.cons.inj e4).2
  subst e5
  exact forall₂_alphabet_inj h2 h2'

/-- C49 is violated: as soon as one of the 24 draws is 15 (one of the sixteen equally likely values), the
program panics, because the alphabet has only fifteen characters. -/
theorem C49_crashes_on_fifteen (draws rest : List Nat) (hl : draws.length = 24) (hd : ∀ d ∈ draws, d < 16)
    (h : 15 ∈ draws) : createRandomVarname (draws ++ rest) = .error .unwrapNone := by
  have := varNameLoop_crash draws rest hd h
  rw [hl] at this
  unfold createRandomVarname
  rw [this]; rfl

/-- C49 is violated for the rule above: adding it as evidence crashes with these draws -/
example : matchandintroVar1 generalisable (List.replicate 23 0 ++ [15]) = .error .unwrapNone := by decide +kernel

example : (createRandomVarname (List.range 15 ++ List.range 9)).toBool = true := by decide +kernel

end Nar.Props
