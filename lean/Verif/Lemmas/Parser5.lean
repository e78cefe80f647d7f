import Verif.Lemmas.Parser4
import Verif.Lemmas.Term
/-! # Lemmas about reading printed terms -/
namespace Nar

/-- texts of terms are unambiguous -/
theorem notation_unique {t t' : Term} {r r' : List Char} (h : Readable t) (h' : Readable t')
    (e : EndsBefore t r) (e' : EndsBefore t' r') (heq : notation' t ++ r = notation' t' ++ r') :
    t = t' ∧ r = r' := by
  have h1 := (parseEntry_iff (notation' t ++ r) t r).2 ⟨h, rfl, e⟩
  have h2 := (parseEntry_iff (notation' t ++ r) t' r').2 ⟨h', heq, e'⟩
  rw [h1] at h2
  simpa using h2

theorem Plain.readable {t : Term} (h : Plain t) : Readable t := by
  induction h with
  | name h => exact .name h
  | qvar h => exact .qvar h
  | depvar h => exact .depvar h
  | indepvar h => exact .indepvar h
  | stmt _ _ iha ihb => exact .stmt iha ihb
  | setExt _ ih => exact .setExt ih
  | setInt _ ih => exact .setInt ih

theorem Plain.printed {t : Term} (h : Plain t) : t.convTermToStr = some (notation' t) := by
  induction h with
  | name h => simp [Term.convTermToStr, notation']
  | qvar h => simp [Term.convTermToStr, notation']
  | depvar h => simp [Term.convTermToStr, notation']
  | indepvar h => simp [Term.convTermToStr, notation']
  | stmt _ _ iha ihb => simp [Term.convTermToStr, notation', iha, ihb]
  | setExt _ ih => simp [Term.convTermToStr, Term.joinStr, notation', notationL, ih]
  | setInt _ ih => simp [Term.convTermToStr, Term.joinStr, notation', notationL, ih]

theorem wellWorded_part {t c : Term} (h : WellWorded t) (hc : c ∈ t.parts) : WellWorded c := by
  intro w hw
  apply h w
  rcases hw with hw | hw | hw | hw
  · exact .inl (.inside hc hw)
  · exact .inr (.inl (.inside hc hw))
  · exact .inr (.inr (.inl (.inside hc hw)))
  · exact .inr (.inr (.inr (.inside hc hw)))

theorem blank_not_start (l r : List Char) {t : Term} (h : Readable t)
    (e : ' ' :: l = notation' t ++ r) : False := by
  obtain ⟨c, l2, h1, h2⟩ := notation_start h
  rw [h1] at e
  simp at e
  rw [← e.1] at h2
  revert h2; decide

theorem bang_not_start (l r : List Char) {t : Term} (h : Readable t)
    (e : '!' :: l = notation' t ++ r) : False := by
  obtain ⟨c, l2, h1, h2⟩ := notation_start h
  rw [h1] at e
  simp at e
  rw [← e.1] at h2
  revert h2; decide

/-- a readable term whose text begins with `(` and a blank does not exist -/
theorem paren_blank (l r : List Char) {t : Term} (h : Readable t)
    (e : '(' :: ' ' :: l = notation' t ++ r) : False := by
  cases h with
  | name hw =>
    obtain ⟨c, l2, h1, h2⟩ := word_cons hw
    rw [notation', h1] at e
    simp at e
    rw [← e.1] at h2
    revert h2; decide
  | qvar | depvar | indepvar | stmt | setExt | setInt | neg => simp [notation'] at e
  | @seq ts h2 hts =>
    match ts, h2, hts with
    | a :: b :: ts, _, hts =>
      simp [notation', notationL_cons] at e
      exact blank_not_start _ _ (hts a (by simp)) e
  | @prod ts h2 hts =>
    match ts, h2, hts with
    | a :: b :: ts, _, hts =>
      simp [notation', notationL_cons] at e
      exact blank_not_start _ _ (hts a (by simp)) e
  | @conj ts h2 _ hts =>
    match ts, h2, hts with
    | a :: b :: ts, _, hts =>
      simp [notation', notationL_cons] at e
      exact blank_not_start _ _ (hts a (by simp)) e
  | intInt ha hb =>
    simp [notation', notationL_cons] at e
    exact blank_not_start _ _ ha e
  | extInt ha hb =>
    simp [notation', notationL_cons] at e
    exact blank_not_start _ _ ha e
  | img _ ha _ =>
    simp [notation', notationL_cons] at e
    exact blank_not_start _ _ ha e

theorem paren_bang_blank (l r : List Char) {t : Term} (h : Readable t)
    (e : '(' :: '!' :: ' ' :: l = notation' t ++ r) : False := by
  cases h with
  | name hw =>
    obtain ⟨c, l2, h1, h2⟩ := word_cons hw
    rw [notation', h1] at e
    simp at e
    rw [← e.1] at h2
    revert h2; decide
  | qvar | depvar | indepvar | stmt | setExt | setInt => simp [notation'] at e
  | neg ha =>
    simp [notation'] at e
    exact blank_not_start _ _ ha e
  | @seq ts h2 hts =>
    match ts, h2, hts with
    | a :: b :: ts, _, hts =>
      simp [notation', notationL_cons] at e
      exact bang_not_start _ _ (hts a (by simp)) e
  | @prod ts h2 hts =>
    match ts, h2, hts with
    | a :: b :: ts, _, hts =>
      simp [notation', notationL_cons] at e
      exact bang_not_start _ _ (hts a (by simp)) e
  | @conj ts h2 _ hts =>
    match ts, h2, hts with
    | a :: b :: ts, _, hts =>
      simp [notation', notationL_cons] at e
      exact bang_not_start _ _ (hts a (by simp)) e
  | intInt ha hb =>
    simp [notation', notationL_cons] at e
    exact bang_not_start _ _ ha e
  | extInt ha hb =>
    simp [notation', notationL_cons] at e
    exact bang_not_start _ _ ha e
  | img _ ha _ =>
    simp [notation', notationL_cons] at e
    exact bang_not_start _ _ ha e

theorem copStr_tail (c : Copula) (r : List Char) : ∃ d l, [' '] ++ c.str ++ [' '] ++ r = d :: l ∧ ¬ SignChar d :=
  ⟨' ', _, rfl, by decide⟩

/-- the first element of a printed list of terms -/
theorem joinStr_first {sep : List Char} {ts : List Term} {s : List Char}
    (h : Term.joinStr sep ts = some s) : ∃ a rest sa, ts = a :: rest ∧ a.convTermToStr = some sa ∧
      ((rest = [] ∧ s = sa) ∨ (rest ≠ [] ∧ ∃ s2, s = sa ++ sep ++ s2)) := by
  match ts with
  | [] => simp [Term.joinStr] at h
  | [a] => exact ⟨a, [], s, rfl, by simpa [Term.joinStr] using h, .inl ⟨rfl, rfl⟩⟩
  | a :: b :: ts =>
    rw [Term.joinStr] at h
    simp only [Option.bind_eq_bind, Option.bind_eq_some_iff, Option.some.injEq] at h
    obtain ⟨sa, h1, s2, h2, rfl⟩ := h
    exact ⟨a, b :: ts, sa, rfl, h1, .inr ⟨by simp, s2, rfl⟩⟩

theorem printed_plain (t : Term) : ∀ s, WellWorded t → t.convTermToStr = some s →
    ∀ r0 t' r, EndsBefore t r0 → Readable t' → EndsBefore t' r → s ++ r0 = notation' t' ++ r →
      Plain t := by
  induction t using Term.indParts with
  | h t ih =>
    intro s hw hs r0 t' r e0 ht' e' heq
    -- a readable text beginning with a given bracket
    match t with
    | .Name w => exact .name (hw w (.inl (.refl _)))
    | .QVar w => exact .qvar (hw w (.inr (.inl (.refl _))))
    | .DepVar w => exact .depvar (hw w (.inr (.inr (.inl (.refl _)))))
    | .IndepVar w => exact .indepvar (hw w (.inr (.inr (.inr (.refl _)))))
    | .Stmt c a b =>
      rw [Term.convTermToStr] at hs
      simp only [Option.bind_eq_bind, Option.bind_eq_some_iff, Option.some.injEq] at hs
      obtain ⟨sa, ha, sb, hb, rfl⟩ := hs
      have wa := wellWorded_part hw (c := a) (by simp [Term.parts])
      have wb := wellWorded_part hw (c := b) (by simp [Term.parts])
      cases ht' with
      | name hw' =>
        obtain ⟨d, l2, h1, h2⟩ := word_cons hw'
        rw [notation', h1] at heq
        simp at heq
        rw [← heq.1] at h2
        exact absurd h2 (by decide)
      | qvar | depvar | indepvar | setExt | setInt | neg | seq | prod | conj | intInt | extInt | img =>
        simp [notation'] at heq
      | @stmt c' a' b' ha' hb' =>
        have e1 : sa ++ ([' '] ++ c.str ++ [' '] ++ (sb ++ '>' :: r0)) =
            notation' a' ++ ([' '] ++ c'.str ++ [' '] ++ (notation' b' ++ '>' :: r)) := by
          simpa [notation'] using heq
        have pa := ih a (by simp [Term.parts]) sa wa ha _ a' _ (endsBefore_cons (by decide) _ _) ha'
          (endsBefore_cons (by decide) _ _) e1
        have hsa : sa = notation' a := by have := pa.printed; rw [ha] at this; simpa using this
        rw [hsa] at e1
        obtain ⟨rfl, e2⟩ := notation_unique pa.readable ha' (endsBefore_cons (by decide) _ _)
          (endsBefore_cons (by decide) _ _) e1
        have hc1 := (parseCopula_iff _ c (sb ++ '>' :: r0)).2 rfl
        have hc2 := (parseCopula_iff _ c' (notation' b' ++ '>' :: r)).2 rfl
        have e3 : [' '] ++ c.str ++ [' '] ++ (sb ++ '>' :: r0) =
            [' '] ++ c'.str ++ [' '] ++ (notation' b' ++ '>' :: r) := e2
        rw [e3, hc2] at hc1
        simp at hc1
        have pb := ih b (by simp [Term.parts]) sb wb hb _ b' _ (endsBefore_cons (by decide) _ _) hb'
          (endsBefore_cons (by decide) _ _) hc1.2.symm
        exact .stmt pa pb
    | .SetExt ts =>
      rw [Term.convTermToStr] at hs
      simp only [Option.bind_eq_bind, Option.bind_eq_some_iff, Option.some.injEq] at hs
      obtain ⟨si, hi, rfl⟩ := hs
      obtain ⟨a, rest, sa, rfl, ha, hcase⟩ := joinStr_first hi
      have wa := wellWorded_part hw (c := a) (by simp [Term.parts])
      cases ht' with
      | name hw' =>
        obtain ⟨d, l2, h1, h2⟩ := word_cons hw'
        rw [notation', h1] at heq
        simp at heq
        rw [← heq.1] at h2
        exact absurd h2 (by decide)
      | qvar | depvar | indepvar | stmt | setInt | neg | seq | prod | conj | intInt | extInt | img =>
        simp [notation'] at heq
      | @setExt a' ha' =>
        rcases hcase with ⟨rfl, rfl⟩ | ⟨hne, s2, rfl⟩
        · have e1 : si ++ '}' :: r0 = notation' a' ++ '}' :: r := by
            simpa [notation', notationL] using heq
          exact .setExt (ih a (by simp [Term.parts]) si wa ha _ a' _ (endsBefore_cons (by decide) _ _) ha'
            (endsBefore_cons (by decide) _ _) e1)
        · have e1 : sa ++ ' ' :: (s2 ++ '}' :: r0) = notation' a' ++ '}' :: r := by
            simpa [notation', notationL] using heq
          have pa := ih a (by simp [Term.parts]) sa wa ha _ a' _ (endsBefore_cons (by decide) _ _) ha'
            (endsBefore_cons (by decide) _ _) e1
          have hsa : sa = notation' a := by have := pa.printed; rw [ha] at this; simpa using this
          rw [hsa] at e1
          have := (notation_unique pa.readable ha' (endsBefore_cons (by decide) _ _)
            (endsBefore_cons (by decide) _ _) e1).2
          simp at this
    | .SetInt ts =>
      rw [Term.convTermToStr] at hs
      simp only [Option.bind_eq_bind, Option.bind_eq_some_iff, Option.some.injEq] at hs
      obtain ⟨si, hi, rfl⟩ := hs
      obtain ⟨a, rest, sa, rfl, ha, hcase⟩ := joinStr_first hi
      have wa := wellWorded_part hw (c := a) (by simp [Term.parts])
      cases ht' with
      | name hw' =>
        obtain ⟨d, l2, h1, h2⟩ := word_cons hw'
        rw [notation', h1] at heq
        simp at heq
        rw [← heq.1] at h2
        exact absurd h2 (by decide)
      | qvar | depvar | indepvar | stmt | setExt | neg | seq | prod | conj | intInt | extInt | img =>
        simp [notation'] at heq
      | @setInt a' ha' =>
        rcases hcase with ⟨rfl, rfl⟩ | ⟨hne, s2, rfl⟩
        · have e1 : si ++ ']' :: r0 = notation' a' ++ ']' :: r := by
            simpa [notation', notationL] using heq
          exact .setInt (ih a (by simp [Term.parts]) si wa ha _ a' _ (endsBefore_cons (by decide) _ _) ha'
            (endsBefore_cons (by decide) _ _) e1)
        · have e1 : sa ++ ' ' :: (s2 ++ ']' :: r0) = notation' a' ++ ']' :: r := by
            simpa [notation', notationL] using heq
          have pa := ih a (by simp [Term.parts]) sa wa ha _ a' _ (endsBefore_cons (by decide) _ _) ha'
            (endsBefore_cons (by decide) _ _) e1
          have hsa : sa = notation' a := by have := pa.printed; rw [ha] at this; simpa using this
          rw [hsa] at e1
          have := (notation_unique pa.readable ha' (endsBefore_cons (by decide) _ _)
            (endsBefore_cons (by decide) _ _) e1).2
          simp at this
    | .Seq ts | .Conj ts | .Prod ts | .IntInt ts | .ExtInt ts | .Par ts =>
      rw [Term.convTermToStr] at hs
      simp only [Option.bind_eq_bind, Option.bind_eq_some_iff, Option.some.injEq] at hs
      obtain ⟨si, hi, rfl⟩ := hs
      exact (paren_blank _ _ ht' heq).elim
    | .Img rl i ts =>
      rw [Term.convTermToStr] at hs
      simp only [Option.bind_eq_bind, Option.bind_eq_some_iff, Option.some.injEq] at hs
      obtain ⟨si, hi, sr, hr, rfl⟩ := hs
      exact (paren_blank _ _ ht' heq).elim
    | .Neg a =>
      rw [Term.convTermToStr] at hs
      simp only [Option.bind_eq_bind, Option.bind_eq_some_iff, Option.some.injEq] at hs
      obtain ⟨si, hi, rfl⟩ := hs
      exact (paren_bang_blank _ _ ht' heq).elim

theorem endsBefore_nil (t : Term) : EndsBefore t [] := by
  cases t <;> simp [EndsBefore]

end Nar
