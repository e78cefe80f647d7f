import Verif.Lemmas.Parser5
import Verif.Model.Nlp
/-! # Properties of the Narsese reader and printer: C37, C38, C51, C67 -/
namespace Nar.Props
open Nar

/-- a number reader for the examples -/
def someNumbers (s : List Char) : Option Rat :=
  if s = "0.4".toList then some (2/5)
  else if s = "0.8".toList then some (4/5)
  else if s = "1".toList then some 1
  else none

/-- a number printer for the examples -/
def printNumbers (x : Rat) : List Char :=
  if x = 2/5 then "0.4".toList else if x = 4/5 then "0.8".toList else "1".toList

/-- `(a*<b --> [c]>*?x)` -/
def mixedTerm : Term :=
  .Prod [.Name "a", .Stmt .INH (.Name "b") (.SetInt [.Name "c"]), .QVar "x"]

theorem mixedTerm_readable : Readable mixedTerm := by
  refine .prod (by decide) ?_
  intro t ht
  simp at ht
  rcases ht with rfl | rfl | rfl
  · exact .name (by decide)
  · exact .stmt (.name (by decide)) (.setInt (.name (by decide)))
  · exact .qvar (by decide)

/-! ## C37 -/

/-- C37: the term reader reads exactly the notation of the language: it returns the term `t` and
the rest `r` iff the text is the text of the readable term `t` followed by `r` (and a word at the
end of `t` is not continued by `r`). -/
theorem C37_reads_exactly_the_notation (i : List Char) (t : Term) (r : List Char) :
    parseEntry i = some (t, r) ↔ Readable t ∧ i = notation' t ++ r ∧ EndsBefore t r :=
  parseEntry_iff i t r

example : Readable mixedTerm ∧ notation' mixedTerm = "(a*<b --> [c]>*?x)".toList ∧
    parseEntry "(a*<b --> [c]>*?x) rest".toList = some (mixedTerm, " rest".toList) :=
  ⟨mixedTerm_readable, by decide,
    (C37_reads_exactly_the_notation _ _ _).2 ⟨mixedTerm_readable, by decide, trivial⟩⟩

/-- C37: the bound on the recursion depth in the model has no influence. -/
theorem C37_depth_bound_is_irrelevant (i : List Char) (n : Nat) (h : i.length < n) :
    parseSubjOrPred n i = parseEntry i := by
  rcases h1 : parseSubjOrPred n i with _ | ⟨t, r⟩
  · rcases h2 : parseEntry i with _ | ⟨t, r⟩
    · rfl
    · have := (parseSubjOrPred_iff h t r).2 ((parseEntry_iff i t r).1 h2)
      rw [h1] at this; cases this
  · exact ((parseEntry_iff i t r).2 ((parseSubjOrPred_iff h t r).1 h1)).symm

example : ("<a --> b>".toList).length < 1000 := by decide

/-- C37: the notation is unambiguous. -/
theorem C37_unambiguous (t t' : Term) (h : Readable t) (h' : Readable t')
    (heq : notation' t = notation' t') : t = t' :=
  (notation_unique (r := []) (r' := []) h h' (endsBefore_nil t) (endsBefore_nil t')
    (by simpa using heq)).1

example : Readable mixedTerm := mixedTerm_readable

theorem lineText_loose (t : Term) (p : Punct) (tv : Option (List Char × List Char)) (ev : Bool) :
    lineText t p tv ev = looseLine t [] p (if tv.isSome then [' '] else []) tv ev := by
  simp [lineText, looseLine]

theorem looseLine_tight {t : Term} (ht : Readable t) {junk : List Char} (hj : '*' ∉ junk)
    (p : Punct) {blanks : List Char} (hb : '*' ∉ blanks) {tv : Option (List Char × List Char)}
    (htv : '*' ∉ tvPart tv) (ev : Bool) : Tight (looseLine t junk p blanks tv ev) := by
  have h1 : looseLine t junk p blanks tv ev =
      notation' t ++ (junk ++ [mark p] ++ blanks ++ tvPart tv ++
        (if ev then [' ', ':', '|', ':'] else [])) := by simp [looseLine]
  rw [h1]
  apply (notation_block ht).append_tight
  apply tight_of_no_star
  simp only [List.mem_append, not_or]
  refine ⟨⟨⟨⟨hj, ?_⟩, hb⟩, htv⟩, ?_⟩
  · cases p <;> decide
  · cases ev <;> decide

theorem ite_blank (b : Bool) : (∀ c ∈ (if b then [' '] else []), IsBlank c) ∧
    '*' ∉ (if b then [' '] else []) ∧ Ascii (if b then [' '] else []) := by
  cases b <;> refine ⟨by decide, by decide, by decide⟩

/-- C37: every complete line — a readable term, punctuation, optionally a truth value with
readable numbers, optionally the event mark — is read as what it says. -/
theorem C37_lines_are_read (pf : List Char → Option Rat) (t : Term) (p : Punct)
    (tvp : Option (List Char × List Char)) (ev : Bool) (tv : Tv) (ht : Readable t)
    (hn : ∀ a b, tvp = some (a, b) → NumText a ∧ NumText b) (htv : tvMeant pf tvp = some tv) :
    parseNarsese pf (lineText t p tvp ev) = .ok (some (t, tv, p, ev)) := by
  have hparts : TvParts tvp ∧ '*' ∉ tvPart tvp ∧ Ascii (tvPart tvp) := by
    cases tvp with
    | none => exact ⟨trivial, by simp [tvPart], by simp [tvPart, Ascii]⟩
    | some ab =>
      obtain ⟨a, b⟩ := ab
      obtain ⟨ha, hb⟩ := hn a b rfl
      refine ⟨⟨ha.2.1, hb.2.1, ha.2.2.1, hb.2.2.1⟩, ?_, ?_⟩
      · simp [tvPart, tvText, ha.2.2.2, hb.2.2.2]
      · exact ascii_append (ascii_append (ascii_append (ascii_cons (by decide) ha.1) (by decide)) hb.1) (by decide)
  obtain ⟨hb1, hb2, hb3⟩ := ite_blank tvp.isSome
  have hT : Tight (lineText t p tvp ev) := by
    rw [lineText_loose]
    exact looseLine_tight ht (by simp) p hb2 hparts.2.1 ev
  refine parseNarsese_loose (junk := []) (blanks := if tvp.isSome then [' '] else []) (tvp := tvp)
    ?_ ht hb1 hparts.1 htv (endsBefore_nil t) ?_
  · refine ascii_append (ascii_append (ascii_append (ascii_append (notation_ascii ht) ?_) hb3) hparts.2.2) ?_
    · exact ascii_cons (mark_ascii p) ascii_nil
    · cases ev <;> decide
  · rw [tightenStars_tight hT, lineText_loose]

example : lineText mixedTerm .JUGEMENT (some ("0.4".toList, "0.8".toList)) true =
      "(a*<b --> [c]>*?x). {0.4 0.8} :|:".toList ∧
    parseNarsese someNumbers "(a*<b --> [c]>*?x). {0.4 0.8} :|:".toList =
      .ok (some (mixedTerm, ⟨2/5, 4/5⟩, .JUGEMENT, true)) := by
  refine ⟨by decide, ?_⟩
  have := C37_lines_are_read someNumbers mixedTerm .JUGEMENT (some ("0.4".toList, "0.8".toList)) true
    ⟨2/5, 4/5⟩ mixedTerm_readable
    (by intro a b h; simp at h; obtain ⟨rfl, rfl⟩ := h; unfold NumText Ascii; decide) (by decide +kernel)
  rwa [show lineText mixedTerm .JUGEMENT (some ("0.4".toList, "0.8".toList)) true =
      "(a*<b --> [c]>*?x). {0.4 0.8} :|:".toList by decide] at this

/-- C37: blanks next to stars do not matter. -/
theorem C37_blanks_at_stars (pf : List Char → Option Rat) (s s' : List Char)
    (h : BlanksAtStars s s') : parseNarsese pf s' = parseNarsese pf s := by
  simp only [parseNarsese, tightenStars_blanks h]

example : BlanksAtStars "<(a*b) --> c>.".toList "<(a  * b) --> c>.".toList :=
  .before (u := "<(a ".toList) (v := " b) --> c>.".toList)
    (.before (u := "<(a".toList) (v := " b) --> c>.".toList)
      (.after (u := "<(a".toList) (v := "b) --> c>.".toList) (.same _)))

/-- C37: a term without compounds other than statements and one-element sets is printed as its
notation and read back. -/
theorem C37_printed_terms_read_back (t : Term) (h : Plain t) :
    ∃ s, t.convTermToStr = some s ∧ parseEntry s = some (t, []) :=
  ⟨notation' t, h.printed, (parseEntry_iff _ t []).2 ⟨h.readable, by simp, endsBefore_nil t⟩⟩

example : Plain (.Stmt .IMPL (.Stmt .INH (.SetExt [.IndepVar "x"]) (.Name "b")) (.Name "c-d")) :=
  .stmt (.stmt (.setExt (.indepvar (by decide))) (.name (by decide))) (.name (by decide))

theorem mark_str (p : Punct) : p.str = [mark p] := by cases p <;> rfl

/-- C37: a printed sentence about such a term, with or without its truth value, is read back as
the same sentence, provided that printed numbers are read back and contain no special
characters. -/
theorem C37_printed_sentences_read_back (pf : List Char → Option Rat) (sf : Rat → List Char)
    (s : Sentence) (enTv : Bool) (line : List Char)
    (hnum : ∀ tv x, retTv s = .ok (some tv) → x = tv.f ∨ x = tv.c →
      NumText (sf x) ∧ pf (sf x) = some x) (hp : Plain s.term) (h : convSentenceTermPunctToStr sf s enTv = .ok line) :
    ∃ tv, parseNarsese pf line = .ok (some (s.term, tv, s.punct, false)) ∧
      (enTv = true → s.punct ≠ .QUESTION → retTv s = .ok (some tv)) ∧
      ((enTv = false ∨ s.punct = .QUESTION) → tv = ⟨1, 9/10⟩) := by
  rw [convSentenceTermPunctToStr, hp.printed] at h
  simp only [bind, Except.bind] at h
  split at h
  · rename_i hc
    simp at hc
    rcases hr : retTv s with e | o
    · rw [hr] at h; cases h
    rw [hr] at h
    rcases o with _ | tv
    · cases h
    simp only [unwrap, Except.ok.injEq] at h
    subst h
    have hf := hnum tv tv.f hr (.inl rfl)
    have hcn := hnum tv tv.c hr (.inr rfl)
    refine ⟨tv, ?_, fun _ _ => rfl, ?_⟩
    · have := C37_lines_are_read pf s.term s.punct (some (sf tv.f, sf tv.c)) false tv hp.readable
        (by intro a b h; simp at h; obtain ⟨rfl, rfl⟩ := h; exact ⟨hf.1, hcn.1⟩)
        (by simp [tvMeant, hf.2, hcn.2])
      rw [← this]
      simp [lineText, tvPart, tvText, tvToStr, mark_str]
    · rintro (h | h)
      · rw [h] at hc; simp at hc
      · exact absurd h hc.2
  · rename_i hc
    simp only [Except.ok.injEq] at h
    subst h
    refine ⟨⟨1, 9/10⟩, ?_, ?_, fun _ => rfl⟩
    · have := C37_lines_are_read pf s.term s.punct none false ⟨1, 9/10⟩ hp.readable
        (by simp) rfl
      rw [← this]
      simp [lineText, tvPart, mark_str]
    · intro h1 h2
      simp [h1, h2] at hc

example : convSentenceTermPunctToStr printNumbers
    (newEternalSentenceByTv (.Stmt .INH (.Name "a") (.Name "b")) .JUGEMENT ⟨2/5, 4/5⟩ ⟨[1]⟩) true =
      .ok "<a --> b>. {0.4 0.8}".toList ∧
    ∀ x, x = 2/5 ∨ x = 4/5 →
      NumText (printNumbers x) ∧ someNumbers (printNumbers x) = some x := by
  refine ⟨by decide +kernel, ?_⟩
  rintro x (rfl | rfl) <;> (unfold NumText Ascii; decide +kernel)

/-- C37, the exception: the printed text of every term with any other compound in it (sequences,
products, conjunctions, negations, images, …) is rejected. -/
theorem C37_printed_compounds_are_rejected (t : Term) (s : List Char) (hw : WellWorded t)
    (hs : t.convTermToStr = some s) (hn : ¬ Plain t) : parseEntry s = none := by
  rcases h : parseEntry s with _ | ⟨t', r⟩
  · rfl
  · obtain ⟨h1, h2, h3⟩ := (parseEntry_iff s t' r).1 h
    exact absurd (printed_plain t s hw hs [] t' r (endsBefore_nil t) h1 h3 (by simpa using h2)) hn

example : (Term.Seq [.Name "a", .Name "b"]).convTermToStr = some "( a , b )".toList ∧
    ¬ Plain (Term.Seq [.Name "a", .Name "b"]) ∧ WellWorded (Term.Seq [.Name "a", .Name "b"]) ∧
    parseNarsese someNumbers "( a , b ).".toList = .ok none := by
  refine ⟨by decide, (by intro h; cases h), ?_, by decide +kernel⟩
  intro w h
  have sub : ∀ s, Term.IsSubterm s (Term.Seq [.Name "a", .Name "b"]) →
      s = Term.Seq [.Name "a", .Name "b"] ∨ s = .Name "a" ∨ s = .Name "b" := by
    intro s hs
    cases hs with
    | refl => exact .inl rfl
    | inside hc h2 =>
      simp [Term.parts] at hc
      rcases hc with rfl | rfl
      · cases h2 with
        | refl => exact .inr (.inl rfl)
        | inside hc _ => simp [Term.parts] at hc
      · cases h2 with
        | refl => exact .inr (.inr rfl)
        | inside hc _ => simp [Term.parts] at hc
  rcases h with h | h | h | h
  · rcases sub _ h with h | h | h
    · cases h
    · cases h; decide
    · cases h; decide
  all_goals (rcases sub _ h with h | h | h <;> cases h)

/-! ## C38 -/

/-- C38, the part that holds: exactly which lines are accepted.  An accepted line, up to blanks
at stars, consists of ASCII characters and is the text of the term, any further text, the
punctuation mark, blanks, the truth value if given, the event mark if given.  Desired would be
that there is no further text (`junk = []`). -/
theorem C38_accepts_partial (pf : List Char → Option Rat) (line : List Char) (t : Term) (tv : Tv)
    (p : Punct) (ev : Bool) :
    parseNarsese pf line = .ok (some (t, tv, p, ev)) ↔
      Ascii line ∧ Readable t ∧ ∃ s junk blanks tvp, BlanksAtStars s line ∧ NoBlankAtStar s ∧
        s = looseLine t junk p blanks tvp ev ∧ EndsBefore t junk ∧ (∀ c ∈ blanks, IsBlank c) ∧
        TvParts tvp ∧ tvMeant pf tvp = some tv := by
  constructor
  · intro h
    obtain ⟨h1, h2, junk, blanks, tvp, h3, h4, h5, h6, h7⟩ := parseNarsese_ok h
    obtain ⟨h8, h9⟩ := (tightenStars_iff _ line).1 rfl
    exact ⟨h1, h2, _, junk, blanks, tvp, h9, h8, h7, h6, h3, h4, h5⟩
  · rintro ⟨h1, h2, s, junk, blanks, tvp, h9, h8, h7, h6, h3, h4, h5⟩
    exact parseNarsese_loose h1 h2 h3 h4 h5 h6 (by rw [(tightenStars_iff s line).2 ⟨h8, h9⟩, h7])

example : parseNarsese someNumbers "a. {0.4 0.8}".toList =
    .ok (some (.Name "a", ⟨2/5, 4/5⟩, .JUGEMENT, false)) := by decide +kernel

/-- C38, violation: text between a complete term and the punctuation is dropped without notice;
the line is read as if it was not there. -/
theorem C38_text_after_the_term_is_dropped (pf : List Char → Option Rat) (t : Term) (p : Punct)
    (junk : List Char) (ht : Readable t) (ha : Ascii junk) (hs : '*' ∉ junk)
    (he : EndsBefore t junk) :
    parseNarsese pf (notation' t ++ junk ++ [mark p]) = .ok (some (t, ⟨1, 9/10⟩, p, false)) := by
  have e : looseLine t junk p [] none false = notation' t ++ junk ++ [mark p] := by
    simp [looseLine, tvPart]
  refine parseNarsese_loose (junk := junk) (blanks := []) (tvp := none) ?_ ht (by simp) trivial rfl he ?_
  · exact ascii_append (ascii_append (notation_ascii ht) ha) (ascii_cons (mark_ascii p) ascii_nil)
  · rw [← e]
    exact tightenStars_tight (looseLine_tight ht hs p (by simp) (by simp [tvPart]) false)

example : parseNarsese someNumbers "<a --> b> is what I do not believe.".toList =
    .ok (some (.Stmt .INH (.Name "a") (.Name "b"), ⟨1, 9/10⟩, .JUGEMENT, false)) := by decide +kernel

/-! ## C67 -/

/-- C67: exactly when reading a line crashes: if it contains a character outside ASCII, or if it
ends in a truth value (before the event mark) with a number that is not readable. -/
theorem C67_crashes_iff (pf : List Char → Option Rat) (line : List Char) :
    (∃ e, parseNarsese pf line = .error e) ↔
      ¬ Ascii line ∨ ∃ s core ev pre a b, BlanksAtStars s line ∧ NoBlankAtStar s ∧
        s = core ++ (if ev = true then [' ', ':', '|', ':'] else []) ∧ TvAtEnd core pre a b ∧
        (pf a = none ∨ pf b = none) := by
  constructor
  · rintro ⟨e, h⟩
    rcases (parseNarsese_error_iff pf line e).1 h with ⟨h1, -⟩ | ⟨-, -, pre, a, b, h1, h2⟩
    · exact .inl h1
    · obtain ⟨h8, h9⟩ := (tightenStars_iff _ line).1 rfl
      exact .inr ⟨_, _, _, pre, a, b, h9, h8, cutEvent_spec _, h1, h2⟩
  · intro h
    by_cases hA : Ascii line
    · rcases h with h | ⟨s, core, ev, pre, a, b, h9, h8, rfl, h1, h2⟩
      · exact absurd hA h
      · refine ⟨.parse, (parseNarsese_error_iff pf line _).2 (.inr ⟨hA, rfl, pre, a, b, ?_, h2⟩)⟩
        rw [(tightenStars_iff _ line).2 ⟨h8, h9⟩]
        cases ev with
        | true => simp only [if_true]; rw [cutEvent_yes]; exact h1
        | false =>
          simp only [Bool.false_eq_true, if_false, List.append_nil]
          rw [cutEvent_no]
          · exact h1
          · rw [h1.eq, getLast?_append_ne (by simp [tvText]), tvText_last]; simp
    · exact ⟨.unwrapNone, (parseNarsese_error_iff pf line _).2 (.inl ⟨hA, rfl⟩)⟩

/-- C67, violation: every line with a character outside ASCII crashes the reader. -/
theorem C67_characters_outside_ascii_crash (pf : List Char → Option Rat) (line : List Char)
    (c : Char) (hc : c ∈ line) (h : 128 ≤ c.toNat) : ∃ e, parseNarsese pf line = .error e :=
  (C67_crashes_iff pf line).2 (.inl (fun hA => absurd (hA c hc) (by omega)))

example : parseNarsese someNumbers "<café --> b>.".toList = .error .unwrapNone := by decide +kernel

/-- C67, violation: a truth value that is not a number crashes the reader. -/
example : parseNarsese someNumbers "<a --> b>. {high 0.8}".toList = .error .parse := by decide +kernel

/-- C67, the part that holds: ASCII text in which no closing brace ends the line, with or without
event mark, does not crash the reader. -/
theorem C67_no_crash_partial (pf : List Char → Option Rat) (line : List Char) (hA : Ascii line)
    (h1 : ¬ [' ', ':', '|', ':'] <:+ line) (h2 : line.getLast? ≠ some '}') (h3 : '*' ∉ line) :
    ∃ r, parseNarsese pf line = .ok r := by
  rcases h : parseNarsese pf line with e | r
  · rcases (parseNarsese_error_iff pf line e).1 h with ⟨h4, -⟩ | ⟨-, -, pre, a, b, h5, -⟩
    · exact absurd hA h4
    · rw [tightenStars_tight (tight_of_no_star h3)] at h5
      have : cutEvent line = (line, false) := by
        rw [cutEvent, if_neg]; rw [List.isSuffixOf_iff_suffix]; exact h1
      rw [this] at h5
      refine absurd ?_ h2
      have h6 : line = pre ++ tvText a b := h5.eq
      rw [h6, getLast?_append_ne (by simp [tvText]), tvText_last]
  · exact ⟨r, rfl⟩

example : ∃ r, parseNarsese someNumbers "<<<not a sentence".toList = .ok r :=
  C67_no_crash_partial _ _ (by decide) (by decide) (by decide) (by decide)

/-! ## C51 -/

/-- C51: a relation between two words becomes the judgement that the product of the words
inherits from the relation word, with frequency 1 and the confidence of the relation. -/
theorem C51_relations (pf : List Char → Option Rat) (sf : Rat → List Char)
    (head a b : String) (neg : Bool) (conf : Rat)
    (hnum : ∀ x, x = 1 ∨ x = conf → NumText (sf x) ∧ pf (sf x) = some x)
    (hh : Word head) (ha : Word a) (hb : Word b) :
    ∃ line, convRelToNarsese sf ⟨head.toList, [a.toList, b.toList], neg, conf⟩ = .ok line ∧
      parseNarsese pf line =
        .ok (some (.Stmt .INH (.Prod [.Name a, .Name b]) (.Name head), ⟨1, conf⟩, .JUGEMENT, false)) := by
  refine ⟨_, rfl, ?_⟩
  have hr : Readable (.Stmt .INH (.Prod [.Name a, .Name b]) (.Name head)) :=
    .stmt (.prod (by simp) (by intro t ht; simp at ht; rcases ht with rfl | rfl; exacts [.name ha, .name hb]))
      (.name hh)
  have := C37_lines_are_read pf _ .JUGEMENT (some (sf 1, sf conf)) false ⟨1, conf⟩ hr
    (by intro x y h; simp at h; obtain ⟨rfl, rfl⟩ := h; exact ⟨(hnum _ (.inl rfl)).1, (hnum _ (.inr rfl)).1⟩)
    (by simp [tvMeant, (hnum _ (.inl rfl)).2, (hnum _ (.inr rfl)).2])
  rw [← this]
  simp [lineText, tvPart, tvText, notation', notationL, mark, Copula.str]

example : convRelToNarsese printNumbers ⟨"is".toList, ["Tom".toList, "fast".toList], false, 4/5⟩ =
      .ok "<(Tom*fast) --> is>. {1 0.8}".toList ∧ Word "is" ∧ Word "Tom" ∧ Word "fast" ∧
    ∀ x, x = 1 ∨ x = 4/5 →
      NumText (printNumbers x) ∧ someNumbers (printNumbers x) = some x := by
  refine ⟨by decide +kernel, by decide, by decide, by decide, ?_⟩
  rintro x (rfl | rfl) <;> (unfold NumText Ascii; decide +kernel)

/-- C51, violation: whether a relation is negated makes no difference: the belief entered for
"not" is the one for the positive relation. -/
theorem C51_negation_is_ignored (sf : Rat → List Char) (head : List Char) (args : List (List Char))
    (conf : Rat) : convRelToNarsese sf ⟨head, args, true, conf⟩ =
      convRelToNarsese sf ⟨head, args, false, conf⟩ := by
  unfold convRelToNarsese; rfl

/-- C51: relations with another number of arguments crash. -/
theorem C51_other_arities_crash (sf : Rat → List Char) (rel : Relation) (h : rel.args.length ≠ 2) :
    convRelToNarsese sf rel = .error .explicit := by
  unfold convRelToNarsese
  split
  · rename_i a b h2; rw [h2] at h; simp at h
  · rfl

example : convRelToNarsese printNumbers ⟨"is".toList, ["Tom".toList], false, 4/5⟩ = .error .explicit := by
  decide +kernel

end Nar.Props
