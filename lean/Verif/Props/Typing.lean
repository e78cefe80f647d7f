import Verif.Lemmas.Typing
import Verif.Props.Rename
/-! # The lines and the programming interface are the same interface (C113) -/
namespace Nar.Props
open Nar Term

/-- C113: whatever the state of the reasoner, typing a sentence, with or without truth value and event mark and with any end of
line, does exactly what telling it through the programming interface does. -/
theorem C113_typing_is_telling (env : Env) (r : Reasoner) (t : Term) (p : Punct) (tvp : Option (List Char × List Char)) (ev : Bool)
    (tv : Tv) (nl : List Char) (d : LineDraws) (ht : Readable t) (hn : ∀ a b, tvp = some (a, b) → NumText a ∧ NumText b)
    (htv : tvMeant env.pf tvp = some tv) (hl : ∀ c ∈ nl, c = '\n' ∨ c = '\r') :
    NarOp.run env r (.line (lineText t p tvp ev ++ nl) d) = NarOp.run env r (.tell t p tv ev d.rng) := by
  obtain ⟨h1, h2⟩ := lineText_dispatch ht p tvp ev hn
  have h3 : trimNewline (lineText t p tvp ev ++ nl) = lineText t p tvp ev := by rw [trimNewline_tail hl, h1]
  rw [← moreNar_one env r (.tell t p tv ev d.rng)]
  refine StandsFor.run (.sentence (by rw [h3]; exact h2) ?_) r
  rw [h3]
  exact .sentence (C37_lines_are_read env.pf t p tvp ev tv ht hn htv)

example : ∀ r, NarOp.run ⟨someNumbers, printNumbers, fun _ => 1, fun _ => 1⟩ r (.line "(a*<b --> [c]>*?x). {0.4 0.8} :|:\r\n".toList (draws [] [])) =
    NarOp.run ⟨someNumbers, printNumbers, fun _ => 1, fun _ => 1⟩ r (.tell mixedTerm .JUGEMENT ⟨2/5, 4/5⟩ true []) := fun r => by
  have := C113_typing_is_telling ⟨someNumbers, printNumbers, fun _ => 1, fun _ => 1⟩ r mixedTerm .JUGEMENT
    (some ("0.4".toList, "0.8".toList)) true ⟨2/5, 4/5⟩ "\r\n".toList (draws [] []) mixedTerm_readable
    (by intro a b h; simp at h; obtain ⟨rfl, rfl⟩ := h; unfold NumText Ascii; decide) (by decide +kernel) (by decide)
  rwa [show lineText mixedTerm .JUGEMENT (some ("0.4".toList, "0.8".toList)) true ++ "\r\n".toList =
      "(a*<b --> [c]>*?x). {0.4 0.8} :|:\r\n".toList by decide] at this

/-- C113: what the reasoner prints as a sentence can be typed again, and means the sentence with its truth value. -/
theorem C113_printed_sentences_can_be_typed (env : Env) (r : Reasoner) (s : Sentence) (tv : Tv) (text nl : List Char) (d : LineDraws)
    (hp : Nar.Plain s.term) (hq : s.punct ≠ .QUESTION) (htv : retTv s = .ok (some tv))
    (hnum : ∀ x, x = tv.f ∨ x = tv.c → NumText (env.sf x) ∧ env.pf (env.sf x) = some x)
    (h : convSentenceTermPunctToStr env.sf s true = .ok text) (hl : ∀ c ∈ nl, c = '\n' ∨ c = '\r') :
    NarOp.run env r (.line (text ++ nl) d) = NarOp.run env r (.tell s.term s.punct tv false d.rng) := by
  have e : text = lineText s.term s.punct (some (env.sf tv.f, env.sf tv.c)) false := by
    rw [convSentenceTermPunctToStr, hp.printed] at h
    simp only [bind, Except.bind] at h
    rw [if_pos (by simp [hq]), htv] at h
    simp only [Except.ok.injEq] at h
    rw [← Except.ok.inj h]
    simp [lineText, tvPart, tvText, tvToStr, mark_str]
  subst e
  exact C113_typing_is_telling env r s.term s.punct _ false tv nl d hp.readable
    (by intro a b hab
        simp only [Option.some.injEq, Prod.mk.injEq] at hab
        obtain ⟨rfl, rfl⟩ := hab
        exact ⟨(hnum _ (.inl rfl)).1, (hnum _ (.inr rfl)).1⟩)
    (by simp [tvMeant, (hnum _ (.inl rfl)).2, (hnum _ (.inr rfl)).2]) hl

example : ∃ s tv, retTv s = .ok (some tv) ∧ Nar.Plain s.term ∧ s.punct ≠ .QUESTION ∧
    convSentenceTermPunctToStr printNumbers s true = .ok "<a --> b>. {0.4 0.8}".toList ∧
    ∀ r d, NarOp.run ⟨someNumbers, printNumbers, fun _ => 1, fun _ => 1⟩ r (.line "<a --> b>. {0.4 0.8}\n".toList d) =
      NarOp.run ⟨someNumbers, printNumbers, fun _ => 1, fun _ => 1⟩ r (.tell s.term s.punct tv false d.rng) := by
  have hp : Nar.Plain (.Stmt .INH (.Name "a") (.Name "b")) := .stmt (.name (by decide)) (.name (by decide))
  have hx : convSentenceTermPunctToStr printNumbers (newEternalSentenceByTv (.Stmt .INH (.Name "a") (.Name "b")) .JUGEMENT ⟨2/5, 4/5⟩ ⟨[1]⟩) true =
      .ok "<a --> b>. {0.4 0.8}".toList := by decide +kernel
  refine ⟨newEternalSentenceByTv (.Stmt .INH (.Name "a") (.Name "b")) .JUGEMENT ⟨2/5, 4/5⟩ ⟨[1]⟩, ⟨2/5, 4/5⟩, rfl, hp, nofun, hx, fun r d => ?_⟩
  refine C113_printed_sentences_can_be_typed ⟨someNumbers, printNumbers, fun _ => 1, fun _ => 1⟩ r _ ⟨2/5, 4/5⟩ "<a --> b>. {0.4 0.8}".toList
    "\n".toList d hp nofun rfl ?_ hx (by decide)
  rintro x (rfl | rfl) <;> (unfold NumText Ascii; decide +kernel)

/-- C113: asking for cycles by a line is calling for so many cycles, one after the other, with the worker's rounds in between. -/
theorem C113_cycles_typed (env : Env) (r : Reasoner) (n : Nat) (hn : n < 2 ^ 63) (nl : List Char) (d : LineDraws)
    (hl : ∀ c ∈ nl, c = '\n' ∨ c = '\r') :
    NarOp.run env r (.line ("!s".toList ++ natStr n ++ nl) d) = moreNar env r (cycleCalls d.cycles n) := by
  have hs : natStr n = Nat.toDigits 10 n := by unfold natStr; rw [Nat.toString_eq_ofList_toDigits]; simp
  have hd : ∀ c ∈ natStr n, c.isDigit = true := fun c hc => Nat.isDigit_of_mem_toDigits (by decide) (by decide) (hs ▸ hc)
  have hne : natStr n ≠ [] := hs ▸ Nat.toDigits_ne_nil
  have ht : trimNewline ("!s".toList ++ natStr n ++ nl) = '!' :: 's' :: natStr n := by
    rw [trimNewline_tail hl]
    obtain ⟨l, c, e⟩ : ∃ l c, natStr n = l ++ [c] := ⟨_, _, (List.dropLast_append_getLast hne).symm⟩
    have hc := hd c (by rw [e]; simp)
    rw [e, ← List.append_assoc, trimNewline_last (by rintro rfl; revert hc; decide) (by rintro rfl; revert hc; decide)]
    simp
  have ha : IsAscii ('!' :: 's' :: natStr n) := by
    intro c hc
    rcases List.mem_cons.1 hc with rfl | hc
    · decide
    · rcases List.mem_cons.1 hc with rfl | hc
      · decide
      · refine utf8Size_one ?_
        have := hd c hc
        simp only [Char.isDigit, Bool.and_eq_true, decide_eq_true_eq, ge_iff_le, UInt32.le_iff_toNat_le] at this
        have h2 := this.2
        have : c.toNat = c.val.toNat := rfl
        rw [this]
        simp at h2
        omega
  have hc : dispatch (trimNewline ("!s".toList ++ natStr n ++ nl)) = .ok (.cycles (natStr n)) := by
    rw [ht, dispatch_ascii ha, commandOf_cycles]
    intro hp
    have := hd 'p' (List.mem_of_head? hp)
    revert this; decide
  have hn' : nCycles (natStr n) = .ok (n : Int) := by
    unfold nCycles
    rw [if_pos, parseI64_nat hn]
    have := byteLen_ge (natStr n)
    have := List.length_pos_iff.2 hne
    omega
  exact StandsFor.run (.cycles hc hn') r

example : ∀ r, NarOp.run env0 r (.line "!s2\n".toList (draws [] [])) =
    moreNar env0 r [.declWork, .cycle 0, .declWork, .cycle 0] := fun r =>
  C113_cycles_typed env0 r 2 (by decide) ['\n'] (draws [] []) (by decide)

/-- C113: in every history, from any state, lines can be replaced by the calls for which they stand: nothing in the reasoner,
and no failure, depends on which of the two is used. -/
theorem C113_lines_are_calls (env : Env) (r : Reasoner) (ops : List NarOp) (css : List (List NarOp))
    (h : List.Forall₂ (AsCalls env) ops css) : moreNar env r ops = moreNar env r css.flatten := asCalls_run h r

/-- the example of C39 and others, with calls instead of lines -/
example : runNar env0 syllogism = runNar env0
    [.handlers 1, .tell (.Stmt .INH (.Name "a") (.Name "b")) .JUGEMENT ⟨1, 9/10⟩ false [],
      .tell (.Stmt .INH (.Name "b") (.Name "c")) .JUGEMENT ⟨1, 9/10⟩ false [], .declWork, .cycle 0, .declWork, .cycle 0,
      .declWork, .declWork, .tell (.Stmt .INH (.Name "a") (.Name "c")) .QUESTION ⟨1, 9/10⟩ true [], .declWork, .cycle 0,
      .declWork, .cycle 0] :=
  C113_lines_are_calls env0 createNar syllogism
    [[.handlers 1], [.tell (.Stmt .INH (.Name "a") (.Name "b")) .JUGEMENT ⟨1, 9/10⟩ false []],
      [.tell (.Stmt .INH (.Name "b") (.Name "c")) .JUGEMENT ⟨1, 9/10⟩ false []], cycleCalls (fun _ => (0, 1)) 2, [.declWork],
      [.declWork], [.tell (.Stmt .INH (.Name "a") (.Name "c")) .QUESTION ⟨1, 9/10⟩ true []], cycleCalls (fun _ => (0, 1)) 2]
    (.cons (.same _) <| .cons (.line (.sentence (by decide) (.sentence (by decide +kernel)))) <|
      .cons (.line (.sentence (by decide) (.sentence (by decide +kernel)))) <|
      .cons (.line (.cycles (arg := ['2']) (n := 2) (by decide) (by decide))) <| .cons (.same _) <| .cons (.same _) <|
      .cons (.line (.sentence (by decide) (.sentence (by decide +kernel)))) <|
      .cons (.line (.cycles (arg := ['2']) (n := 2) (by decide) (by decide))) .nil)

/-- C113: every line which is accepted is one of the commands which have no such call, or stands for calls. -/
theorem C113_every_line (env : Env) (r r' : Reasoner) (l : List Char) (d : LineDraws) (q : Bool) (out : List (List Char))
    (h : input env r l d = .ok (r', q, out)) : OwnCommand (commandOf (trimNewline l)) ∨ ∃ calls, StandsFor env l d calls :=
  standsFor_of_ok h

example : OwnCommand (commandOf "!sp".toList) ∧ StandsFor env0 "// nothing\n".toList (draws [] []) [] :=
  ⟨trivial, .nothing (c := .comment) (by decide) (.inl rfl)⟩

end Nar.Props
