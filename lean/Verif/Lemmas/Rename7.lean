import Verif.Lemmas.Rename6
import Verif.Lemmas.Dispatch
import Verif.Props.Parser
/-! # Other names: lines which mean the same but for the names -/
namespace Nar
open Term

theorem isPrefixOf_head_ne {p c : Char} {ps rest : List Char} (h : p ≠ c) : ¬ (p :: ps).isPrefixOf (c :: rest) = true := by
  simp [List.isPrefixOf, h]

/-- a line which begins neither with `/` nor with `!` is a sentence -/
theorem commandOf_sentence {c : Char} {rest : List Char} (h1 : c ≠ '/') (h2 : c ≠ '!') : commandOf (c :: rest) = .narsese := by
  have hp : ∀ ps, ¬ ('!' :: ps).isPrefixOf (c :: rest) = true := fun ps => isPrefixOf_head_ne (Ne.symm h2)
  have he : ∀ ps, ¬ (c :: rest) = '!' :: ps := by
    intro ps h
    exact h2 (List.cons.inj h).1
  unfold commandOf
  rw [if_neg (show ¬ "//".toList.isPrefixOf (c :: rest) = true from isPrefixOf_head_ne (Ne.symm h1)),
    if_neg (show ¬ "!sp".toList.isPrefixOf (c :: rest) = true from hp _),
    if_neg (show ¬ "!s".toList.isPrefixOf (c :: rest) = true from hp _),
    if_neg (show ¬ (c :: rest) = "!dtf".toList from he _),
    if_neg (show ¬ "!por ".toList.isPrefixOf (c :: rest) = true from hp _),
    if_neg (show ¬ (c :: rest) = "!pse".toList from he _),
    if_neg (show ¬ (c :: rest) = "!peb 0".toList from he _),
    if_neg (show ¬ (c :: rest) = "!peb 1".toList from he _),
    if_neg (show ¬ ("!.nlp ".toList.isPrefixOf (c :: rest) = true ∧ (c :: rest) ≠ "!.nlp ".toList) from fun h => hp _ h.1),
    if_neg (show ¬ (c :: rest) = "!dt".toList from he _),
    if_neg (show ¬ (c :: rest) = "!dmd".toList from he _),
    if_neg (show ¬ (c :: rest) = "!QQ".toList from he _), if_neg (List.cons_ne_nil _ _)]

theorem SignChar.ne_special {c : Char} (h : SignChar c) : c ≠ '/' ∧ c ≠ '!' ∧ isUnicodeSpace c = false := by
  have hn : ∀ d : Char, d.isAlphanum = false → d ≠ '-' → d ≠ '_' → d ≠ '^' → c ≠ d := by
    intro d h1 h2 h3 h4 he
    rw [he] at h
    rcases h with h | h | h | h
    · rw [h1] at h; cases h
    · exact h2 h
    · exact h3 h
    · exact h4 h
  refine ⟨hn _ (by decide) (by decide) (by decide) (by decide), hn _ (by decide) (by decide) (by decide) (by decide), ?_⟩
  have hr : 33 ≤ c.toNat ∧ c.toNat < 128 := by
    rcases h with h | rfl | rfl | rfl
    · simp only [Char.isAlphanum, Char.isAlpha, Char.isUpper, Char.isLower, Char.isDigit, Bool.or_eq_true, Bool.and_eq_true,
        decide_eq_true_eq, ge_iff_le, UInt32.le_iff_toNat_le] at h
      have : c.toNat = c.val.toNat := rfl
      rw [this]
      rcases h with (h | h) | h <;> · have h1 := h.1; have h2 := h.2; simp at h1 h2; omega
    · decide
    · decide
    · decide
  unfold isUnicodeSpace
  simp only [Bool.or_eq_false_iff, Bool.and_eq_false_iff, decide_eq_false_iff_not, beq_eq_false_iff_ne, ne_eq]
  omega

theorem notation_first {t : Term} (h : Readable t) : ∃ c l, notation' t = c :: l ∧ c ≠ '/' ∧ c ≠ '!' := by
  cases h with
  | name hw =>
    obtain ⟨c, l, e, hc⟩ := word_cons hw
    exact ⟨c, l, by rw [notation', e], hc.ne_special.1, hc.ne_special.2.1⟩
  | _ => exact ⟨_, _, by simp only [notation', List.cons_append]; rfl, by decide, by decide⟩

theorem lineText_start {t : Term} (h : Readable t) (p : Punct) (tv : Option (List Char × List Char)) (ev : Bool) :
    ∃ c l, lineText t p tv ev = c :: l ∧ c ≠ '/' ∧ c ≠ '!' := by
  obtain ⟨c, l, e, h1, h2⟩ := notation_first h
  exact ⟨c, _, by unfold lineText; rw [e]; simp only [List.cons_append]; rfl, h1, h2⟩

theorem trimNewline_last {l : List Char} {c : Char} (h1 : c ≠ '\n') (h2 : c ≠ '\r') : trimNewline (l ++ [c]) = l ++ [c] := by
  unfold trimNewline
  rw [List.reverse_append, List.reverse_singleton, List.singleton_append, List.dropWhile_cons_of_neg]
  · simp
  · simp [h1, h2]

theorem lineText_end (t : Term) (p : Punct) (tv : Option (List Char × List Char)) (ev : Bool) :
    ∃ l c, lineText t p tv ev = l ++ [c] ∧ c ≠ '\n' ∧ c ≠ '\r' := by
  unfold lineText
  cases ev with
  | true => exact ⟨_, ':', by simp only [if_true]; rw [show [' ', ':', '|', ':'] = [' ', ':', '|'] ++ [':'] from rfl, ← List.append_assoc],
      by decide, by decide⟩
  | false =>
    cases tv with
    | none => exact ⟨notation' t, mark p, by simp [tvPart], by cases p <;> decide, by cases p <;> decide⟩
    | some ab =>
      obtain ⟨a, b⟩ := ab
      exact ⟨notation' t ++ [mark p] ++ [' '] ++ ('{' :: a ++ [' '] ++ b), '}', by simp [tvPart, tvText], by decide, by decide⟩

theorem lineText_ascii {t : Term} (h : Readable t) (p : Punct) (tvp : Option (List Char × List Char)) (ev : Bool)
    (hn : ∀ a b, tvp = some (a, b) → NumText a ∧ NumText b) : Ascii (lineText t p tvp ev) := by
  unfold lineText
  refine ascii_append (ascii_append (ascii_append (ascii_append (notation_ascii h) ?_) (Props.ite_blank tvp.isSome).2.2) ?_) ?_
  · exact ascii_cons (mark_ascii p) ascii_nil
  · cases tvp with
    | none => exact ascii_nil
    | some ab =>
      obtain ⟨a, b⟩ := ab
      obtain ⟨ha, hb⟩ := hn a b rfl
      exact ascii_append (ascii_append (ascii_append (ascii_cons (by decide) ha.1) (by decide)) hb.1) (by decide)
  · cases ev <;> decide

theorem lineText_dispatch {t : Term} (h : Readable t) (p : Punct) (tvp : Option (List Char × List Char)) (ev : Bool)
    (hn : ∀ a b, tvp = some (a, b) → NumText a ∧ NumText b) :
    trimNewline (lineText t p tvp ev) = lineText t p tvp ev ∧ dispatch (lineText t p tvp ev) = .ok .narsese := by
  constructor
  · obtain ⟨l, c, e, h1, h2⟩ := lineText_end t p tvp ev
    rw [e, trimNewline_last h1 h2]
  · have ha := lineText_ascii h p tvp ev hn
    rw [dispatch_ascii (fun c hc => utf8Size_one (ha c hc))]
    obtain ⟨c, l, e, h1, h2⟩ := lineText_start h p tvp ev
    rw [e, commandOf_sentence h1 h2]

theorem splitWhitespace_word (l cur : List Char) (h : ∀ c ∈ l, isUnicodeSpace c = false) (hc : cur ++ l ≠ []) :
    splitWhitespace l cur = [cur ++ l] := by
  induction l generalizing cur with
  | nil =>
    simp only [List.append_nil] at hc ⊢
    simp only [splitWhitespace]
    cases cur with
    | nil => exact absurd rfl hc
    | cons => rfl
  | cons c l ih =>
    simp only [splitWhitespace]
    rw [h c (by simp)]
    simp only [Bool.false_eq_true, if_false]
    rw [ih _ (fun d hd => h d (by simp [hd])) (by simp)]
    simp

/-- the line which registers an operator without effect under the name `w` -/
theorem registered_word {w : String} (hw : Word w) : registeredOp (splitWhitespace ("NOP ".toList ++ w.toList) []) = some ⟨w, true, 3⟩ := by
  have e : splitWhitespace ("NOP ".toList ++ w.toList) [] = "NOP".toList :: splitWhitespace w.toList [] := by
    rw [show "NOP ".toList = ['N', 'O', 'P', ' '] from by decide, show "NOP".toList = ['N', 'O', 'P'] from by decide]
    rfl
  have hne : w.toList ≠ [] := by intro h; have := hw.1; rw [h] at this; simp at this
  rw [e, splitWhitespace_word _ _ (fun c hc => (hw.2.2 c hc).ne_special.2.2) (by simpa using hne)]
  simp only [List.nil_append, registeredOp, beq_self_eq_true, if_true, String.ofList_toList]

namespace Renaming
variable (ρ : Renaming)

theorem sameLine_text (env : Env) (t : Term) (p : Punct) (tvp : Option (List Char × List Char)) (ev : Bool) (tv : Tv)
    (ht : Readable t) (ht' : Readable (ρ.term t)) (hn : ∀ a b, tvp = some (a, b) → NumText a ∧ NumText b)
    (htv : tvMeant env.pf tvp = some tv) : ρ.SameLine env (lineText t p tvp ev) (lineText (ρ.term t) p tvp ev) := by
  unfold SameLine
  obtain ⟨a1, a2⟩ := lineText_dispatch ht p tvp ev hn
  obtain ⟨b1, b2⟩ := lineText_dispatch ht' p tvp ev hn
  rw [a1, b1, a2, b2]
  simp only
  rw [Props.C37_lines_are_read _ _ _ _ _ _ ht hn htv, Props.C37_lines_are_read _ _ _ _ _ _ ht' hn htv]
  rfl

theorem sameLine_register (env : Env) {w w' : String} (hw : Word w) (hw' : Word w') (h : ρ.name w = w') :
    ρ.SameLine env ("!por NOP ".toList ++ w.toList) ("!por NOP ".toList ++ w'.toList) := by
  have key : ∀ w : String, Word w → dispatch (trimNewline ("!por NOP ".toList ++ w.toList)) = .ok (.register ("NOP ".toList ++ w.toList)) := by
    intro w hw
    have e : trimNewline ("!por NOP ".toList ++ w.toList) = "!por NOP ".toList ++ w.toList := by
      have hne : w.toList ≠ [] := by intro h; have := hw.1; rw [h] at this; simp at this
      rw [← List.dropLast_append_getLast hne, ← List.append_assoc]
      have hs := hw.2.2 _ (List.getLast_mem hne)
      refine trimNewline_last ?_ ?_
      · intro hh; rw [hh] at hs; revert hs; decide
      · intro hh; rw [hh] at hs; revert hs; decide
    rw [e, dispatch_register (s := "!por NOP ".toList ++ w.toList) ?_]
    · rw [show "!por NOP ".toList = ['!', 'p', 'o', 'r', ' ', 'N', 'O', 'P', ' '] from by decide,
        show "NOP ".toList = ['N', 'O', 'P', ' '] from by decide]
      rfl
    · rw [show "!por NOP ".toList = "!por ".toList ++ "NOP ".toList from by decide, List.append_assoc]
      exact List.prefix_append _ _
  unfold SameLine
  rw [key w hw, key w' hw']
  simp only
  rw [registered_word hw, registered_word hw', ← h]
  rfl

end Renaming
end Nar
