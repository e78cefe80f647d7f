import Verif.Lemmas.Parser3
import Verif.Lemmas.Mem
/-! # Lemmas about reading whole lines: acceptance and crashes -/
namespace Nar

/-! ## Blanks at stars -/

theorem BlanksAtStars.trans {a b c} (h1 : BlanksAtStars a b) (h2 : BlanksAtStars b c) :
    BlanksAtStars a c := by
  induction h2 with
  | same => exact h1
  | after _ ih => exact .after ih
  | before _ ih => exact .before ih

theorem BlanksAtStars.cons {a b} (c : Char) (h : BlanksAtStars a b) :
    BlanksAtStars (c :: a) (c :: b) := by
  induction h with
  | same => exact .same _
  | @after u v _ ih => exact .after (u := c :: u) ih
  | @before u v _ ih => exact .before (u := c :: u) ih

theorem blanks_replaceStarSpace (s : List Char) : BlanksAtStars (replaceStarSpace s) s := by
  fun_induction replaceStarSpace s with
  | case1 cs ih => exact .after (u := []) (ih.cons '*')
  | case2 c cs _ ih => exact ih.cons c
  | case3 => exact .same _

theorem blanks_replaceSpaceStar (s : List Char) : BlanksAtStars (replaceSpaceStar s) s := by
  fun_induction replaceSpaceStar s with
  | case1 cs ih => exact .before (u := []) (ih.cons '*')
  | case2 c cs _ ih => exact ih.cons c
  | case3 => exact .same _

theorem blanks_while {a b f} (hf : ∀ s, BlanksAtStars (f s) s) (n : Nat) (s : List Char) :
    BlanksAtStars (whileContains a b f n s) s := by
  induction n generalizing s with
  | zero => exact .same _
  | succ n ih =>
    rw [whileContains]
    split
    · exact (ih _).trans (hf s)
    · exact .same _

theorem blanks_tightenStars (s : List Char) : BlanksAtStars (tightenStars s) s :=
  (blanks_while blanks_replaceSpaceStar _ _).trans (blanks_while blanks_replaceStarSpace _ _)

theorem tightenStars_blanks {s s'} (h : BlanksAtStars s s') : tightenStars s' = tightenStars s := by
  induction h with
  | same => rfl
  | after _ ih => rw [tightenStars_star_space, ih]
  | before _ ih => rw [tightenStars_space_star, ih]

theorem tight_iff (s : List Char) : Tight s ↔ NoBlankAtStar s := by
  constructor
  · intro h u v
    constructor
    · rintro rfl
      have := (List.isChain_append_cons_cons.1 h).2.1
      simp at this
    · rintro rfl
      have := (List.isChain_append_cons_cons.1 h).2.1
      simp at this
  · intro h
    induction s with
    | nil => exact List.IsChain.nil
    | cons c s ih =>
      have h2 : Tight s := ih (fun u v => ⟨fun e => (h (c :: u) v).1 (by simp [e]), fun e => (h (c :: u) v).2 (by simp [e])⟩)
      cases s with
      | nil => exact List.IsChain.singleton _
      | cons d s =>
        refine List.isChain_cons_cons.2 ⟨⟨?_, ?_⟩, h2⟩
        · rintro ⟨rfl, rfl⟩; exact (h [] s).1 rfl
        · rintro ⟨rfl, rfl⟩; exact (h [] s).2 rfl

theorem dropAfterStar_noPair (b : Bool) (s : List Char) :
    containsPair '*' ' ' (dropAfterStar b s) = false ∧
      (b = true → (dropAfterStar b s).head? ≠ some ' ') := by
  induction s generalizing b with
  | nil => simp [dropAfterStar, containsPair]
  | cons c s ih =>
    rw [dropAfterStar]
    split
    · refine ⟨?_, by simp⟩
      have h1 := ih true
      cases hd : dropAfterStar true s with
      | nil => simp [containsPair]
      | cons d l =>
        rw [hd] at h1
        simp only [containsPair, h1.1, Bool.or_false]
        have := h1.2 rfl
        simp at this
        simp [this]
    · split
      · exact ⟨(ih true).1, fun _ => (ih true).2 rfl⟩
      · rename_i h1 h2
        simp at h1 h2
        refine ⟨?_, ?_⟩
        · cases hd : dropAfterStar false s with
          | nil => simp [containsPair]
          | cons d l =>
            have h3 := ih false
            rw [hd] at h3
            simp only [containsPair, h3.1, Bool.or_false]
            simp [h1]
        · rintro rfl
          simp
          intro h; exact absurd (h2 h) (by simp)

theorem dropBeforeStar_noPair (s : List Char) :
    containsPair ' ' '*' (dropBeforeStar s) = false := by
  induction s with
  | nil => rfl
  | cons c s ih =>
    rw [dropBeforeStar]
    split
    · exact ih
    · rename_i h
      simp at h
      cases hd : dropBeforeStar s with
      | nil => simp [containsPair]
      | cons d l =>
        rw [hd] at ih h
        simp at h
        simp only [containsPair, ih, Bool.or_false]
        by_cases hc : c = ' '
        · simp [h hc]
        · simp [hc]

theorem dropBeforeStar_head_star (s : List Char) (h : (dropBeforeStar s).head? = some ' ') :
    s.head? = some ' ' := by
  induction s with
  | nil => simp [dropBeforeStar] at h
  | cons c s ih =>
    rw [dropBeforeStar] at h
    split at h
    · rename_i h2; simp at h2; simp [h2.1]
    · simpa using h

theorem dropBeforeStar_keeps (s : List Char) (h : containsPair '*' ' ' s = false) :
    containsPair '*' ' ' (dropBeforeStar s) = false := by
  induction s with
  | nil => rfl
  | cons c s ih =>
    have hs : containsPair '*' ' ' s = false := by
      cases s with
      | nil => rfl
      | cons d s => simp [containsPair] at h; simpa using h.2
    rw [dropBeforeStar]
    split
    · exact ih hs
    · cases hd : dropBeforeStar s with
      | nil => simp [containsPair]
      | cons d l =>
        have h2 := ih hs
        rw [hd] at h2
        simp only [containsPair, h2, Bool.or_false]
        by_cases hdd : d = ' '
        · have h3 := dropBeforeStar_head_star s (by simp [hd, hdd])
          cases s with
          | nil => simp at h3
          | cons e s =>
            simp at h3; subst h3
            simp [containsPair] at h
            simp [hdd]; exact h.1
        · simp [hdd]

theorem tight_of_containsPair {s : List Char} (h1 : containsPair '*' ' ' s = false)
    (h2 : containsPair ' ' '*' s = false) : Tight s := by
  induction s with
  | nil => exact List.IsChain.nil
  | cons c s ih =>
    cases s with
    | nil => exact List.IsChain.singleton _
    | cons d s =>
      simp only [containsPair, Bool.or_eq_false_iff] at h1 h2
      refine List.isChain_cons_cons.2 ⟨⟨?_, ?_⟩, ih h1.2 h2.2⟩
      · rintro ⟨rfl, rfl⟩; simp at h1
      · rintro ⟨rfl, rfl⟩; simp at h2

theorem tight_tightenStars (s : List Char) : Tight (tightenStars s) := by
  rw [tightenStars_eq]
  exact tight_of_containsPair (dropBeforeStar_keeps _ (dropAfterStar_noPair _ _).1)
    (dropBeforeStar_noPair _)

theorem tightenStars_iff (s line : List Char) :
    tightenStars line = s ↔ NoBlankAtStar s ∧ BlanksAtStars s line := by
  constructor
  · rintro rfl
    exact ⟨(tight_iff _).1 (tight_tightenStars line), blanks_tightenStars line⟩
  · rintro ⟨h1, h2⟩
    rw [tightenStars_blanks h2, tightenStars_tight ((tight_iff s).2 h1)]

/-! ## Trimming -/

theorem isSpaceChar_iff (c : Char) : isSpaceChar c = true ↔ IsBlank c := by
  simp [isSpaceChar, IsBlank]

theorem trimEnd_append (x : List Char) (c : Char) (hc : ¬ IsBlank c) (blanks : List Char)
    (hb : ∀ d ∈ blanks, IsBlank d) : trimEnd (x ++ [c] ++ blanks) = x ++ [c] := by
  have h1 : ∀ d ∈ blanks.reverse, isSpaceChar d = true := fun d hd =>
    (isSpaceChar_iff d).2 (hb d (by simpa using hd))
  rw [trimEnd]
  simp only [List.reverse_append, List.reverse_cons, List.reverse_nil, List.nil_append,
    List.singleton_append]
  rw [List.dropWhile_append_of_pos h1, List.dropWhile_cons_of_neg]
  · simp
  · rw [isSpaceChar_iff]; exact hc

theorem trimEnd_spec (s : List Char) : ∃ blanks, s = trimEnd s ++ blanks ∧ ∀ d ∈ blanks, IsBlank d := by
  refine ⟨(s.reverse.takeWhile isSpaceChar).reverse, ?_, ?_⟩
  · rw [trimEnd, ← List.reverse_append, List.takeWhile_append_dropWhile, List.reverse_reverse]
  · intro d hd
    rw [← isSpaceChar_iff]
    exact List.mem_takeWhile_imp (by simpa using hd)

theorem punctOf_iff (c : Char) (p : Punct) : punctOf c = some p ↔ c = mark p := by
  constructor
  · intro h
    unfold punctOf at h
    split at h <;> simp at h <;> subst h <;> rfl
  · rintro rfl; cases p <;> rfl

theorem mark_not_blank (p : Punct) : ¬ IsBlank (mark p) := by cases p <;> decide

/-! ## The event mark -/

theorem cutEvent_yes (s : List Char) : cutEvent (s ++ [' ', ':', '|', ':']) = (s, true) := by
  rw [cutEvent, if_pos]
  · simp
  · rw [List.isSuffixOf_iff_suffix]; exact ⟨s, rfl⟩

theorem cutEvent_no {s : List Char} (h : s.getLast? ≠ some ':') : cutEvent s = (s, false) := by
  rw [cutEvent, if_neg]
  rw [List.isSuffixOf_iff_suffix]
  rintro ⟨l, rfl⟩
  exact h (by simp)

theorem cutEvent_spec (s : List Char) :
    s = (cutEvent s).1 ++ (if (cutEvent s).2 then [' ', ':', '|', ':'] else []) := by
  rw [cutEvent]
  split
  · rename_i h
    rw [List.isSuffixOf_iff_suffix] at h
    obtain ⟨l, rfl⟩ := h
    simp
  · simp

/-! ## Acceptance -/

theorem notationL_ascii {sep : List Char} (hs : Ascii sep) {ts : List Term}
    (h : ∀ t ∈ ts, Ascii (notation' t)) : Ascii (notationL sep ts) := by
  cases ts with
  | nil => intro c hc; simp [notationL] at hc
  | cons a ts =>
    rw [notationL_cons]
    intro c hc
    simp [tailN] at hc
    rcases hc with hc | ⟨t, ht, hc | hc⟩
    · exact h a (by simp) c hc
    · exact hs c hc
    · exact h t (by simp [ht]) c hc

theorem ascii_append {x y} (hx : Ascii x) (hy : Ascii y) : Ascii (x ++ y) := by
  intro c hc; rcases List.mem_append.1 hc with h | h
  · exact hx c h
  · exact hy c h

theorem ascii_cons {c x} (hc : c.toNat < 128) (hx : Ascii x) : Ascii (c :: x) := by
  intro d hd; rcases List.mem_cons.1 hd with rfl | h
  · exact hc
  · exact hx d h

theorem ascii_nil : Ascii [] := by simp [Ascii]

instance (s : List Char) : Decidable (Ascii s) := by unfold Ascii; infer_instance

theorem signChar_ascii {c : Char} (h : SignChar c) : c.toNat < 128 := by
  rcases h with h | rfl | rfl | rfl
  · simp only [Char.isAlphanum, Char.isAlpha, Char.isUpper, Char.isLower, Char.isDigit, Bool.or_eq_true,
      Bool.and_eq_true, decide_eq_true_eq, ge_iff_le] at h
    simp only [Char.toNat]
    have f : ∀ n : UInt32, n.toNat < 128 → c.val ≤ n → c.val.toNat < 128 := fun n h1 h2 => by
      have := UInt32.le_iff_toNat_le.1 h2; omega
    rcases h with (h | h) | h
    · exact f _ (by decide) h.2
    · exact f _ (by decide) h.2
    · exact f _ (by decide) h.2
  all_goals decide

theorem notation_ascii {t : Term} (h : Readable t) : Ascii (notation' t) := by
  have hw : ∀ w, Word w → Ascii w.toList := fun w h c hc => signChar_ascii (h.2.2 c hc)
  induction h with
  | name h => exact hw _ h
  | qvar h => exact ascii_cons (by decide) (hw _ h)
  | depvar h => exact ascii_cons (by decide) (hw _ h)
  | indepvar h => exact ascii_cons (by decide) (hw _ h)
  | @stmt c a b _ _ iha ihb =>
    rw [notation']
    refine ascii_append (ascii_append (ascii_append (ascii_append (ascii_append (ascii_cons (by decide) iha) (by decide)) ?_) (by decide)) ihb) (by decide)
    cases c <;> decide
  | setExt _ ih => exact ascii_append (ascii_cons (by decide) (notationL_ascii (by decide) (by simpa using ih))) (by decide)
  | setInt _ ih => exact ascii_append (ascii_cons (by decide) (notationL_ascii (by decide) (by simpa using ih))) (by decide)
  | neg _ ih => exact ascii_append (ascii_cons (by decide) (ascii_cons (by decide) ih)) (by decide)
  | seq _ _ ih => exact ascii_append (ascii_cons (by decide) (notationL_ascii (by decide) ih)) (by decide)
  | prod _ _ ih => exact ascii_append (ascii_cons (by decide) (notationL_ascii (by decide) ih)) (by decide)
  | conj _ _ _ ih => exact ascii_append (ascii_cons (by decide) (notationL_ascii (by decide) ih)) (by decide)
  | intInt _ _ iha ihb => exact ascii_append (ascii_cons (by decide) (notationL_ascii (by decide) (by simpa using ⟨iha, ihb⟩))) (by decide)
  | extInt _ _ iha ihb => exact ascii_append (ascii_cons (by decide) (notationL_ascii (by decide) (by simpa using ⟨iha, ihb⟩))) (by decide)
  | @img r i a hi _ _ ihr iha =>
    rw [notation']
    refine ascii_append (ascii_append (ascii_append (ascii_append (ascii_append (ascii_cons (by decide) ihr) (by decide)) ?_) (by decide)) (notationL_ascii (by decide) (by simpa using iha))) (by decide)
    have : i = 0 ∨ i = 1 := by omega
    rcases this with rfl | rfl
    · rw [natStr_one]; decide
    · rw [natStr_two]; decide

theorem parseEntry_iff (i : List Char) (t : Term) (r : List Char) :
    parseEntry i = some (t, r) ↔ Readable t ∧ i = notation' t ++ r ∧ EndsBefore t r :=
  parseSubjOrPred_iff (Nat.lt_succ_self _) t r

theorem retTv_nonascii (pf : List Char → Option Rat) {s : List Char} (h : ¬ Ascii s) :
    parseNarseseRetTv pf s = .error .unwrapNone := by
  have h1 := byteLen_not_ascii h
  rw [parseNarseseRetTv, if_pos (by omega)]
  have : s[byteLen s - 1]? = none := List.getElem?_eq_none (by omega)
  rw [this]; rfl

/-- the result of cutting the truth value -/
theorem retTv_ok {pf : List Char → Option Rat} {s s' : List Char} {tv : Tv}
    (h : parseNarseseRetTv pf s = .ok (s', tv)) :
    Ascii s ∧ ∃ tvp, TvParts tvp ∧ tvMeant pf tvp = some tv ∧
      s = s' ++ tvPart tvp ∧
      (tvp = none → ∀ pre a b, ¬ TvAtEnd s pre a b) := by
  have hs : Ascii s := by
    by_contra hs
    rw [retTv_nonascii pf hs] at h; cases h
  refine ⟨hs, ?_⟩
  by_cases hex : ∃ pre a b, TvAtEnd s pre a b
  · obtain ⟨pre, a, b, hh⟩ := hex
    rw [retTv_found pf hs hh] at h
    unfold parseNum at h
    rcases ha : pf a with _ | f
    · rw [ha] at h; cases h
    rcases hb : pf b with _ | c
    · rw [ha, hb] at h; cases h
    rw [ha, hb] at h
    simp only [bind, Except.bind] at h
    cases h
    exact ⟨some (a, b), ⟨hh.blankA, hh.blankB, hh.braceA, hh.braceB⟩, by simp [tvMeant, ha, hb],
      hh.eq, by simp⟩
  · have hex2 : ∀ pre a b, ¬ TvAtEnd s pre a b := fun pre a b hh => hex ⟨pre, a, b, hh⟩
    rw [retTv_absent pf hs hex2] at h
    cases h
    exact ⟨none, trivial, rfl, by simp [tvPart], fun _ => hex2⟩

theorem parseNarsese_ok {pf : List Char → Option Rat} {line : List Char} {t tv p ev}
    (h : parseNarsese pf line = .ok (some (t, tv, p, ev))) :
    Ascii line ∧ Readable t ∧ ∃ junk blanks tvp, (∀ c ∈ blanks, IsBlank c) ∧ TvParts tvp ∧
      tvMeant pf tvp = some tv ∧ EndsBefore t junk ∧
      tightenStars line = looseLine t junk p blanks tvp ev := by
  rw [parseNarsese] at h
  obtain ⟨⟨s', tv'⟩, h1, h⟩ := R.bind_ok.1 h
  obtain ⟨ha, tvp, hp1, hp2, hp3, -⟩ := retTv_ok h1
  have hAll : Ascii line := by
    intro c hc
    by_cases hsp : c = ' '
    · subst hsp; decide
    have : c ∈ tightenStars line := (tightenStars_mem hsp).2 hc
    rw [cutEvent_spec (tightenStars line)] at this
    rcases List.mem_append.1 this with h | h
    · exact ha c h
    · split at h
      · simp at h
        rcases h with rfl | rfl | rfl | rfl <;> decide
      · simp at h
  refine ⟨hAll, ?_⟩
  obtain ⟨blanks, hbl, hbl2⟩ := trimEnd_spec s'
  have hs'A : Ascii (trimEnd s') := by
    intro c hc
    apply ha
    rw [hp3]
    exact List.mem_append_left _ (by rw [hbl]; exact List.mem_append_left _ hc)
  simp only at h
  rw [byteLen_ascii hs'A] at h
  split at h
  · cases h
  rename_i hne
  obtain ⟨c, hc, h⟩ := R.bind_ok.1 h
  have hlt : (trimEnd s').length - 1 < (trimEnd s').length := by omega
  rw [List.getElem?_eq_getElem hlt] at hc
  simp only [unwrap] at hc
  cases hc
  split at h
  · cases h
  rename_i punct hpu
  split at h
  · rename_i t' junk hpe
    simp only [Except.ok.injEq, Option.some.injEq, Prod.mk.injEq] at h
    obtain ⟨rfl, rfl, rfl, rfl⟩ := h
    obtain ⟨r1, r2, r3⟩ := (parseEntry_iff _ _ _).1 hpe
    rw [punctOf_iff] at hpu
    have hne2 : trimEnd s' ≠ [] := by intro h0; rw [h0] at hne; simp at hne
    have e1 : trimEnd s' = notation' t' ++ junk ++ [mark punct] := by
      rw [← r2, ← hpu, ← List.getLast_eq_getElem hne2, List.dropLast_append_getLast hne2]
    refine ⟨r1, junk, blanks, tvp, hbl2, hp1, hp2, r3, ?_⟩
    have e2 := cutEvent_spec (tightenStars line)
    rw [hp3] at e2
    rw [hbl, e1] at e2
    exact e2
  · cases h

theorem mark_ascii (p : Punct) : (mark p).toNat < 128 := by cases p <;> decide

theorem getLast?_append_ne {x y : List Char} (h : y ≠ []) : (x ++ y).getLast? = y.getLast? := by
  cases y with
  | nil => exact absurd rfl h
  | cons c y => rw [List.getLast?_append]; simp [List.getLast?_cons]

theorem tvText_last (a b : List Char) : (tvText a b).getLast? = some '}' := by
  rw [tvText, List.getLast?_concat]

theorem parseNarsese_loose {pf : List Char → Option Rat} {line : List Char} {t : Term} {tv : Tv}
    {p : Punct} {ev : Bool} {junk blanks : List Char} {tvp : Option (List Char × List Char)}
    (hA : Ascii line) (ht : Readable t) (hbl : ∀ c ∈ blanks, IsBlank c) (htp : TvParts tvp)
    (htv : tvMeant pf tvp = some tv) (hE : EndsBefore t junk)
    (hs : tightenStars line = looseLine t junk p blanks tvp ev) :
    parseNarsese pf line = .ok (some (t, tv, p, ev)) := by
  have hTA : Ascii (tightenStars line) := by
    intro c hc
    by_cases hsp : c = ' '
    · subst hsp; decide
    exact hA c ((tightenStars_mem hsp).1 hc)
  have hTA0 := hTA
  rw [hs] at hTA
  have hpre : Ascii (notation' t ++ junk ++ [mark p] ++ blanks) := by
    intro c hc; apply hTA; simp only [looseLine]
    exact List.mem_append_left _ (List.mem_append_left _ hc)
  have hbody : Ascii (notation' t ++ junk ++ [mark p]) := by
    intro c hc; apply hpre; exact List.mem_append_left _ hc
  have hcore : ∀ x : List Char, x = tvPart tvp →
      cutEvent (tightenStars line) = (notation' t ++ junk ++ [mark p] ++ blanks ++ x, ev) := by
    rintro x rfl
    rw [hs]
    simp only [looseLine]
    cases ev with
    | true => simp only [if_true]; rw [cutEvent_yes]
    | false =>
      simp only [Bool.false_eq_true, if_false, List.append_nil]
      apply cutEvent_no
      cases tvp with
      | some ab =>
        obtain ⟨a, b⟩ := ab
        rw [getLast?_append_ne (by simp [tvPart, tvText])]
        rw [tvPart, tvText_last]; simp
      | none =>
        simp only [tvPart, List.append_nil]
        rcases List.eq_nil_or_concat blanks with rfl | ⟨l, d, rfl⟩
        · simp; cases p <;> decide
        · have := hbl d (by simp)
          rw [List.concat_eq_append, ← List.append_assoc, List.getLast?_concat]
          simp
          rintro rfl
          revert this; decide
  have hret : parseNarseseRetTv pf (cutEvent (tightenStars line)).1 =
      .ok (notation' t ++ junk ++ [mark p] ++ blanks, tv) := by
    rw [hcore _ rfl]
    simp only
    have hcA : Ascii (notation' t ++ junk ++ [mark p] ++ blanks ++ tvPart tvp) := by
      intro c hc; apply hTA; simp only [looseLine]
      exact List.mem_append_left _ hc
    cases tvp with
    | some ab =>
      obtain ⟨a, b⟩ := ab
      obtain ⟨q1, q2, q3, q4⟩ := htp
      have := retTv_found pf hcA (pre := notation' t ++ junk ++ [mark p] ++ blanks) (a := a) (b := b)
        ⟨rfl, by simp, q1, q2, q3, q4⟩
      rw [this]
      simp only [tvMeant] at htv
      split at htv
      · rename_i f c hf hc
        simp at htv; subst htv
        simp only [parseNum, hf, hc]; rfl
      · simp at htv
    | none =>
      simp only [tvMeant, Option.some.injEq] at htv
      subst htv
      simp only [tvPart, List.append_nil] at hcA ⊢
      apply retTv_absent pf hcA
      intro pre a b hh
      have h1 : (notation' t ++ junk ++ [mark p] ++ blanks).getLast? = some '}' := by
        rw [hh.eq, getLast?_append_ne (by simp [tvText]), tvText_last]
      rcases List.eq_nil_or_concat blanks with rfl | ⟨l, d, rfl⟩
      · simp at h1; revert h1; cases p <;> decide
      · have := hbl d (by simp)
        rw [List.concat_eq_append, ← List.append_assoc, List.getLast?_concat] at h1
        simp at h1
        subst h1
        revert this; decide
  rw [parseNarsese]
  simp only [hret, bind, Except.bind]
  rw [trimEnd_append _ _ (mark_not_blank p) _ hbl, byteLen_ascii hbody]
  have hlen : (notation' t ++ junk ++ [mark p]).length ≠ 0 := by simp
  rw [if_neg hlen]
  have hlast : (notation' t ++ junk ++ [mark p])[(notation' t ++ junk ++ [mark p]).length - 1]? = some (mark p) := by
    rw [List.length_append, List.getElem?_append_right (by simp)]; simp
  have hev : (cutEvent (tightenStars line)).2 = ev := by rw [hcore _ rfl]
  rw [hlast]
  simp only [unwrap]
  rw [(punctOf_iff _ p).2 rfl]
  simp only [List.dropLast_concat]
  rw [(parseEntry_iff _ t junk).2 ⟨ht, rfl, hE⟩]
  simp only [hev]

theorem parseNarsese_error_iff (pf : List Char → Option Rat) (line : List Char) (e : Err) :
    parseNarsese pf line = .error e ↔
      (¬ Ascii line ∧ e = .unwrapNone) ∨
      (Ascii line ∧ e = .parse ∧ ∃ pre a b, TvAtEnd (cutEvent (tightenStars line)).1 pre a b ∧
        (pf a = none ∨ pf b = none)) := by
  have hAsc : Ascii (cutEvent (tightenStars line)).1 ↔ Ascii line := by
    constructor
    · intro ha c hc
      by_cases hsp : c = ' '
      · subst hsp; decide
      have : c ∈ tightenStars line := (tightenStars_mem hsp).2 hc
      rw [cutEvent_spec (tightenStars line)] at this
      rcases List.mem_append.1 this with h | h
      · exact ha c h
      · split at h
        · simp at h
          rcases h with rfl | rfl | rfl | rfl <;> decide
        · simp at h
    · intro ha c hc
      by_cases hsp : c = ' '
      · subst hsp; decide
      apply ha
      rw [← tightenStars_mem hsp, cutEvent_spec (tightenStars line)]
      exact List.mem_append_left _ hc
  by_cases hA : Ascii line
  · have hA2 := hAsc.2 hA
    -- the part after the truth value never panics
    have tail : ∀ s' tv, parseNarseseRetTv pf (cutEvent (tightenStars line)).1 = .ok (s', tv) →
        parseNarsese pf line ≠ .error e := by
      intro s' tv hr
      rw [parseNarsese]
      simp only [hr, bind, Except.bind]
      have hs'A : Ascii (trimEnd s') := by
        obtain ⟨blanks, hbl, -⟩ := trimEnd_spec s'
        obtain ⟨h1, tvp, -, -, h2, -⟩ := retTv_ok hr
        intro c hc
        apply h1
        rw [h2, hbl]
        exact List.mem_append_left _ (List.mem_append_left _ hc)
      rw [byteLen_ascii hs'A]
      split
      · simp
      · rename_i hne
        have hlt : (trimEnd s').length - 1 < (trimEnd s').length := by omega
        rw [List.getElem?_eq_getElem hlt]
        simp only [unwrap]
        split
        · simp
        · split <;> simp
    constructor
    · intro h
      right
      by_cases hex : ∃ pre a b, TvAtEnd (cutEvent (tightenStars line)).1 pre a b
      · obtain ⟨pre, a, b, hh⟩ := hex
        have hr := retTv_found pf hA2 hh
        rcases ha : pf a with _ | f
        · have : parseNarsese pf line = .error .parse := by
            rw [parseNarsese]; simp only [hr, parseNum, ha]; rfl
          rw [this] at h
          cases h
          exact ⟨hA, rfl, pre, a, b, hh, .inl ha⟩
        rcases hb : pf b with _ | c
        · have : parseNarsese pf line = .error .parse := by
            rw [parseNarsese]; simp only [hr, parseNum, ha, hb]; rfl
          rw [this] at h
          cases h
          exact ⟨hA, rfl, pre, a, b, hh, .inr hb⟩
        exact absurd h (tail pre ⟨f, c⟩ (by rw [hr]; simp only [parseNum, ha, hb]; rfl))
      · exact absurd h (tail _ _ (retTv_absent pf hA2 (fun pre a b hh => hex ⟨pre, a, b, hh⟩)))
    · rintro (⟨h1, -⟩ | ⟨-, rfl, pre, a, b, hh, hor⟩)
      · exact absurd hA h1
      · have hr := retTv_found pf hA2 hh
        rw [parseNarsese]
        simp only [hr, parseNum]
        rcases ha : pf a with _ | f
        · rfl
        · rcases hb : pf b with _ | c
          · rfl
          · rw [ha, hb] at hor; simp at hor
  · have hA2 : ¬ Ascii (cutEvent (tightenStars line)).1 := fun h => hA (hAsc.1 h)
    have : parseNarsese pf line = .error .unwrapNone := by
      rw [parseNarsese]; simp only [retTv_nonascii pf hA2]; rfl
    rw [this]
    constructor
    · intro h; cases h; exact .inl ⟨hA, rfl⟩
    · rintro (⟨-, rfl⟩ | ⟨h, -⟩)
      · rfl
      · exact absurd h hA

end Nar
