import Verif.Lemmas.ParserCost2
import Verif.Lemmas.Parser4
import Verif.Spec.ParserCost
/-! # Lines: few calls without parentheses, many with nested ones -/
namespace Nar

/-! ## Text without parentheses -/

theorem alpha2_head {c : Char} {j : List Char} (h : isValidSign c = false) : alpha2 (c :: j) = none := by
  simp [alpha2, List.takeWhile, h]

theorem alpha2_nil : alpha2 [] = none := rfl

/-- without an opening parenthesis at most one alternative does anything -/
theorem firstOfC_noParen (rc : List Char → Count (Term × List Char)) (i : List Char)
    (hp : ∀ j, i ≠ '(' :: j) :
    (∃ p ∈ compoundAlternatives rc, i ≠ [] ∧ firstOfC (termAlternativesC rc) i = p i) ∨
      (∃ p ∈ simpleAlternatives, firstOfC (termAlternativesC rc) i = ofOpt (p i)) := by
  have z : ∀ (x : Count (Term × List Char)), (match x.res with
      | some r => (⟨x.calls, some r⟩ : Count (Term × List Char))
      | none => ⟨x.calls + 0, none⟩) = x := by
    rintro ⟨n, _ | r⟩ <;> rfl
  match i, hp with
  | [], _ => right; exact ⟨parseName, by simp [simpleAlternatives], rfl⟩
  | c :: j, hp =>
    have hc : c ≠ '(' := fun h => hp j (by rw [h])
    by_cases h1 : c = '{'
    · subst h1
      left
      refine ⟨parseSetExtC rc, by simp [compoundAlternatives], by simp, ?_⟩
      simp only [firstOfC, termAlternativesC, parseSeqC, parseIntInt2C, parseExtInt2C, parseSetIntC,
        parseNegC, parseProdC, parseImg0C, parseImg1C, parseConj2C, parseConj3C, parseConj4C,
        parseStatementC, parseQVar, parseDepVar, parseIndepVar, parseName, tag_head_ne hc,
        tag_head_ne (show '{' ≠ '[' by decide), tag_head_ne (show '{' ≠ '<' by decide),
        tag_head_ne (show '{' ≠ '?' by decide), tag_head_ne (show '{' ≠ '#' by decide),
        tag_head_ne (show '{' ≠ '$' by decide), ofOpt_none_bind, Option.bind_eq_bind,
        Option.bind_none, alpha2_head (show isValidSign '{' = false by decide), Count.ofOpt_res, Count.ofOpt_calls]
      exact z _
    by_cases h2 : c = '['
    · subst h2
      left
      refine ⟨parseSetIntC rc, by simp [compoundAlternatives], by simp, ?_⟩
      simp only [firstOfC, termAlternativesC, parseSeqC, parseIntInt2C, parseExtInt2C, parseSetExtC,
        parseNegC, parseProdC, parseImg0C, parseImg1C, parseConj2C, parseConj3C, parseConj4C,
        parseStatementC, parseQVar, parseDepVar, parseIndepVar, parseName, tag_head_ne hc,
        tag_head_ne h1, tag_head_ne (show '[' ≠ '<' by decide),
        tag_head_ne (show '[' ≠ '?' by decide), tag_head_ne (show '[' ≠ '#' by decide),
        tag_head_ne (show '[' ≠ '$' by decide), ofOpt_none_bind, Option.bind_eq_bind,
        Option.bind_none, alpha2_head (show isValidSign '[' = false by decide), Count.ofOpt_res, Count.ofOpt_calls, Nat.zero_add]
      exact z _
    by_cases h3 : c = '<'
    · subst h3
      left
      refine ⟨parseStatementC rc, by simp [compoundAlternatives], by simp, ?_⟩
      simp only [firstOfC, termAlternativesC, parseSeqC, parseIntInt2C, parseExtInt2C, parseSetExtC,
        parseSetIntC,
        parseNegC, parseProdC, parseImg0C, parseImg1C, parseConj2C, parseConj3C, parseConj4C,
        parseQVar, parseDepVar, parseIndepVar, parseName, tag_head_ne hc,
        tag_head_ne h1, tag_head_ne h2,
        tag_head_ne (show '<' ≠ '?' by decide), tag_head_ne (show '<' ≠ '#' by decide),
        tag_head_ne (show '<' ≠ '$' by decide), ofOpt_none_bind, Option.bind_eq_bind,
        Option.bind_none, alpha2_head (show isValidSign '<' = false by decide), Count.ofOpt_res, Count.ofOpt_calls, Nat.zero_add]
      exact z _
    · right
      have e : firstOfC (termAlternativesC rc) (c :: j) = firstOfC [fun i => ofOpt (parseQVar i),
          fun i => ofOpt (parseDepVar i), fun i => ofOpt (parseIndepVar i),
          fun i => ofOpt (parseName i)] (c :: j) := by
        simp only [firstOfC, termAlternativesC, parseSeqC, parseIntInt2C, parseExtInt2C,
          parseSetExtC, parseSetIntC, parseNegC, parseProdC, parseImg0C, parseImg1C, parseConj2C,
          parseConj3C, parseConj4C, parseStatementC, tag_head_ne hc, tag_head_ne h1,
          tag_head_ne h2, tag_head_ne h3, ofOpt_none_bind, Nat.zero_add]
      rw [e]
      simp only [firstOfC, ofOpt]
      rcases hq : parseQVar (c :: j) with _ | r
      · rcases hd : parseDepVar (c :: j) with _ | r
        · rcases hi : parseIndepVar (c :: j) with _ | r
          · refine ⟨parseName, by simp [simpleAlternatives], ?_⟩
            rcases hn : parseName (c :: j) with _ | r <;> rfl
          · exact ⟨parseIndepVar, by simp [simpleAlternatives], by simp [ofOpt, hi]⟩
        · exact ⟨parseDepVar, by simp [simpleAlternatives], by simp [ofOpt, hd]⟩
      · exact ⟨parseQVar, by simp [simpleAlternatives], by simp [ofOpt, hq]⟩

theorem parseSubjOrPredC_linear (n : Nat) (i : List Char) (hi : '(' ∉ i) :
    Pot id 1 i i.length (parseSubjOrPredC n i) := by
  induction n generalizing i with
  | zero => exact pot_zero
  | succ n ih =>
    have h : RecPot id 1 id (fun i => '(' ∉ i) (parseSubjOrPredC n) :=
      ⟨monotone_id, fun l m hl => Nat.le_of_lt hl, fun _ _ hs hn hm => hn (hs.subset hm),
        fun j hj => ih j hj⟩
    rcases firstOfC_noParen (parseSubjOrPredC n) i (by rintro j rfl; simp at hi) with
      ⟨p, hp, hne, he⟩ | ⟨p, hp, he⟩
    · have hl : 0 < i.length := List.length_pos_iff.2 hne
      have hc := h.compound (i := i) (A := i.length - 1) hi (fun l hl => by show l ≤ _; omega) p hp
      simp only [parseSubjOrPredC]
      rw [he]
      refine ⟨fun a r hr => ?_, fun hn => ?_⟩
      · have := hc.1 a r hr
        exact ⟨this.1, by have := this.2; show _ + 1 + r.length ≤ _; simp only [id] at this; omega⟩
      · have := hc.2 hn
        show _ + 1 ≤ _; omega
    · simp only [parseSubjOrPredC]
      rw [he]
      refine ⟨fun a r hr => ?_, fun hn => ?_⟩
      · have := simple_suffix hp hr
        exact ⟨this.1, by have := this.2; show 0 + 1 + r.length ≤ _; omega⟩
      · show 0 + 1 ≤ _; omega

/-! ## From the text of a term to a line -/

theorem dropAfterStar_sublist (b : Bool) (s : List Char) : (dropAfterStar b s).Sublist s := by
  induction s generalizing b with
  | nil => exact List.Sublist.slnil
  | cons c s ih =>
    rw [dropAfterStar]
    split
    · rename_i h; rw [beq_iff_eq] at h; subst h; exact (ih true).cons_cons _
    · split
      · exact (ih true).cons _
      · exact (ih false).cons_cons _

theorem dropBeforeStar_sublist (s : List Char) : (dropBeforeStar s).Sublist s := by
  induction s with
  | nil => exact List.Sublist.slnil
  | cons c s ih =>
    rw [dropBeforeStar]
    split
    · exact ih.cons _
    · exact ih.cons_cons _

theorem scanTv_sublist {pf : List Char → Option Rat} {s : List Char} {k : Nat} {r : List Char × Tv}
    (h : scanTv pf s k = .ok r) : r.1.Sublist s := by
  induction k with
  | zero => rw [← Except.ok.inj h]
  | succ k ih =>
    rw [scanTv] at h
    obtain ⟨c, _, h⟩ := R.bind_ok.1 h
    split at h
    · rw [cutTv] at h
      split at h
      · obtain ⟨f, _, h⟩ := R.bind_ok.1 h
        obtain ⟨c, _, h⟩ := R.bind_ok.1 h
        rw [← Except.ok.inj h]
        exact List.take_sublist _ _
      · rw [← Except.ok.inj h]
    · exact ih h

theorem parseNarseseC_text {pf : List Char → Option Rat} {line : List Char}
    {x : Count (Term × Tv × Punct × Bool)} (h : parseNarseseC pf line = .ok x) :
    x.calls = 0 ∨ ∃ s : List Char, x.calls = (parseEntryC s).calls ∧ s.length < line.length ∧
      ∀ c ∈ s, c ∈ line := by
  rw [parseNarseseC] at h
  obtain ⟨r, hr, h⟩ := R.bind_ok.1 h
  simp only at h
  split at h
  · left; rw [← Except.ok.inj h]
  · rename_i hne
    obtain ⟨c, _, h⟩ := R.bind_ok.1 h
    split at h
    · left; rw [← Except.ok.inj h]
    · right
      rw [← Except.ok.inj h]
      have s1 : r.1.Sublist (cutEvent (tightenStars line)).1 := by
        rw [parseNarseseRetTv] at hr
        split at hr
        · obtain ⟨c, _, hr⟩ := R.bind_ok.1 hr
          split at hr
          · exact scanTv_sublist hr
          · rw [← Except.ok.inj hr]
        · rw [← Except.ok.inj hr]
      have s2 : (cutEvent (tightenStars line)).1.Sublist (tightenStars line) := by
        conv => rhs; rw [cutEvent_spec (tightenStars line)]
        exact List.sublist_append_left _ _
      have s3 : (tightenStars line).Sublist line := by
        rw [tightenStars_eq]
        exact (dropBeforeStar_sublist _).trans (dropAfterStar_sublist _ _)
      have s4 : (trimEnd r.1).Sublist r.1 := by
        obtain ⟨b, hb, _⟩ := trimEnd_spec r.1
        conv => rhs; rw [hb]
        exact List.sublist_append_left _ _
      have s5 := ((s4.trans s1).trans s2).trans s3
      refine ⟨(trimEnd r.1).dropLast, rfl, ?_, fun c hc => s5.subset (List.dropLast_subset _ hc)⟩
      have h1 := s5.length_le
      have h2 : (trimEnd r.1) ≠ [] := by
        intro h0; rw [h0] at hne; exact hne rfl
      have h3 := List.length_pos_iff.2 h2
      rw [List.length_dropLast]; omega

/-- a plain line: text and a full stop -/
theorem parseNarseseC_plain (pf : List Char → Option Rat) (i : List Char) (hA : Ascii i)
    (hs : '*' ∉ i) : parseNarseseC pf (i ++ ['.']) =
      .ok ⟨(parseEntryC i).calls,
        (parseEntryC i).res.map fun x => (x.1, ⟨1, 9/10⟩, .JUGEMENT, false)⟩ := by
  have hA2 : Ascii (i ++ ['.']) := ascii_append hA (by unfold Ascii; decide)
  have e1 : tightenStars (i ++ ['.']) = i ++ ['.'] :=
    tightenStars_tight (tight_of_no_star (by simp [hs]))
  have e2 : cutEvent (i ++ ['.']) = (i ++ ['.'], false) := cutEvent_no (by simp)
  have hb : byteLen (i ++ ['.']) = i.length + 1 := by rw [byteLen_ascii hA2]; simp
  have e4 : trimEnd (i ++ ['.']) = i ++ ['.'] := by
    have := trimEnd_append i '.' (by decide) [] (by simp)
    simpa using this
  have hu : unwrap (i ++ ['.'])[byteLen (i ++ ['.']) - 1]? = (.ok '.' : R Char) := by
    rw [hb]; simp [unwrap]
  have e3 : parseNarseseRetTv pf (i ++ ['.']) = .ok (i ++ ['.'], ⟨1, 9/10⟩) := by
    rw [parseNarseseRetTv, if_pos (by rw [hb]; omega), hu]
    rfl
  unfold parseNarseseC
  simp only [e1, e2]
  rw [e3]
  show (if byteLen (trimEnd (i ++ ['.'])) = 0 then _ else _) = _
  rw [e4, if_neg (by rw [hb]; omega), hu]
  show Except.ok _ = _
  simp [punctOf]

theorem parseNarseseC_res (pf : List Char → Option Rat) (line : List Char) :
    (parseNarseseC pf line).map Count.res = parseNarsese pf line := by
  unfold parseNarseseC parseNarsese
  simp only
  rcases parseNarseseRetTv pf (cutEvent (tightenStars line)).1 with e | r
  · rfl
  · show Except.map _ (if _ then _ else _) = (if _ then _ else _)
    split
    · rfl
    · rcases unwrap (trimEnd r.1)[byteLen (trimEnd r.1) - 1]? with e | c
      · rfl
      · show Except.map _ (match punctOf c with | none => _ | some p => _) =
          (match punctOf c with | none => _ | some p => _)
        rcases punctOf c with _ | p
        · rfl
        · simp only
          rw [parseEntry, ← parseSubjOrPredC_res]
          show Except.ok _ = _
          unfold parseEntryC
          rcases (parseSubjOrPredC ((trimEnd r.1).dropLast.length + 1) (trimEnd r.1).dropLast).res with _ | x
          · rfl
          · rfl

/-! ## Families of texts -/

theorem firstOfC_open (rc : List Char → Count (Term × List Char)) (j : List Char)
    (h : (rc j).res = none) (hb : ∀ k, j ≠ '!' :: k) :
    firstOfC (termAlternativesC rc) ('(' :: j) = ⟨9 * (rc j).calls, none⟩ := by
  have t1 : tag ['('] ('(' :: j) = some j := by simp [tag]
  have t2 : tag ['(', '!'] ('(' :: j) = none := by
    rcases ht : tag ['(', '!'] ('(' :: j) with _ | r
    · rfl
    · have := (tag_iff _ _ _).1 ht
      simp at this
      exact absurd this (hb r)
  have o : ∀ {β : Type} (f : Term × List Char → Count β),
      (ofOpt (some j) >>= fun j => rc j >>= f) = ⟨(rc j).calls, none⟩ := by
    intro β f
    rw [Count.bind_some (a := j) rfl, Count.bind_none h]; simp
  simp only [firstOfC, termAlternativesC, parseSeqC, parseIntInt2C, parseExtInt2C,
    parseSetExtC, parseSetIntC, parseNegC, parseProdC, parseImg0C, parseImg1C, parseConj2C,
    parseConj3C, parseConj4C, parseStatementC, parseQVar, parseDepVar, parseIndepVar, parseName,
    t1, t2, tag_head_ne (show '(' ≠ '{' by decide), tag_head_ne (show '(' ≠ '[' by decide),
    tag_head_ne (show '(' ≠ '<' by decide), tag_head_ne (show '(' ≠ '?' by decide),
    tag_head_ne (show '(' ≠ '#' by decide), tag_head_ne (show '(' ≠ '$' by decide),
    alpha2_head (show isValidSign '(' = false by decide), o, ofOpt_none_bind,
    Option.bind_eq_bind, Option.bind_none, Count.ofOpt_res, Count.ofOpt_calls]
  congr 1
  omega

theorem parens_calls (n N : Nat) (h : n < N) :
    (parseSubjOrPredC N (List.replicate n '(')).res = none ∧
      8 * (parseSubjOrPredC N (List.replicate n '(')).calls + 1 = 9 ^ (n + 1) := by
  induction n generalizing N with
  | zero =>
    obtain ⟨N, rfl⟩ : ∃ k, N = k + 1 := ⟨N - 1, by omega⟩
    exact ⟨rfl, rfl⟩
  | succ n ih =>
    obtain ⟨N, rfl⟩ : ∃ k, N = k + 1 := ⟨N - 1, by omega⟩
    obtain ⟨h1, h2⟩ := ih N (by omega)
    rw [List.replicate_succ, parseSubjOrPredC, firstOfC_open _ _ h1 (by cases n <;> simp [List.replicate_succ])]
    refine ⟨rfl, ?_⟩
    show 8 * (9 * _ + 1) + 1 = _
    rw [pow_succ, ← h2]; ring

theorem firstOfC_conj (rc : List Char → Count (Term × List Char)) (j r : List Char) (t : Term) (n m k : Nat)
    (h1 : rc j = ⟨n, some (t, '&' :: '&' :: 'a' :: ')' :: r)⟩)
    (h2 : rc ('&' :: 'a' :: ')' :: r) = ⟨m, none⟩)
    (h3 : rc ('a' :: ')' :: r) = ⟨k, some (.Name "a", ')' :: r)⟩) (hb : ∀ k, j ≠ '!' :: k) :
    firstOfC (termAlternativesC rc) ('(' :: j) = ⟨7 * n + m + k, some (.Conj [t, .Name "a"], r)⟩ := by
  have t1 : tag ['('] ('(' :: j) = some j := by simp [tag]
  have t2 : tag ['(', '!'] ('(' :: j) = none := by
    rcases ht : tag ['(', '!'] ('(' :: j) with _ | r
    · rfl
    · have := (tag_iff _ _ _).1 ht
      simp at this
      exact absurd this (hb r)
  have o : ∀ {β : Type} (f : Term × List Char → Count β),
      (ofOpt (some j) >>= fun j => rc j >>= f) =
        ⟨n + (f (t, '&' :: '&' :: 'a' :: ')' :: r)).calls, (f (t, '&' :: '&' :: 'a' :: ')' :: r)).res⟩ := by
    intro β f
    rw [Count.bind_some (a := j) rfl, Count.bind_some (by rw [h1]), h1]
    simp
  have u1 : tag ['&'] ('&' :: '&' :: 'a' :: ')' :: r) = some ('&' :: 'a' :: ')' :: r) := by simp [tag]
  have u2 : tag ['&', '&'] ('&' :: '&' :: 'a' :: ')' :: r) = some ('a' :: ')' :: r) := by simp [tag]
  have u3 : tag [')'] (')' :: r) = some r := by simp [tag]
  have o2 : ∀ {β : Type} (f : Term × List Char → Count β),
      (ofOpt (some ('&' :: 'a' :: ')' :: r)) >>= fun j => rc j >>= f) = ⟨m, none⟩ := by
    intro β f
    rw [Count.bind_some (a := '&' :: 'a' :: ')' :: r) rfl, Count.bind_none (by rw [h2]), h2]
    simp
  have o3 : ∀ {β : Type} (f : Term × List Char → Count β),
      (ofOpt (some ('a' :: ')' :: r)) >>= fun j => rc j >>= f) =
        ⟨k + (f (.Name "a", ')' :: r)).calls, (f (.Name "a", ')' :: r)).res⟩ := by
    intro β f
    rw [Count.bind_some (a := 'a' :: ')' :: r) rfl, Count.bind_some (by rw [h3]), h3]
    simp
  have o4 : ∀ (x : Term), (ofOpt (some r) >>= fun i => (pure (x, i) : Count (Term × List Char))) = ⟨0, some (x, r)⟩ :=
    fun x => rfl
  simp only [firstOfC, termAlternativesC, parseSeqC, parseIntInt2C, parseExtInt2C,
    parseSetExtC, parseSetIntC, parseNegC, parseProdC, parseImg0C, parseImg1C, parseConj2C,
    t1, t2, tag_head_ne (show '(' ≠ '{' by decide), tag_head_ne (show '(' ≠ '[' by decide),
    o, tag_head_ne (show '&' ≠ ',' by decide), tag_head_ne (show '&' ≠ '|' by decide),
    tag_head_ne (show '&' ≠ '*' by decide), tag_head_ne (show '&' ≠ ' ' by decide),
    u1, u2, u3, o2, o3, o4, ofOpt_none_bind]
  congr 1
  omega

theorem leftConj_start (n : Nat) (r : List Char) : ∀ k, notation' (leftConj n) ++ r ≠ '!' :: k := by
  intro k h
  cases n with
  | zero => simp [leftConj, notation'] at h
  | succ n => simp [leftConj, notation'] at h

theorem leftConj_text (n : Nat) (r : List Char) : notation' (leftConj (n + 1)) ++ r =
    '(' :: (notation' (leftConj n) ++ '&' :: '&' :: 'a' :: ')' :: r) := by
  simp [leftConj, notation', notationL]

theorem leftConj_length (n : Nat) : (notation' (leftConj n)).length = 5 * n + 1 := by
  induction n with
  | zero => rfl
  | succ n ih =>
    have := congrArg List.length (leftConj_text n [])
    simp at this
    omega

theorem leftConj_calls (n N : Nat) (h : n < N) (r : List Char)
    (hc : ∀ d k, r = d :: k → isValidSign d = false) :
    ∃ m, parseSubjOrPredC N (notation' (leftConj n) ++ r) = ⟨m, some (leftConj n, r)⟩ ∧
      2 * m + 1 = 3 * 7 ^ n := by
  have name : ∀ N r, (∀ d k, r = d :: k → isValidSign d = false) →
      parseSubjOrPredC (N + 1) ('a' :: r) = ⟨1, some (.Name "a", r)⟩ := by
    intro N r hc
    have ha : alpha2 ('a' :: r) = some ("a", r) := by
      cases r with
      | nil => simp [alpha2, List.takeWhile, show isValidSign 'a' = true from by decide]
      | cons c r =>
        simp [alpha2, List.takeWhile, hc c r rfl, show isValidSign 'a' = true from by decide]
    simp only [parseSubjOrPredC, firstOfC, termAlternativesC, parseSeqC, parseIntInt2C, parseExtInt2C,
      parseSetExtC, parseSetIntC, parseNegC, parseProdC, parseImg0C, parseImg1C, parseConj2C,
      parseConj3C, parseConj4C, parseStatementC, parseQVar, parseDepVar, parseIndepVar, parseName,
      tag_head_ne (show 'a' ≠ '{' by decide), tag_head_ne (show 'a' ≠ '[' by decide),
      tag_head_ne (show 'a' ≠ '(' by decide),
      tag_head_ne (show 'a' ≠ '<' by decide), tag_head_ne (show 'a' ≠ '?' by decide),
      tag_head_ne (show 'a' ≠ '#' by decide), tag_head_ne (show 'a' ≠ '$' by decide),
      ofOpt_none_bind, Option.bind_eq_bind, Option.bind_none, Option.bind_some, ha,
      Count.ofOpt_res, Count.ofOpt_calls, Nat.zero_add]
  induction n generalizing N r with
  | zero =>
    obtain ⟨N, rfl⟩ : ∃ k, N = k + 1 := ⟨N - 1, by omega⟩
    exact ⟨1, name N r hc, rfl⟩
  | succ n ih =>
    obtain ⟨N, rfl⟩ : ∃ k, N = k + 1 := ⟨N - 1, by omega⟩
    obtain ⟨m, h1, h2⟩ := ih N (by omega) ('&' :: '&' :: 'a' :: ')' :: r)
      (fun d k hd => by simp at hd; rw [← hd.1]; decide)
    obtain ⟨N, rfl⟩ : ∃ k, N = k + 1 := ⟨N - 1, by omega⟩
    have h3 := name N (')' :: r) (fun d k hd => by simp at hd; rw [← hd.1]; decide)
    have h4 : parseSubjOrPredC (N + 1) ('&' :: 'a' :: ')' :: r) = ⟨1, none⟩ := by
      simp only [parseSubjOrPredC, firstOfC, termAlternativesC, parseSeqC, parseIntInt2C, parseExtInt2C,
        parseSetExtC, parseSetIntC, parseNegC, parseProdC, parseImg0C, parseImg1C, parseConj2C,
        parseConj3C, parseConj4C, parseStatementC, parseQVar, parseDepVar, parseIndepVar, parseName,
        tag_head_ne (show '&' ≠ '{' by decide), tag_head_ne (show '&' ≠ '[' by decide),
        tag_head_ne (show '&' ≠ '(' by decide),
        tag_head_ne (show '&' ≠ '<' by decide), tag_head_ne (show '&' ≠ '?' by decide),
        tag_head_ne (show '&' ≠ '#' by decide), tag_head_ne (show '&' ≠ '$' by decide),
        ofOpt_none_bind, Option.bind_eq_bind, Option.bind_none,
        alpha2_head (show isValidSign '&' = false by decide),
        Count.ofOpt_res, Count.ofOpt_calls, Nat.zero_add]
    rw [leftConj_text, parseSubjOrPredC,
      firstOfC_conj (parseSubjOrPredC (N + 1)) _ (r) (leftConj n) m 1 1 h1 h4 h3 (leftConj_start _ _)]
    exact ⟨7 * m + 1 + 1 + 1, rfl, by rw [pow_succ]; omega⟩

/-! ## More than any polynomial -/

theorem pow_beats_poly (c k : Nat) : ∃ n, c * (5 * n + 2) ^ k < 2 ^ n := by
  -- n = 2 (k + 1) m with m large
  let K := 2 * (k + 1)
  let m := c * (5 * K) ^ k
  refine ⟨K * (m + 1), ?_⟩
  have h1 : 5 * (K * (m + 1)) + 2 ≤ 5 * K * 2 ^ (m + 1) := by
    have h2 : m + 2 ≤ 2 ^ (m + 1) := Nat.lt_two_pow_self
    have h3 : 5 * K * (m + 2) ≤ 5 * K * 2 ^ (m + 1) := Nat.mul_le_mul_left _ h2
    have h4 : 5 * K * (m + 2) = 5 * (K * (m + 1)) + 5 * K := by ring
    have h5 : 2 ≤ 5 * K := by show 2 ≤ 5 * (2 * (k + 1)); omega
    omega
  have h6 : (5 * (K * (m + 1)) + 2) ^ k ≤ (5 * K) ^ k * 2 ^ ((m + 1) * k) := by
    rw [pow_mul, ← mul_pow]; exact Nat.pow_le_pow_left h1 k
  have h7 : m < 2 ^ (m + 1) := Nat.lt_of_lt_of_le (Nat.lt_succ_self m) (Nat.le_of_lt Nat.lt_two_pow_self)
  calc c * (5 * (K * (m + 1)) + 2) ^ k ≤ c * ((5 * K) ^ k * 2 ^ ((m + 1) * k)) := Nat.mul_le_mul_left _ h6
    _ = m * 2 ^ ((m + 1) * k) := by rw [← mul_assoc]
    _ < 2 ^ (m + 1) * 2 ^ ((m + 1) * k) := Nat.mul_lt_mul_of_pos_right h7 (Nat.pow_pos (by decide))
    _ = 2 ^ ((m + 1) * (k + 1)) := by rw [← pow_add]; congr 1; ring
    _ ≤ 2 ^ (K * (m + 1)) := Nat.pow_le_pow_right (by decide) (by
        show (m + 1) * (k + 1) ≤ 2 * (k + 1) * (m + 1)
        have : 2 * (k + 1) * (m + 1) = 2 * ((m + 1) * (k + 1)) := by ring
        omega)

end Nar
