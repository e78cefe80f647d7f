import Verif.Model.Parser
import Verif.Spec.Parser
import Mathlib.Data.List.TakeWhile
import Mathlib.Tactic.Tauto
/-! # Lemmas about the Narsese term parser -/
namespace Nar

theorem tag_iff (w i r : List Char) : tag w i = some r ↔ i = w ++ r := by
  induction w generalizing i with
  | nil => simp [tag, eq_comm]
  | cons c w ih =>
    cases i with
    | nil => simp [tag]
    | cons d i =>
      simp only [tag, List.cons_append, List.cons.injEq]
      by_cases h : c = d
      · subst h; simp [ih]
      · simp [h]; intro h2; exact absurd h2.symm h

theorem tag_append (w r : List Char) : tag w (w ++ r) = some r := (tag_iff _ _ _).2 rfl

theorem isValidSign_iff (c : Char) : isValidSign c = true ↔ SignChar c := by
  simp [isValidSign, SignChar, or_assoc]

theorem alpha2_iff (i : List Char) (w : String) (r : List Char) :
    alpha2 i = some (w, r) ↔ Word w ∧ i = w.toList ++ r ∧
      (w.toList.length < 512 → ∀ c r', r = c :: r' → ¬ SignChar c) := by
  unfold alpha2
  constructor
  · intro h
    simp only at h
    split at h
    · cases h
    rename_i hne
    simp only [Option.some.injEq, Prod.mk.injEq] at h
    obtain ⟨rfl, rfl⟩ := h
    simp only [String.toList_ofList]
    refine ⟨⟨?_, ?_, ?_⟩, ?_, ?_⟩
    · simp only [String.toList_ofList]
      rcases hh : (i.takeWhile isValidSign).take 512 with _ | ⟨a, b⟩
      · simp [hh] at hne
      · simp
    · simp only [String.toList_ofList]; simp; omega
    · simp only [String.toList_ofList]
      intro c hc
      have := List.mem_of_mem_take hc
      exact (isValidSign_iff c).1 (List.mem_takeWhile_imp this)
    · have hp : (i.takeWhile isValidSign).take 512 <+: i :=
        (List.take_prefix _ _).trans (List.takeWhile_prefix _)
      exact (List.prefix_iff_eq_append.1 hp).symm
    · intro hlen c r' hr
      have h2 : (i.takeWhile isValidSign).take 512 = i.takeWhile isValidSign := by
        apply List.take_of_length_le
        simp at hlen; omega
      rw [h2] at hr
      intro hs
      have h3 : i.drop (i.takeWhile isValidSign).length = i.dropWhile isValidSign := by
        have h4 := List.takeWhile_append_dropWhile (p := isValidSign) (l := i)
        have h5 := List.prefix_iff_eq_append.1 (List.takeWhile_prefix (l := i) isValidSign)
        rw [← h4] at h5
        simpa using List.append_cancel_left (h5.trans (by rw [h4]; exact h4.symm))
      rw [h3] at hr
      have := List.head_dropWhile_not (p := isValidSign) (l := i) (by rw [hr]; simp)
      simp [hr] at this
      exact absurd ((isValidSign_iff c).2 hs) (by simpa using this)
  · rintro ⟨⟨h1, h2, h3⟩, rfl, hb⟩
    have hw : ∀ c ∈ w.toList, isValidSign c = true := fun c hc => (isValidSign_iff c).2 (h3 c hc)
    have key : ((w.toList ++ r).takeWhile isValidSign).take 512 = w.toList := by
      rw [List.takeWhile_append_of_pos hw]
      by_cases hlt : w.toList.length < 512
      · have : r.takeWhile isValidSign = [] := by
          cases r with
          | nil => rfl
          | cons c r' =>
            have := hb hlt c r' rfl
            rw [← isValidSign_iff] at this
            simp [List.takeWhile, this]
        rw [this, List.append_nil]
        exact List.take_of_length_le (by omega)
      · have hlen : w.toList.length = 512 := by omega
        rw [← hlen, List.take_left]
    simp only [key]
    rw [if_neg]
    · simp [String.ofList_toList]
    · intro h
      rw [List.isEmpty_iff] at h
      rw [h] at h1; simp at h1

/-! ## Soundness -/

/-- what a correct term reader guarantees -/
def SoundRec (rec : List Char → Option (Term × List Char)) : Prop :=
  ∀ i t r, rec i = some (t, r) → Readable t ∧ i = notation' t ++ r ∧ EndsBefore t r

theorem parseCopula_iff (i : List Char) (c : Copula) (r : List Char) :
    parseCopula i = some (c, r) ↔ i = [' '] ++ c.str ++ [' '] ++ r := by
  constructor
  · unfold parseCopula
    intro h
    split at h
    · rename_i h1; simp at h; obtain ⟨rfl, rfl⟩ := h; exact (tag_iff _ _ _).1 h1
    split at h
    · rename_i h1; simp at h; obtain ⟨rfl, rfl⟩ := h; exact (tag_iff _ _ _).1 h1
    split at h
    · rename_i h1; simp at h; obtain ⟨rfl, rfl⟩ := h; exact (tag_iff _ _ _).1 h1
    split at h
    · rename_i h1; simp at h; obtain ⟨rfl, rfl⟩ := h; exact (tag_iff _ _ _).1 h1
    split at h
    · rename_i h1; simp at h; obtain ⟨rfl, rfl⟩ := h; exact (tag_iff _ _ _).1 h1
    · cases h
  · rintro rfl
    cases c <;> simp [parseCopula, Copula.str, tag]

/-- the text of the further terms of a compound -/
def tailN (sep : List Char) (ts : List Term) : List Char :=
  ts.flatMap (fun t => sep ++ notation' t)

theorem notationL_cons (sep : List Char) (a : Term) (ts : List Term) :
    notationL sep (a :: ts) = notation' a ++ tailN sep ts := by
  induction ts generalizing a with
  | nil => simp [notationL, tailN]
  | cons b ts ih =>
    rw [notationL, ih]
    simp [tailN]

theorem moreTerms_sound {rec} (hrec : SoundRec rec) (sep : List Char) (n : Nat) (i : List Char)
    (ts : List Term) (r : List Char) (h : moreTerms rec sep n i = some (ts, r)) :
    (∀ t ∈ ts, Readable t) ∧ i = tailN sep ts ++ r := by
  induction n generalizing i ts with
  | zero => simp [moreTerms] at h
  | succ n ih =>
    rw [moreTerms] at h
    split at h
    · simp at h; obtain ⟨rfl, rfl⟩ := h; simp [tailN]
    · rename_i i2 ht
      simp only [Option.bind_eq_bind, Option.bind_eq_some_iff, Option.some.injEq] at h
      obtain ⟨⟨t, i3⟩, h1, ⟨ts2, i4⟩, h2, h3⟩ := h
      simp only [Prod.mk.injEq] at h3
      obtain ⟨rfl, rfl⟩ := h3
      obtain ⟨a1, a2, -⟩ := hrec _ _ _ h1
      obtain ⟨b1, b2⟩ := ih _ _ h2
      rw [tag_iff] at ht
      refine ⟨?_, ?_⟩
      · intro t' ht'
        rcases List.mem_cons.1 ht' with rfl | h'
        · exact a1
        · exact b1 _ h'
      · rw [ht, show i2 = notation' t ++ i3 from a2, show i3 = tailN sep ts2 ++ i4 from b2]; simp [tailN]

theorem firstOf_some {ps i x} (h : firstOf ps i = some x) : ∃ p ∈ ps, p i = some x := by
  induction ps with
  | nil => simp [firstOf] at h
  | cons p ps ih =>
    rw [firstOf] at h
    split at h
    · rename_i hp; simp at h; subst h; exact ⟨p, by simp, hp⟩
    · obtain ⟨q, hq, hq2⟩ := ih h; exact ⟨q, by simp [hq], hq2⟩

theorem natStr_one : natStr 1 = ['1'] := by decide
theorem natStr_two : natStr 2 = ['2'] := by decide

theorem alternatives_sound {rec} (hrec : SoundRec rec) :
    ∀ p ∈ termAlternatives rec, SoundRec p := by
  intro p hp i t r h
  simp only [termAlternatives, List.mem_cons, List.not_mem_nil, or_false] at hp
  rcases hp with rfl|rfl|rfl|rfl|rfl|rfl|rfl|rfl|rfl|rfl|rfl|rfl|rfl|rfl|rfl|rfl|rfl
  · -- SetExt
    simp only [parseSetExt, Option.bind_eq_bind, Option.bind_eq_some_iff, tag_iff,
      Option.some.injEq, Prod.mk.injEq, Prod.exists] at h
    obtain ⟨_, rfl, a, i1, h1, _, rfl, rfl, rfl⟩ := h
    obtain ⟨a1, rfl, a3⟩ := hrec _ _ _ h1
    exact ⟨.setExt a1, by simp [notation', notationL], trivial⟩
  · -- Seq
    simp only [parseSeq, Option.bind_eq_bind, Option.bind_eq_some_iff, tag_iff,
      Option.some.injEq, Prod.mk.injEq, Prod.exists] at h
    obtain ⟨_, rfl, a, i1, h1, _, rfl, b, i2, h2, ts, i3, h3, _, rfl, rfl, rfl⟩ := h
    obtain ⟨a1, rfl, a3⟩ := hrec _ _ _ h1
    obtain ⟨b1, rfl, b3⟩ := hrec _ _ _ h2
    obtain ⟨c1, rfl⟩ := moreTerms_sound hrec _ _ _ _ _ h3
    refine ⟨.seq (by simp) (by simp only [List.mem_cons]; rintro t (rfl|rfl|ht); exacts [a1, b1, c1 _ ht]), ?_, trivial⟩
    simp [notation', notationL_cons, tailN]
  · -- IntInt
    simp only [parseIntInt2, Option.bind_eq_bind, Option.bind_eq_some_iff, tag_iff,
      Option.some.injEq, Prod.mk.injEq, Prod.exists] at h
    obtain ⟨_, rfl, a, i1, h1, _, rfl, b, i2, h2, _, rfl, rfl, rfl⟩ := h
    obtain ⟨a1, rfl, a3⟩ := hrec _ _ _ h1
    obtain ⟨b1, rfl, b3⟩ := hrec _ _ _ h2
    exact ⟨.intInt a1 b1, by simp [notation', notationL], trivial⟩
  · simp only [parseExtInt2, Option.bind_eq_bind, Option.bind_eq_some_iff, tag_iff,
      Option.some.injEq, Prod.mk.injEq, Prod.exists] at h
    obtain ⟨_, rfl, a, i1, h1, _, rfl, b, i2, h2, _, rfl, rfl, rfl⟩ := h
    obtain ⟨a1, rfl, a3⟩ := hrec _ _ _ h1
    obtain ⟨b1, rfl, b3⟩ := hrec _ _ _ h2
    exact ⟨.extInt a1 b1, by simp [notation', notationL], trivial⟩
  · simp only [parseSetInt, Option.bind_eq_bind, Option.bind_eq_some_iff, tag_iff,
      Option.some.injEq, Prod.mk.injEq, Prod.exists] at h
    obtain ⟨_, rfl, a, i1, h1, _, rfl, rfl, rfl⟩ := h
    obtain ⟨a1, rfl, a3⟩ := hrec _ _ _ h1
    exact ⟨.setInt a1, by simp [notation', notationL], trivial⟩
  · simp only [parseNeg, Option.bind_eq_bind, Option.bind_eq_some_iff, tag_iff,
      Option.some.injEq, Prod.mk.injEq, Prod.exists] at h
    obtain ⟨_, rfl, a, i1, h1, _, rfl, rfl, rfl⟩ := h
    obtain ⟨a1, rfl, a3⟩ := hrec _ _ _ h1
    exact ⟨.neg a1, by simp [notation'], trivial⟩
  · simp only [parseProd, Option.bind_eq_bind, Option.bind_eq_some_iff, tag_iff,
      Option.some.injEq, Prod.mk.injEq, Prod.exists] at h
    obtain ⟨_, rfl, a, i1, h1, _, rfl, b, i2, h2, ts, i3, h3, _, rfl, rfl, rfl⟩ := h
    obtain ⟨a1, rfl, a3⟩ := hrec _ _ _ h1
    obtain ⟨b1, rfl, b3⟩ := hrec _ _ _ h2
    obtain ⟨c1, rfl⟩ := moreTerms_sound hrec _ _ _ _ _ h3
    refine ⟨.prod (by simp) (by simp only [List.mem_cons]; rintro t (rfl|rfl|ht); exacts [a1, b1, c1 _ ht]), ?_, trivial⟩
    simp [notation', notationL_cons, tailN]
  · simp only [parseImg0, Option.bind_eq_bind, Option.bind_eq_some_iff, tag_iff,
      Option.some.injEq, Prod.mk.injEq, Prod.exists] at h
    obtain ⟨_, rfl, a, i1, h1, _, rfl, b, i2, h2, _, rfl, rfl, rfl⟩ := h
    obtain ⟨a1, rfl, a3⟩ := hrec _ _ _ h1
    obtain ⟨b1, rfl, b3⟩ := hrec _ _ _ h2
    exact ⟨.img (by omega) a1 b1, by simp [notation', notationL, natStr_one], trivial⟩
  · simp only [parseImg1, Option.bind_eq_bind, Option.bind_eq_some_iff, tag_iff,
      Option.some.injEq, Prod.mk.injEq, Prod.exists] at h
    obtain ⟨_, rfl, a, i1, h1, _, rfl, b, i2, h2, _, rfl, rfl, rfl⟩ := h
    obtain ⟨a1, rfl, a3⟩ := hrec _ _ _ h1
    obtain ⟨b1, rfl, b3⟩ := hrec _ _ _ h2
    exact ⟨.img (by omega) a1 b1, by simp [notation', notationL, natStr_two], trivial⟩
  · simp only [parseConj2, Option.bind_eq_bind, Option.bind_eq_some_iff, tag_iff,
      Option.some.injEq, Prod.mk.injEq, Prod.exists] at h
    obtain ⟨_, rfl, a, i1, h1, _, rfl, b, i2, h2, _, rfl, rfl, rfl⟩ := h
    obtain ⟨a1, rfl, a3⟩ := hrec _ _ _ h1
    obtain ⟨b1, rfl, b3⟩ := hrec _ _ _ h2
    exact ⟨.conj (by simp) (by simp) (by simp [a1, b1]), by simp [notation', notationL], trivial⟩
  · simp only [parseConj3, Option.bind_eq_bind, Option.bind_eq_some_iff, tag_iff,
      Option.some.injEq, Prod.mk.injEq, Prod.exists] at h
    obtain ⟨_, rfl, a, i1, h1, _, rfl, b, i2, h2, _, rfl, c, i3, h3, _, rfl, rfl, rfl⟩ := h
    obtain ⟨a1, rfl, a3⟩ := hrec _ _ _ h1
    obtain ⟨b1, rfl, b3⟩ := hrec _ _ _ h2
    obtain ⟨c1, rfl, c3⟩ := hrec _ _ _ h3
    exact ⟨.conj (by simp) (by simp) (by simp [a1, b1, c1]), by simp [notation', notationL], trivial⟩
  · simp only [parseConj4, Option.bind_eq_bind, Option.bind_eq_some_iff, tag_iff,
      Option.some.injEq, Prod.mk.injEq, Prod.exists] at h
    obtain ⟨_, rfl, a, i1, h1, _, rfl, b, i2, h2, _, rfl, c, i3, h3, _, rfl, d, i4, h4, _, rfl, rfl, rfl⟩ := h
    obtain ⟨a1, rfl, a3⟩ := hrec _ _ _ h1
    obtain ⟨b1, rfl, b3⟩ := hrec _ _ _ h2
    obtain ⟨c1, rfl, c3⟩ := hrec _ _ _ h3
    obtain ⟨d1, rfl, d3⟩ := hrec _ _ _ h4
    exact ⟨.conj (by simp) (by simp) (by simp [a1, b1, c1, d1]), by simp [notation', notationL], trivial⟩
  · simp only [parseStatement, Option.bind_eq_bind, Option.bind_eq_some_iff, tag_iff,
      Option.some.injEq, Prod.mk.injEq, Prod.exists, parseCopula_iff] at h
    obtain ⟨_, rfl, a, i1, h1, c, i3, h3, b, i2, h2, _, rfl, rfl, rfl⟩ := h
    obtain ⟨a1, rfl, a3⟩ := hrec _ _ _ h1
    obtain ⟨b1, rfl, b3⟩ := hrec _ _ _ h2
    exact ⟨.stmt a1 b1, by simp [notation', h3], trivial⟩
  · simp only [parseQVar, Option.bind_eq_bind, Option.bind_eq_some_iff, tag_iff,
      Option.some.injEq, Prod.mk.injEq, Prod.exists, alpha2_iff] at h
    obtain ⟨_, rfl, w, r2, ⟨hw, rfl, hb⟩, rfl, rfl⟩ := h
    exact ⟨.qvar hw, by simp [notation'], hb⟩
  · simp only [parseDepVar, Option.bind_eq_bind, Option.bind_eq_some_iff, tag_iff,
      Option.some.injEq, Prod.mk.injEq, Prod.exists, alpha2_iff] at h
    obtain ⟨_, rfl, w, r2, ⟨hw, rfl, hb⟩, rfl, rfl⟩ := h
    exact ⟨.depvar hw, by simp [notation'], hb⟩
  · simp only [parseIndepVar, Option.bind_eq_bind, Option.bind_eq_some_iff, tag_iff,
      Option.some.injEq, Prod.mk.injEq, Prod.exists, alpha2_iff] at h
    obtain ⟨_, rfl, w, r2, ⟨hw, rfl, hb⟩, rfl, rfl⟩ := h
    exact ⟨.indepvar hw, by simp [notation'], hb⟩
  · simp only [parseName, Option.bind_eq_bind, Option.bind_eq_some_iff,
      Option.some.injEq, Prod.mk.injEq, Prod.exists, alpha2_iff] at h
    obtain ⟨w, r2, ⟨hw, rfl, hb⟩, rfl, rfl⟩ := h
    exact ⟨.name hw, by simp [notation'], hb⟩

theorem parseSubjOrPred_sound (n : Nat) : SoundRec (parseSubjOrPred n) := by
  induction n with
  | zero => intro i t r h; simp [parseSubjOrPred] at h
  | succ n ih =>
    intro i t r h
    rw [parseSubjOrPred] at h
    obtain ⟨p, hp, h⟩ := firstOf_some h
    exact alternatives_sound ih p hp i t r h

/-! ## Completeness -/

theorem endsBefore_cons {c : Char} (h : ¬ SignChar c) (t : Term) (r : List Char) :
    EndsBefore t (c :: r) := by
  cases t <;> simp [EndsBefore] <;> intros <;> assumption

/-- characters a term can begin with -/
def StartChar (c : Char) : Prop :=
  SignChar c ∨ c = '?' ∨ c = '#' ∨ c = '$' ∨ c = '<' ∨ c = '(' ∨ c = '[' ∨ c = '{'

instance : DecidablePred StartChar := fun c => by unfold StartChar; infer_instance

theorem word_cons {w : String} (hw : Word w) : ∃ c l, w.toList = c :: l ∧ SignChar c := by
  obtain ⟨h1, -, h3⟩ := hw
  rcases h : w.toList with _ | ⟨c, l⟩
  · rw [h] at h1; simp at h1
  · exact ⟨c, l, rfl, h3 c (by simp [h])⟩

theorem notation_start {t : Term} (h : Readable t) : ∃ c l, notation' t = c :: l ∧ StartChar c := by
  cases h with
  | name hw => obtain ⟨c, l, h1, h2⟩ := word_cons hw; exact ⟨c, l, by simp [notation', h1], .inl h2⟩
  | _ => exact ⟨_, _, by simp only [notation', List.cons_append]; rfl, by decide⟩

theorem notStart_none {rec} (hrec : SoundRec rec) {c : Char} (hc : ¬ StartChar c) (r : List Char) :
    rec (c :: r) = none := by
  rcases h : rec (c :: r) with _ | ⟨t, r2⟩
  · rfl
  · obtain ⟨h1, h2, -⟩ := hrec _ _ _ h
    obtain ⟨d, l, h3, h4⟩ := notation_start h1
    rw [h3] at h2
    simp at h2
    rw [h2.1] at hc
    exact absurd h4 hc

/-- the reader reads every text shorter than `N` -/
def CompleteRec (rec : List Char → Option (Term × List Char)) (N : Nat) : Prop :=
  ∀ t r, Readable t → EndsBefore t r → (notation' t).length < N → rec (notation' t ++ r) = some (t, r)

theorem moreTerms_complete {rec N} (hc : CompleteRec rec N) {s : Char} (hs : ¬ SignChar s)
    (hs2 : s ≠ ')') (ts : List Term) (hts : ∀ t ∈ ts, Readable t ∧ (notation' t).length < N)
    (m : Nat) (hm : ts.length < m) (r : List Char) :
    moreTerms rec [s] m (tailN [s] ts ++ ')' :: r) = some (ts, ')' :: r) := by
  induction ts generalizing m with
  | nil =>
    cases m with
    | zero => simp at hm
    | succ m => simp [moreTerms, tailN, tag, hs2]
  | cons t ts ih =>
    cases m with
    | zero => simp at hm
    | succ m =>
      have e : EndsBefore t (tailN [s] ts ++ ')' :: r) := by
        cases ts with
        | nil => exact endsBefore_cons (by decide) _ _
        | cons b ts => simp only [tailN, List.flatMap_cons, List.cons_append, List.nil_append]; exact endsBefore_cons hs _ _
      have h1 := hc t _ (hts t (by simp)).1 e (hts t (by simp)).2
      have h2 := ih (fun t ht => hts t (by simp [ht])) m (by simp at hm; omega)
      have : tailN [s] (t :: ts) ++ ')' :: r = [s] ++ (notation' t ++ (tailN [s] ts ++ ')' :: r)) := by
        simp [tailN]
      rw [this, moreTerms, tag_append]
      simp [h1, h2]

theorem tailN_length (s : Char) (ts : List Term) : ts.length ≤ (tailN [s] ts).length := by
  induction ts with
  | nil => simp [tailN]
  | cons t ts ih => simp [tailN] at *; omega

theorem mem_tailN_length {s : Char} {ts : List Term} {t : Term} (h : t ∈ ts) :
    (notation' t).length < (tailN [s] ts).length := by
  induction ts with
  | nil => simp at h
  | cons b ts ih =>
    simp [tailN] at *
    rcases h with rfl | h
    · omega
    · have := ih h; omega

set_option maxHeartbeats 1000000 in
set_option linter.unusedSimpArgs false in
theorem alternatives_complete {rec N} (hS : SoundRec rec) (hC : CompleteRec rec N) :
    CompleteRec (firstOf (termAlternatives rec)) (N + 1) := by
  intro t r ht he hl
  have nb : rec ('!' :: r) = none := notStart_none hS (by decide) _
  cases ht with
  | @name w hw =>
    obtain ⟨c, l, h1, h2⟩ := word_cons hw
    have h3 := (alpha2_iff (w.toList ++ r) w r).2 ⟨hw, rfl, he⟩
    rw [notation', h1] at *
    have : c ≠ '{' ∧ c ≠ '(' ∧ c ≠ '[' ∧ c ≠ '<' ∧ c ≠ '?' ∧ c ≠ '#' ∧ c ≠ '$' := by
      refine ⟨?_, ?_, ?_, ?_, ?_, ?_, ?_⟩ <;> (rintro rfl; revert h2; decide)
    obtain ⟨a1, a2, a3, a4, a5, a6, a7⟩ := this
    simp [firstOf, termAlternatives, parseSetExt, parseSetInt, parseSeq, parseProd, parseNeg,
      parseIntInt2, parseExtInt2, parseImg0, parseImg1, parseConj2, parseConj3, parseConj4,
      parseStatement, parseQVar, parseDepVar, parseIndepVar, parseName, tag,
      Ne.symm a1, Ne.symm a2, Ne.symm a3, Ne.symm a4, Ne.symm a5, Ne.symm a6, Ne.symm a7]
    simp at h3
    rw [h3]; simp
  | @qvar w hw =>
    have h3 := (alpha2_iff (w.toList ++ r) w r).2 ⟨hw, rfl, he⟩
    simp [notation', firstOf, termAlternatives, parseSetExt, parseSetInt, parseSeq, parseProd, parseNeg,
      parseIntInt2, parseExtInt2, parseImg0, parseImg1, parseConj2, parseConj3, parseConj4,
      parseStatement, parseQVar, parseDepVar, parseIndepVar, parseName, tag, h3]
  | @depvar w hw =>
    have h3 := (alpha2_iff (w.toList ++ r) w r).2 ⟨hw, rfl, he⟩
    simp [notation', firstOf, termAlternatives, parseSetExt, parseSetInt, parseSeq, parseProd, parseNeg,
      parseIntInt2, parseExtInt2, parseImg0, parseImg1, parseConj2, parseConj3, parseConj4,
      parseStatement, parseQVar, parseDepVar, parseIndepVar, parseName, tag, h3]
  | @indepvar w hw =>
    have h3 := (alpha2_iff (w.toList ++ r) w r).2 ⟨hw, rfl, he⟩
    simp [notation', firstOf, termAlternatives, parseSetExt, parseSetInt, parseSeq, parseProd, parseNeg,
      parseIntInt2, parseExtInt2, parseImg0, parseImg1, parseConj2, parseConj3, parseConj4,
      parseStatement, parseQVar, parseDepVar, parseIndepVar, parseName, tag, h3]
  | @stmt c a b ha hb =>
    rw [notation'] at hl
    simp at hl
    have h1 := hC a ([' '] ++ c.str ++ [' '] ++ (notation' b ++ ('>' :: r))) ha (endsBefore_cons (by decide) _ _) (by omega)
    have h2 := hC b ('>' :: r) hb (endsBefore_cons (by decide) _ _) (by omega)
    have h3 := (parseCopula_iff _ c _).2 (rfl : [' '] ++ c.str ++ [' '] ++ (notation' b ++ ('>' :: r)) = _)
    simp at h1 h3
    simp [notation', firstOf, termAlternatives, parseSetExt, parseSetInt, parseSeq, parseProd, parseNeg,
      parseIntInt2, parseExtInt2, parseImg0, parseImg1, parseConj2, parseConj3, parseConj4,
      parseStatement, tag, h1, h2, h3]
  | @setExt a ha =>
    simp [notation', notationL] at hl
    have h1 := hC a ('}' :: r) ha (endsBefore_cons (by decide) _ _) (by omega)
    simp [notation', notationL, firstOf, termAlternatives, parseSetExt, tag, h1]
  | @setInt a ha =>
    simp [notation', notationL] at hl
    have h1 := hC a (']' :: r) ha (endsBefore_cons (by decide) _ _) (by omega)
    simp [notation', notationL, firstOf, termAlternatives, parseSetExt, parseSetInt, parseSeq, parseIntInt2, parseExtInt2, tag, h1]
  | @neg a ha =>
    simp [notation'] at hl
    have h1 := hC a (')' :: r) ha (endsBefore_cons (by decide) _ _) (by omega)
    have h0 := fun r => notStart_none hS (c := '!') (by decide) r
    simp [notation', firstOf, termAlternatives, parseSetExt, parseSetInt, parseSeq, parseIntInt2, parseExtInt2, parseNeg, tag, h1, h0]
  | @intInt a b ha hb =>
    simp [notation', notationL] at hl
    have h1 := hC a ('|' :: (notation' b ++ (')' :: r))) ha (endsBefore_cons (by decide) _ _) (by omega)
    have h2 := hC b (')' :: r) hb (endsBefore_cons (by decide) _ _) (by omega)
    simp [notation', notationL, firstOf, termAlternatives, parseSetExt, parseSeq, parseIntInt2, tag, h1, h2]
  | @extInt a b ha hb =>
    simp [notation', notationL] at hl
    have h1 := hC a ('&' :: (notation' b ++ (')' :: r))) ha (endsBefore_cons (by decide) _ _) (by omega)
    have h2 := hC b (')' :: r) hb (endsBefore_cons (by decide) _ _) (by omega)
    simp [notation', notationL, firstOf, termAlternatives, parseSetExt, parseSeq, parseIntInt2, parseExtInt2, tag, h1, h2]
  | @img a i b hi ha hb =>
    have hi2 : i = 0 ∨ i = 1 := by omega
    rcases hi2 with rfl | rfl
    · simp [notation', notationL, natStr_one] at hl
      have h1 := hC a ([' ', '/', '1', ' '] ++ (notation' b ++ (')' :: r))) ha (endsBefore_cons (by decide) _ _) (by omega)
      have h2 := hC b (')' :: r) hb (endsBefore_cons (by decide) _ _) (by omega)
      have nt := notation_start ha
      have nx : '!' :: r ≠ [] := by simp
      obtain ⟨c, l, e1, e2⟩ := nt
      have nc : c ≠ '!' := by rintro rfl; revert e2; decide
      rw [e1] at h1
      simp at h1
      simp [notation', notationL, natStr_one, firstOf, termAlternatives, parseSetExt, parseSetInt, parseSeq, parseIntInt2, parseExtInt2,
        parseNeg, parseProd, parseImg0, tag, h1, h2, e1, Ne.symm nc]
    · simp [notation', notationL, natStr_two] at hl
      have h1 := hC a ([' ', '/', '2', ' '] ++ (notation' b ++ (')' :: r))) ha (endsBefore_cons (by decide) _ _) (by omega)
      have h2 := hC b (')' :: r) hb (endsBefore_cons (by decide) _ _) (by omega)
      obtain ⟨c, l, e1, e2⟩ := notation_start ha
      have nc : c ≠ '!' := by rintro rfl; revert e2; decide
      rw [e1] at h1
      simp at h1
      simp [notation', notationL, natStr_two, firstOf, termAlternatives, parseSetExt, parseSetInt, parseSeq, parseIntInt2, parseExtInt2,
        parseNeg, parseProd, parseImg0, parseImg1, tag, h1, h2, e1, Ne.symm nc]
  | @seq ts h2 hts =>
    match ts, h2, hts with
    | a :: b :: ts, _, hts =>
      simp [notation', notationL_cons, tailN] at hl
      have hlt : (tailN [','] ts).length + (notation' a).length + (notation' b).length + 2 < N := by
        simp [tailN]; omega
      have ha := hC a (',' :: (notation' b ++ (tailN [','] ts ++ (')' :: r)))) (hts a (by simp)) (endsBefore_cons (by decide) _ _) (by omega)
      have eb : EndsBefore b (tailN [','] ts ++ (')' :: r)) := by
        cases ts with
        | nil => exact endsBefore_cons (by decide) _ _
        | cons x ts => simp only [tailN, List.flatMap_cons, List.cons_append, List.nil_append]; exact endsBefore_cons (by decide) _ _
      have hb := hC b _ (hts b (by simp)) eb (by omega)
      have hm := moreTerms_complete hC (s := ',') (by decide) (by decide) ts
        (fun t ht => ⟨hts t (by simp [ht]), by have := mem_tailN_length (s := ',') ht; omega⟩)
        ((tailN [','] ts ++ ')' :: r).length + 1) (by have := tailN_length ',' ts; simp; omega) r
      have e : notation' (.Seq (a :: b :: ts)) ++ r = '(' :: (notation' a ++ ',' :: (notation' b ++ (tailN [','] ts ++ (')' :: r)))) := by
        simp [notation', notationL_cons, tailN]
      rw [e]
      have hq : parseSeq rec ('(' :: (notation' a ++ ',' :: (notation' b ++ (tailN [','] ts ++ (')' :: r))))) =
          some (.Seq (a :: b :: ts), r) := by
        simp only [parseSeq, tag, beq_self_eq_true, ↓reduceIte, ha, hb, hm, Option.bind_eq_bind, Option.bind_some]
      simp [firstOf, termAlternatives, parseSetExt, hq, tag]
  | @prod ts h2 hts =>
    match ts, h2, hts with
    | a :: b :: ts, _, hts =>
      simp [notation', notationL_cons, tailN] at hl
      have hlt : (tailN ['*'] ts).length + (notation' a).length + (notation' b).length + 2 < N := by
        simp [tailN]; omega
      have ha := hC a ('*' :: (notation' b ++ (tailN ['*'] ts ++ (')' :: r)))) (hts a (by simp)) (endsBefore_cons (by decide) _ _) (by omega)
      have eb : EndsBefore b (tailN ['*'] ts ++ (')' :: r)) := by
        cases ts with
        | nil => exact endsBefore_cons (by decide) _ _
        | cons x ts => simp only [tailN, List.flatMap_cons, List.cons_append, List.nil_append]; exact endsBefore_cons (by decide) _ _
      have hb := hC b _ (hts b (by simp)) eb (by omega)
      have hm := moreTerms_complete hC (s := '*') (by decide) (by decide) ts
        (fun t ht => ⟨hts t (by simp [ht]), by have := mem_tailN_length (s := '*') ht; omega⟩)
        ((tailN ['*'] ts ++ ')' :: r).length + 1) (by have := tailN_length '*' ts; simp; omega) r
      have e : notation' (.Prod (a :: b :: ts)) ++ r = '(' :: (notation' a ++ '*' :: (notation' b ++ (tailN ['*'] ts ++ (')' :: r)))) := by
        simp [notation', notationL_cons, tailN]
      rw [e]
      obtain ⟨c, l, e1, e2⟩ := notation_start (hts a (by simp))
      have nc : c ≠ '!' := by rintro rfl; revert e2; decide
      have hq : parseProd rec ('(' :: (notation' a ++ '*' :: (notation' b ++ (tailN ['*'] ts ++ (')' :: r))))) =
          some (.Prod (a :: b :: ts), r) := by
        simp only [parseProd, tag, beq_self_eq_true, ↓reduceIte, ha, hb, hm, Option.bind_eq_bind, Option.bind_some]
      have hn : parseNeg rec ('(' :: (notation' a ++ '*' :: (notation' b ++ (tailN ['*'] ts ++ (')' :: r))))) = none := by
        simp [parseNeg, e1, tag, Ne.symm nc]
      simp [firstOf, termAlternatives, parseSetExt, parseSetInt, parseSeq, parseIntInt2, parseExtInt2, hn, hq, ha, tag]
  | @conj ts h2 h4 hts =>
    have hamp : ∀ x, rec ('&' :: x) = none := fun x => notStart_none hS (by decide) x
    match ts, h2, h4, hts with
    | [a, b], _, _, hts =>
      simp [notation', notationL] at hl
      have h1 := hC a (['&', '&'] ++ (notation' b ++ (')' :: r))) (hts a (by simp)) (endsBefore_cons (by decide) _ _) (by omega)
      have h2 := hC b (')' :: r) (hts b (by simp)) (endsBefore_cons (by decide) _ _) (by omega)
      obtain ⟨c, l, e1, e2⟩ := notation_start (hts a (by simp))
      have nc : c ≠ '!' := by rintro rfl; revert e2; decide
      rw [e1] at h1
      simp at h1
      simp [notation', notationL, firstOf, termAlternatives, parseSetExt, parseSetInt, parseSeq, parseIntInt2, parseExtInt2,
        parseNeg, parseProd, parseImg0, parseImg1, parseConj2, tag, h1, h2, e1, Ne.symm nc, hamp]
    | [a, b, c], _, _, hts =>
      simp [notation', notationL] at hl
      have h1 := hC a (['&', '&'] ++ (notation' b ++ (['&', '&'] ++ (notation' c ++ (')' :: r))))) (hts a (by simp)) (endsBefore_cons (by decide) _ _) (by omega)
      have h2 := hC b (['&', '&'] ++ (notation' c ++ (')' :: r))) (hts b (by simp)) (endsBefore_cons (by decide) _ _) (by omega)
      have h3 := hC c (')' :: r) (hts c (by simp)) (endsBefore_cons (by decide) _ _) (by omega)
      obtain ⟨c, l, e1, e2⟩ := notation_start (hts a (by simp))
      have nc : c ≠ '!' := by rintro rfl; revert e2; decide
      rw [e1] at h1
      simp at h1 h2
      simp [notation', notationL, firstOf, termAlternatives, parseSetExt, parseSetInt, parseSeq, parseIntInt2, parseExtInt2,
        parseNeg, parseProd, parseImg0, parseImg1, parseConj2, parseConj3, tag, h1, h2, h3, e1, Ne.symm nc, hamp]
    | [a, b, c, d], _, _, hts =>
      simp [notation', notationL] at hl
      have h1 := hC a (['&', '&'] ++ (notation' b ++ (['&', '&'] ++ (notation' c ++ (['&', '&'] ++ (notation' d ++ (')' :: r))))))) (hts a (by simp)) (endsBefore_cons (by decide) _ _) (by omega)
      have h2 := hC b (['&', '&'] ++ (notation' c ++ (['&', '&'] ++ (notation' d ++ (')' :: r))))) (hts b (by simp)) (endsBefore_cons (by decide) _ _) (by omega)
      have h3 := hC c (['&', '&'] ++ (notation' d ++ (')' :: r))) (hts c (by simp)) (endsBefore_cons (by decide) _ _) (by omega)
      have h4 := hC d (')' :: r) (hts d (by simp)) (endsBefore_cons (by decide) _ _) (by omega)
      obtain ⟨c, l, e1, e2⟩ := notation_start (hts a (by simp))
      have nc : c ≠ '!' := by rintro rfl; revert e2; decide
      rw [e1] at h1
      simp at h1 h2 h3
      simp [notation', notationL, firstOf, termAlternatives, parseSetExt, parseSetInt, parseSeq, parseIntInt2, parseExtInt2,
        parseNeg, parseProd, parseImg0, parseImg1, parseConj2, parseConj3, parseConj4, tag, h1, h2, h3, h4, e1, Ne.symm nc, hamp]

theorem parseSubjOrPred_complete (n : Nat) : CompleteRec (parseSubjOrPred n) n := by
  induction n with
  | zero => intro t r _ _ h; omega
  | succ n ih => exact alternatives_complete (parseSubjOrPred_sound n) ih

theorem parseSubjOrPred_iff {n : Nat} {i : List Char} (h : i.length < n) (t : Term) (r : List Char) :
    parseSubjOrPred n i = some (t, r) ↔ Readable t ∧ i = notation' t ++ r ∧ EndsBefore t r := by
  constructor
  · exact parseSubjOrPred_sound n i t r
  · rintro ⟨h1, rfl, h3⟩
    exact parseSubjOrPred_complete n t r h1 h3 (by simp at h; omega)

end Nar
