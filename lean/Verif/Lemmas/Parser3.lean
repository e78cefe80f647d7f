import Verif.Lemmas.Parser2
import Mathlib.Data.List.Chain
/-! # Lemmas about reading whole lines, continued -/
namespace Nar

/-! ## Texts without blanks at stars -/

def Tight (s : List Char) : Prop :=
  s.IsChain (fun c d => ¬ (c = '*' ∧ d = ' ') ∧ ¬ (c = ' ' ∧ d = '*'))

def Solid (c : Char) : Prop := c ≠ ' ' ∧ c ≠ '*'

/-- non-empty tight text that begins and ends with a solid character -/
structure Block (s : List Char) : Prop where
  tight : Tight s
  head : ∃ c l, s = c :: l ∧ Solid c
  last : ∃ l c, s = l ++ [c] ∧ Solid c

theorem Block.append_tight {x y} (hx : Block x) (hy : Tight y) : Tight (x ++ y) := by
  unfold Tight
  rw [List.isChain_append]
  refine ⟨hx.tight, hy, ?_⟩
  intro a ha b hb
  obtain ⟨l, c, h, hc⟩ := hx.last
  simp [h] at ha
  subst ha
  exact ⟨fun h => hc.2 h.1, fun h => hc.1 h.1⟩

theorem tight_append_block {x y} (hx : Tight x) (hy : Block y) : Tight (x ++ y) := by
  unfold Tight
  rw [List.isChain_append]
  refine ⟨hx, hy.tight, ?_⟩
  intro a ha b hb
  obtain ⟨c, l, h, hc⟩ := hy.head
  simp [h] at hb
  subst hb
  exact ⟨fun h => hc.1 h.2, fun h => hc.2 h.2⟩

theorem Block.join {x m y} (hx : Block x) (hm : Tight m) (hy : Block y) : Block (x ++ m ++ y) := by
  refine ⟨?_, ?_, ?_⟩
  · rw [List.append_assoc]; exact hx.append_tight (tight_append_block hm hy)
  · obtain ⟨c, l, h, hc⟩ := hx.head; exact ⟨c, l ++ m ++ y, by simp [h], hc⟩
  · obtain ⟨l, c, h, hc⟩ := hy.last; exact ⟨x ++ m ++ l, c, by simp [h], hc⟩

theorem Block.append {x y} (hx : Block x) (hy : Block y) : Block (x ++ y) := by
  simpa using hx.join (List.IsChain.nil) hy

theorem Block.single {c} (h : Solid c) : Block [c] :=
  ⟨List.IsChain.singleton _, ⟨c, [], rfl, h⟩, ⟨[], c, rfl, h⟩⟩

theorem block_of_solid {s : List Char} (hne : s ≠ []) (h : ∀ c ∈ s, Solid c) : Block s := by
  induction s with
  | nil => simp at hne
  | cons c s ih =>
    cases s with
    | nil => exact Block.single (h c (by simp))
    | cons d s =>
      exact (Block.single (h c (by simp))).append (ih (by simp) (fun x hx => h x (by simp [hx])))

theorem signChar_solid {c : Char} (h : SignChar c) : Solid c := by
  constructor <;> (rintro rfl; revert h; decide)

theorem word_block {w : String} (hw : Word w) : Block w.toList := by
  obtain ⟨h1, -, h3⟩ := hw
  exact block_of_solid (by intro h; simp [h] at h1) (fun c hc => signChar_solid (h3 c hc))

theorem notationL_block {sep : List Char} (hs : Tight sep) {ts : List Term} (hne : ts ≠ [])
    (h : ∀ t ∈ ts, Block (notation' t)) : Block (notationL sep ts) := by
  induction ts with
  | nil => simp at hne
  | cons a ts ih =>
    cases ts with
    | nil => simpa [notationL] using h a (by simp)
    | cons b ts =>
      rw [notationL]
      exact (h a (by simp)).join hs (ih (by simp) (fun t ht => h t (by simp [ht])))

theorem block_enclose {a b : Char} (ha : Solid a) (hb : Solid b) {s : List Char} (h : Block s) :
    Block (a :: s ++ [b]) :=
  ((Block.single ha).append h).append (Block.single hb)

theorem tight_of_decide {s : List Char}
    (h : s.IsChain (fun c d => ¬ (c = '*' ∧ d = ' ') ∧ ¬ (c = ' ' ∧ d = '*'))) : Tight s := h

theorem copula_tight (c : Copula) : Tight ([' '] ++ c.str ++ [' ']) := by
  unfold Tight; cases c <;> simp [Copula.str]

theorem notation_block {t : Term} (h : Readable t) : Block (notation' t) := by
  induction h with
  | name hw => exact word_block hw
  | qvar hw => exact (Block.single (by unfold Solid; decide)).append (word_block hw)
  | depvar hw => exact (Block.single (by unfold Solid; decide)).append (word_block hw)
  | indepvar hw => exact (Block.single (by unfold Solid; decide)).append (word_block hw)
  | @stmt c a b _ _ iha ihb =>
    rw [notation']
    have := block_enclose (a := '<') (b := '>') (by unfold Solid; decide) (by unfold Solid; decide)
      (iha.join (copula_tight c) ihb)
    simpa using this
  | setExt _ ih =>
    rw [notation']; exact block_enclose (by unfold Solid; decide) (by unfold Solid; decide)
      (notationL_block (by unfold Tight; simp) (by simp) (by simpa using ih))
  | setInt _ ih =>
    rw [notation']; exact block_enclose (by unfold Solid; decide) (by unfold Solid; decide)
      (notationL_block (by unfold Tight; simp) (by simp) (by simpa using ih))
  | neg _ ih =>
    rw [notation']; exact block_enclose (by unfold Solid; decide) (by unfold Solid; decide)
      ((Block.single (by unfold Solid; decide)).append ih)
  | @seq ts h2 _ ih =>
    rw [notation']; exact block_enclose (by unfold Solid; decide) (by unfold Solid; decide)
      (notationL_block (by unfold Tight; simp) (by rintro rfl; simp at h2) ih)
  | @prod ts h2 _ ih =>
    rw [notation']; exact block_enclose (by unfold Solid; decide) (by unfold Solid; decide)
      (notationL_block (by unfold Tight; simp) (by rintro rfl; simp at h2) ih)
  | @conj ts h2 _ _ ih =>
    rw [notation']; exact block_enclose (by unfold Solid; decide) (by unfold Solid; decide)
      (notationL_block (by unfold Tight; simp) (by rintro rfl; simp at h2) ih)
  | intInt _ _ iha ihb =>
    rw [notation']; exact block_enclose (by unfold Solid; decide) (by unfold Solid; decide)
      (notationL_block (by unfold Tight; simp) (by simp) (by simpa using ⟨iha, ihb⟩))
  | extInt _ _ iha ihb =>
    rw [notation']; exact block_enclose (by unfold Solid; decide) (by unfold Solid; decide)
      (notationL_block (by unfold Tight; simp) (by simp) (by simpa using ⟨iha, ihb⟩))
  | @img r i a hi _ _ ihr iha =>
    rw [notation']
    have : i = 0 ∨ i = 1 := by omega
    have key := block_enclose (a := '(') (b := ')') (by unfold Solid; decide) (by unfold Solid; decide)
      (ihr.join (m := [' ', '/'] ++ natStr (i + 1) ++ [' '])
        (by rcases this with rfl | rfl <;> unfold Tight <;> simp [natStr_one, natStr_two]) iha)
    simpa [notationL] using key

theorem containsPair_of_tight {s : List Char} (h : Tight s) :
    containsPair '*' ' ' s = false ∧ containsPair ' ' '*' s = false := by
  induction s with
  | nil => simp [containsPair]
  | cons c s ih =>
    cases s with
    | nil => simp [containsPair]
    | cons d s =>
      have h2 : Tight (d :: s) := (List.isChain_cons_cons.1 h).2
      have h3 := (List.isChain_cons_cons.1 h).1
      have := ih h2
      simp only [containsPair, Bool.or_eq_false_iff, this, and_true]
      constructor
      · simpa using h3.1
      · simpa using h3.2

theorem tightenStars_tight {s : List Char} (h : Tight s) : tightenStars s = s :=
  tightenStars_id (containsPair_of_tight h).1 (containsPair_of_tight h).2

theorem tight_of_no_star {s : List Char} (h : '*' ∉ s) : Tight s := by
  induction s with
  | nil => exact List.IsChain.nil
  | cons c s ih =>
    simp at h
    cases s with
    | nil => exact List.IsChain.singleton _
    | cons d s =>
      refine List.isChain_cons_cons.2 ⟨⟨fun e => h.1 e.1.symm, fun e => ?_⟩, ih h.2⟩
      simp at h; exact h.2.1 e.2.symm

/-! ## ASCII texts -/

theorem utf8Size_one {c : Char} (h : c.toNat < 128) : c.utf8Size = 1 := by
  rw [Char.utf8Size_eq_one_iff]
  have : c.val.toNat ≤ 127 := by simp only [Char.toNat] at h; omega
  exact UInt32.le_iff_toNat_le.2 this

theorem utf8Size_more {c : Char} (h : ¬ c.toNat < 128) : 2 ≤ c.utf8Size := by
  have h1 : c.utf8Size ≠ 1 := by
    rw [Ne, Char.utf8Size_eq_one_iff]
    intro h2
    have := UInt32.le_iff_toNat_le.1 h2
    simp only [Char.toNat] at h
    exact h (by change _ ≤ 127 at this; omega)
  have := Char.utf8Size_pos c
  omega

theorem byteLen_ascii {s : List Char} (h : Ascii s) : byteLen s = s.length := by
  induction s with
  | nil => rfl
  | cons c s ih =>
    have h1 := utf8Size_one (h c (by simp))
    have h2 := ih (fun d hd => h d (by simp [hd]))
    simp only [byteLen] at h2
    simp [byteLen, h1, h2]; omega

theorem byteLen_ge (s : List Char) : s.length ≤ byteLen s := by
  induction s with
  | nil => simp [byteLen]
  | cons c s ih =>
    have := Char.utf8Size_pos c
    simp only [byteLen] at ih
    simp [byteLen]; omega

theorem byteLen_not_ascii {s : List Char} (h : ¬ Ascii s) : s.length < byteLen s := by
  induction s with
  | nil => simp [Ascii] at h
  | cons c s ih =>
    by_cases hc : c.toNat < 128
    · have : ¬ Ascii s := by
        intro hs; apply h; intro d hd
        rcases List.mem_cons.1 hd with rfl | hd
        · exact hc
        · exact hs d hd
      have h2 := ih this
      have := Char.utf8Size_pos c
      simp only [byteLen] at h2
      simp [byteLen]; omega
    · have h1 := utf8Size_more hc
      have h2 := byteLen_ge s
      simp only [byteLen] at h2
      simp [byteLen]; omega

/-! ## Truth values at the end -/

theorem splitSpace_ne (s : List Char) : splitSpace s ≠ [] := by
  induction s with
  | nil => simp [splitSpace]
  | cons c s ih =>
    rw [splitSpace]
    split
    · simp
    · split <;> simp

theorem splitSpace_one (s a : List Char) : splitSpace s = [a] ↔ s = a ∧ ' ' ∉ a := by
  induction s generalizing a with
  | nil =>
    constructor
    · intro h; simp [splitSpace] at h; subst h; simp
    · rintro ⟨rfl, -⟩; rfl
  | cons c s ih =>
    rw [splitSpace]
    split
    · rename_i h; simp at h; subst h
      simp [splitSpace_ne]
      rintro rfl; simp
    · rename_i h; simp at h
      split
      · rename_i h2; exact absurd h2 (splitSpace_ne s)
      · rename_i w ws h2
        constructor
        · intro h3
          simp at h3
          obtain ⟨rfl, rfl⟩ := h3
          obtain ⟨rfl, h5⟩ := (ih w).1 h2
          exact ⟨rfl, by simp [h5]; exact fun e => h e.symm⟩
        · rintro ⟨rfl, h4⟩
          simp at h4
          have := (ih s).2 ⟨rfl, h4.2⟩
          rw [this] at h2
          simp at h2
          simp [h2]

theorem splitSpace_two (s a b : List Char) :
    splitSpace s = [a, b] ↔ s = a ++ ' ' :: b ∧ ' ' ∉ a ∧ ' ' ∉ b := by
  induction s generalizing a with
  | nil => simp [splitSpace]
  | cons c s ih =>
    rw [splitSpace]
    split
    · rename_i h; simp at h; subst h
      constructor
      · intro h
        simp at h
        obtain ⟨rfl, h⟩ := h
        obtain ⟨rfl, h2⟩ := (splitSpace_one s b).1 h
        simp [h2]
      · rintro ⟨h1, h2, h3⟩
        cases a with
        | nil => simp at h1; subst h1; simp; exact (splitSpace_one s s).2 ⟨rfl, h3⟩
        | cons d a => simp at h1 h2; exact absurd h1.1 h2.1
    · rename_i h; simp at h
      split
      · rename_i h2; exact absurd h2 (splitSpace_ne s)
      · rename_i w ws h2
        constructor
        · intro h3
          simp at h3
          obtain ⟨rfl, rfl⟩ := h3
          obtain ⟨h4, h5, h6⟩ := (ih w).1 h2
          exact ⟨by simp [h4], by simp [h5]; exact fun e => h e.symm, h6⟩
        · rintro ⟨h3, h4, h5⟩
          cases a with
          | nil => simp at h3; exact absurd h3.1 h
          | cons d a =>
            simp at h3
            obtain ⟨rfl, rfl⟩ := h3
            simp at h4
            have := (ih a).2 ⟨rfl, h4.2, h5⟩
            rw [this] at h2
            simp at h2
            simp [h2]

theorem scanTv_found (pf : List Char → Option Rat) (s : List Char) (k idx : Nat) (hk : 1 ≤ k)
    (hki : k ≤ idx) (hi : idx < s.length) (h1 : s[k]? = some '{')
    (h2 : ∀ j, k < j → j ≤ idx → s[j]? ≠ some '{') : scanTv pf s idx = cutTv pf s k := by
  induction idx with
  | zero => omega
  | succ idx ih =>
    have hget : s[idx + 1]? = some s[idx + 1] := List.getElem?_eq_getElem hi
    rw [scanTv, hget]
    simp only [unwrap, bind, Except.bind]
    by_cases hkk : k = idx + 1
    · subst hkk
      rw [hget] at h1
      simp at h1
      simp [h1]
    · have := h2 (idx + 1) (by omega) (Nat.le_refl _)
      rw [hget] at this
      simp at this
      rw [if_neg (by simpa using this)]
      exact ih (by omega) (by omega) (fun j a b => h2 j a (by omega))

theorem scanTv_none (pf : List Char → Option Rat) (s : List Char) (idx : Nat)
    (hi : idx < s.length) (h2 : ∀ j, 1 ≤ j → j ≤ idx → s[j]? ≠ some '{') :
    scanTv pf s idx = .ok (s, ⟨1, 9/10⟩) := by
  induction idx with
  | zero => rfl
  | succ idx ih =>
    have hget : s[idx + 1]? = some s[idx + 1] := List.getElem?_eq_getElem hi
    rw [scanTv, hget]
    simp only [unwrap, bind, Except.bind]
    have := h2 (idx + 1) (by omega) (Nat.le_refl _)
    rw [hget] at this
    simp at this
    rw [if_neg (by simpa using this)]
    exact ih (by omega) (fun j a b => h2 j a (by omega))

theorem retTv_found (pf : List Char → Option Rat) {s pre a b : List Char} (hs : Ascii s)
    (h : TvAtEnd s pre a b) : parseNarseseRetTv pf s =
      (do let f ← parseNum pf a
          let c ← parseNum pf b
          .ok (pre, ⟨f, c⟩)) := by
  obtain ⟨rfl, h1, h2, h3, h4, h5⟩ := h
  rw [parseNarseseRetTv, byteLen_ascii hs]
  have hlen : (pre ++ tvText a b).length = pre.length + a.length + b.length + 3 := by
    simp [tvText]; omega
  have hpre : 0 < pre.length := List.length_pos_iff.2 h1
  rw [if_pos (by omega)]
  have hlast : (pre ++ tvText a b)[(pre ++ tvText a b).length - 1]? = some '}' := by
    have e : pre ++ tvText a b = (pre ++ '{' :: a ++ [' '] ++ b) ++ ['}'] := by simp [tvText]
    rw [e, List.length_append, List.getElem?_append_right (by simp)]; simp
  rw [hlast]
  simp only [unwrap, bind, Except.bind, beq_self_eq_true, if_true]
  rw [scanTv_found pf _ pre.length _ hpre (by omega) (by omega)]
  · have : ((pre ++ tvText a b).drop (pre.length + 1)).dropLast = a ++ ' ' :: b := by
      have e : pre ++ tvText a b = (pre ++ ['{']) ++ ((a ++ ' ' :: b) ++ ['}']) := by simp [tvText]
      have e2 : pre.length + 1 = (pre ++ ['{']).length := by simp
      rw [e, e2, List.drop_left, List.dropLast_concat]
    rw [cutTv, this, (splitSpace_two _ a b).2 ⟨rfl, h2, h3⟩]
    simp [bind, Except.bind]
  · simp [tvText]
  · intro j hj1 hj2 hj3
    have e : pre ++ tvText a b = (pre ++ ['{']) ++ (a ++ [' '] ++ b ++ ['}']) := by simp [tvText]
    rw [e, List.getElem?_append_right (by simp; omega)] at hj3
    have := List.mem_of_getElem? hj3
    simp at this
    rcases this with h | h
    · exact h4 h
    · exact h5 h

theorem exists_last_brace (s : List Char) (n : Nat) :
    (∃ k, 1 ≤ k ∧ k ≤ n ∧ s[k]? = some '{' ∧ ∀ j, k < j → j ≤ n → s[j]? ≠ some '{') ∨
      ∀ j, 1 ≤ j → j ≤ n → s[j]? ≠ some '{' := by
  induction n with
  | zero => right; intros; omega
  | succ n ih =>
    by_cases h : s[n + 1]? = some '{'
    · left; exact ⟨n + 1, by omega, Nat.le_refl _, h, fun j _ _ => by omega⟩
    · rcases ih with ⟨k, h1, h2, h3, h4⟩ | h2
      · left
        refine ⟨k, h1, by omega, h3, fun j hj1 hj2 => ?_⟩
        by_cases hj : j = n + 1
        · subst hj; exact h
        · exact h4 j hj1 (by omega)
      · right
        intro j hj1 hj2
        by_cases hj : j = n + 1
        · subst hj; exact h
        · exact h2 j hj1 (by omega)

theorem retTv_absent (pf : List Char → Option Rat) {s : List Char} (hs : Ascii s)
    (h : ∀ pre a b, ¬ TvAtEnd s pre a b) : parseNarseseRetTv pf s = .ok (s, ⟨1, 9/10⟩) := by
  rw [parseNarseseRetTv, byteLen_ascii hs]
  split
  · rename_i hl
    have hget : s[s.length - 1]? = some s[s.length - 1] := List.getElem?_eq_getElem (by omega)
    rw [hget]
    simp only [unwrap, bind, Except.bind]
    split
    · rename_i hc
      simp at hc
      rcases exists_last_brace s (s.length - 1) with ⟨k, h1, h2, h3, h4⟩ | h1
      · rw [scanTv_found pf s k _ h1 h2 (by omega) h3 h4, cutTv]
        split
        · rename_i a b hsp
          obtain ⟨e1, e2, e3⟩ := (splitSpace_two _ _ _).1 hsp
          exfalso
          have hks : k < s.length := by omega
          have hkl : k ≠ s.length - 1 := by
            rintro rfl; rw [hget, hc] at h3; simp at h3
          have hd : s.drop (k + 1) = a ++ ' ' :: b ++ ['}'] := by
            have hne : s.drop (k + 1) ≠ [] := by simp; omega
            have hg : (s.drop (k + 1)).getLast hne = '}' := by
              rw [List.getLast_drop, List.getLast_eq_getElem]; exact hc
            rw [← List.dropLast_append_getLast hne, e1, hg]
          have hs2 : s = s.take k ++ tvText a b := by
            have h6 : s = s.take k ++ s.drop k := (List.take_append_drop k s).symm
            have h7 : s.drop k = '{' :: s.drop (k + 1) := by
              rw [List.drop_eq_getElem_cons hks]
              rw [List.getElem?_eq_getElem hks] at h3
              simp at h3; rw [h3]
            rw [h7, hd] at h6
            simpa [tvText] using h6
          have hbr : ∀ c, c ∈ a ++ ' ' :: b → c ≠ '{' := by
            intro c hc2 hc3
            subst hc3
            have : '{' ∈ s.drop (k + 1) := by rw [hd]; exact List.mem_append_left _ hc2
            obtain ⟨j, hj⟩ := List.mem_iff_getElem?.1 this
            rw [List.getElem?_drop] at hj
            have hjl : k + 1 + j < s.length := (List.getElem?_eq_some_iff.1 hj).1
            exact h4 (k + 1 + j) (by omega) (by omega) hj
          refine h (s.take k) a b ⟨hs2, ?_, e2, e3, ?_, ?_⟩
          · intro h0
            have h00 := congrArg List.length h0
            rw [List.length_take, List.length_nil] at h00; omega
          · intro hm; exact hbr _ (by simp [hm]) rfl
          · intro hm; exact hbr _ (by simp [hm]) rfl
        · rfl
      · exact scanTv_none pf s _ (by omega) h1
    · rfl
  · rfl

end Nar
