import Verif.Lemmas.Parser
/-! # Lemmas about reading whole lines -/
namespace Nar

/-! ## Blanks around stars -/

/-- drop the blanks which directly follow a star (or a dropped blank) -/
def dropAfterStar : Bool → List Char → List Char
  | _, [] => []
  | b, c :: cs =>
    if c == '*' then '*' :: dropAfterStar true cs
    else if c == ' ' && b then dropAfterStar true cs
    else c :: dropAfterStar false cs

/-- drop the blanks which are directly followed by a star -/
def dropBeforeStar : List Char → List Char
  | [] => []
  | c :: cs =>
    if c == ' ' && (dropBeforeStar cs).head? == some '*' then dropBeforeStar cs
    else c :: dropBeforeStar cs

theorem replaceStarSpace_length (s : List Char) : (replaceStarSpace s).length ≤ s.length := by
  fun_induction replaceStarSpace s <;> (simp_all; try omega)

theorem replaceStarSpace_shrinks (s : List Char) (h : containsPair '*' ' ' s = true) :
    (replaceStarSpace s).length < s.length := by
  fun_induction replaceStarSpace s with
  | case1 cs ih =>
    have := replaceStarSpace_length cs
    simp; omega
  | case2 c cs hne ih =>
    cases cs with
    | nil => simp [containsPair] at h
    | cons d cs =>
      have : containsPair '*' ' ' (d :: cs) = true := by
        simp only [containsPair, Bool.or_eq_true, Bool.and_eq_true, beq_iff_eq] at h
        rcases h with ⟨rfl, rfl⟩ | h
        · exact (hne cs rfl rfl).elim
        · exact h
      simpa using ih this
  | case3 => simp [containsPair] at h

theorem replaceSpaceStar_length (s : List Char) : (replaceSpaceStar s).length ≤ s.length := by
  fun_induction replaceSpaceStar s <;> (simp_all; try omega)

theorem replaceSpaceStar_shrinks (s : List Char) (h : containsPair ' ' '*' s = true) :
    (replaceSpaceStar s).length < s.length := by
  fun_induction replaceSpaceStar s with
  | case1 cs ih =>
    have := replaceSpaceStar_length cs
    simp; omega
  | case2 c cs hne ih =>
    cases cs with
    | nil => simp [containsPair] at h
    | cons d cs =>
      have : containsPair ' ' '*' (d :: cs) = true := by
        simp only [containsPair, Bool.or_eq_true, Bool.and_eq_true, beq_iff_eq] at h
        rcases h with ⟨rfl, rfl⟩ | h
        · exact (hne cs rfl rfl).elim
        · exact h
      simpa using ih this
  | case3 => simp [containsPair] at h

theorem dropAfterStar_replace (b : Bool) (s : List Char) :
    dropAfterStar b (replaceStarSpace s) = dropAfterStar b s := by
  fun_induction replaceStarSpace s generalizing b with
  | case1 cs ih => simp [dropAfterStar, ih]
  | case2 c cs _ ih => simp [dropAfterStar, ih]
  | case3 => rfl

theorem dropBeforeStar_replace (s : List Char) :
    dropBeforeStar (replaceSpaceStar s) = dropBeforeStar s := by
  fun_induction replaceSpaceStar s with
  | case1 cs ih => simp [dropBeforeStar, ih]
  | case2 c cs _ ih => simp [dropBeforeStar, ih]
  | case3 => rfl

theorem dropAfterStar_id (b : Bool) (s : List Char) (h : containsPair '*' ' ' s = false)
    (hb : b = true → s.head? ≠ some ' ') : dropAfterStar b s = s := by
  induction s generalizing b with
  | nil => rfl
  | cons c cs ih =>
    have hcs : containsPair '*' ' ' cs = false := by
      cases cs with
      | nil => rfl
      | cons d cs => simp [containsPair] at h; simpa using h.2
    rw [dropAfterStar]
    split
    · rename_i hc
      simp at hc; subst hc
      rw [ih true hcs]
      intro _ hh
      cases cs with
      | nil => simp at hh
      | cons d cs => simp at hh; subst hh; simp [containsPair] at h
    · split
      · rename_i h2
        simp at h2
        exact absurd (by simp [h2.1]) (hb h2.2)
      · rw [ih false hcs (by simp)]

theorem dropBeforeStar_id (s : List Char) (h : containsPair ' ' '*' s = false) :
    dropBeforeStar s = s := by
  induction s with
  | nil => rfl
  | cons c cs ih =>
    have hcs : containsPair ' ' '*' cs = false := by
      cases cs with
      | nil => rfl
      | cons d cs => simp [containsPair] at h; simpa using h.2
    rw [dropBeforeStar, ih hcs, if_neg]
    intro h2
    simp at h2
    cases cs with
    | nil => simp at h2
    | cons d cs => simp at h2; obtain ⟨rfl, rfl⟩ := h2; simp [containsPair] at h

theorem whileContains_after (n : Nat) (s : List Char) (h : s.length ≤ n) :
    whileContains '*' ' ' replaceStarSpace n s = dropAfterStar false s := by
  induction n generalizing s with
  | zero =>
    have : s = [] := List.length_eq_zero_iff.1 (by omega)
    subst this; rfl
  | succ n ih =>
    rw [whileContains]
    split
    · rename_i hc
      rw [ih _ (by have := replaceStarSpace_shrinks s hc; omega), dropAfterStar_replace]
    · rename_i hc
      rw [dropAfterStar_id _ _ (by simpa using hc) (by simp)]

theorem whileContains_before (n : Nat) (s : List Char) (h : s.length ≤ n) :
    whileContains ' ' '*' replaceSpaceStar n s = dropBeforeStar s := by
  induction n generalizing s with
  | zero =>
    have : s = [] := List.length_eq_zero_iff.1 (by omega)
    subst this; rfl
  | succ n ih =>
    rw [whileContains]
    split
    · rename_i hc
      rw [ih _ (by have := replaceSpaceStar_shrinks s hc; omega), dropBeforeStar_replace]
    · rename_i hc
      rw [dropBeforeStar_id _ (by simpa using hc)]

theorem tightenStars_eq (s : List Char) :
    tightenStars s = dropBeforeStar (dropAfterStar false s) := by
  simp only [tightenStars]
  rw [whileContains_before _ _ (Nat.le_refl _), whileContains_after _ _ (Nat.le_refl _)]

theorem dropAfterStar_star_space (u v : List Char) (b : Bool) :
    dropAfterStar b (u ++ '*' :: ' ' :: v) = dropAfterStar b (u ++ '*' :: v) := by
  induction u generalizing b with
  | nil => simp [dropAfterStar]
  | cons c u ih => simp only [List.cons_append, dropAfterStar, ih]

/-- after a star comes no blank -/
theorem tightenStars_star_space (u v : List Char) :
    tightenStars (u ++ '*' :: ' ' :: v) = tightenStars (u ++ '*' :: v) := by
  rw [tightenStars_eq, tightenStars_eq, dropAfterStar_star_space]

theorem dropBefore_space_star (u v : List Char) (b : Bool) :
    dropBeforeStar (dropAfterStar b (u ++ ' ' :: '*' :: v)) =
      dropBeforeStar (dropAfterStar b (u ++ '*' :: v)) := by
  induction u generalizing b with
  | nil => cases b <;> simp [dropAfterStar, dropBeforeStar]
  | cons c u ih =>
    simp only [List.cons_append, dropAfterStar]
    split
    · simp only [dropBeforeStar, ih]
    · split
      · exact ih _
      · simp only [dropBeforeStar, ih]

theorem tightenStars_space_star (u v : List Char) :
    tightenStars (u ++ ' ' :: '*' :: v) = tightenStars (u ++ '*' :: v) := by
  rw [tightenStars_eq, tightenStars_eq, dropBefore_space_star]

theorem tightenStars_id {s : List Char} (h1 : containsPair '*' ' ' s = false)
    (h2 : containsPair ' ' '*' s = false) : tightenStars s = s := by
  rw [tightenStars_eq, dropAfterStar_id _ _ h1 (by simp), dropBeforeStar_id _ h2]

theorem dropAfterStar_mem {b s c} (hc : c ≠ ' ') : c ∈ dropAfterStar b s ↔ c ∈ s := by
  induction s generalizing b with
  | nil => simp [dropAfterStar]
  | cons d s ih =>
    rw [dropAfterStar]
    split
    · rename_i h; simp at h; subst h; simp [ih]
    · split
      · rename_i h; simp at h; simp [ih, h.1, hc]
      · simp [ih]

theorem dropBeforeStar_mem {s c} (hc : c ≠ ' ') : c ∈ dropBeforeStar s ↔ c ∈ s := by
  induction s with
  | nil => simp [dropBeforeStar]
  | cons d s ih =>
    rw [dropBeforeStar]
    split
    · rename_i h; simp at h; simp [ih, h.1, hc]
    · simp [ih]

theorem tightenStars_mem {s c} (hc : c ≠ ' ') : c ∈ tightenStars s ↔ c ∈ s := by
  rw [tightenStars_eq, dropBeforeStar_mem hc, dropAfterStar_mem hc]

end Nar
