import Verif.Model.Stamp
/-! # Helper lemmas about stamps -/
namespace Nar
namespace Stamp

theorem checkOverlap_iff (a b : Stamp) : checkOverlap a b = true ↔ ∃ x, x ∈ a.ids ∧ x ∈ b.ids := by
  simp [checkOverlap]

theorem checkOverlap_comm (a b : Stamp) : checkOverlap a b = checkOverlap b a := by
  rw [Bool.eq_iff_iff, checkOverlap_iff, checkOverlap_iff]
  constructor <;> rintro ⟨x, h1, h2⟩ <;> exact ⟨x, h2, h1⟩

theorem interleave_nil_left (b : List Int) : interleave [] b = b := by simp [interleave]
theorem interleave_nil_right (a : List Int) : interleave a [] = a := by simp [interleave]
theorem interleave_cons (x y : Int) (a b : List Int) :
    interleave (x :: a) (y :: b) = x :: y :: interleave a b := by
  simp [interleave, Nat.succ_min_succ]

theorem interleave_perm (a : List Int) : ∀ b, (interleave a b).Perm (a ++ b) := by
  induction a with
  | nil => intro b; simp [interleave_nil_left]
  | cons x a ih =>
    intro b
    cases b with
    | nil => simp [interleave_nil_right]
    | cons y b =>
      rw [interleave_cons, List.cons_append]
      apply List.Perm.cons
      exact ((ih b).cons y).trans (List.perm_middle.symm)

theorem interleave_length (a b : List Int) : (interleave a b).length = a.length + b.length := by
  rw [(interleave_perm a b).length_eq, List.length_append]

theorem mem_interleave (x : Int) (a b : List Int) : x ∈ interleave a b ↔ x ∈ a ∨ x ∈ b := by
  rw [(interleave_perm a b).mem_iff, List.mem_append]

theorem merge_ids (a b : Stamp) : (merge a b).ids = (interleave a.ids b.ids).take 120 := by
  simp only [merge]
  rcases Nat.le_total (interleave a.ids b.ids).length 120 with h | h
  · rw [Nat.min_eq_left h, List.take_length, List.take_of_length_le h]
  · rw [Nat.min_eq_right h]

theorem take_interleave_left (a : List Int) : ∀ (b : List Int) (n : Nat),
    ∀ x ∈ a.take n, x ∈ (interleave a b).take (2 * n) := by
  induction a with
  | nil => simp
  | cons y a ih =>
    intro b n x hx
    cases n with
    | zero => simp at hx
    | succ n =>
      cases b with
      | nil =>
        rw [interleave_nil_right]
        exact (List.take_subset_take_left _ (by omega)) hx
      | cons z b =>
        rw [interleave_cons, show 2 * (n + 1) = 2 * n + 1 + 1 by omega]
        simp only [List.take_succ_cons, List.mem_cons] at hx ⊢
        rcases hx with rfl | hx
        · simp
        · exact Or.inr (Or.inr (ih b n x hx))

theorem take_interleave_right (a : List Int) : ∀ (b : List Int) (n : Nat),
    ∀ x ∈ b.take n, x ∈ (interleave a b).take (2 * n) := by
  induction a with
  | nil =>
    intro b n x hx
    rw [interleave_nil_left]; exact (List.take_subset_take_left _ (by omega)) hx
  | cons y a ih =>
    intro b n x hx
    cases n with
    | zero => simp at hx
    | succ n =>
      cases b with
      | nil => simp at hx
      | cons z b =>
        rw [interleave_cons, show 2 * (n + 1) = 2 * n + 1 + 1 by omega]
        simp only [List.take_succ_cons, List.mem_cons] at hx ⊢
        rcases hx with rfl | hx
        · simp
        · exact Or.inr (Or.inr (ih b n x hx))

theorem sameLoop_iff (a : List Int) : ∀ b, a.length = b.length → (sameLoop a b = true ↔ a = b) := by
  induction a with
  | nil => intro b h; cases b <;> simp_all [sameLoop]
  | cons x a ih =>
    intro b h
    cases b with
    | nil => simp at h
    | cons y b =>
      simp only [sameLoop, bne_iff_ne, ne_eq, ite_not]
      by_cases hxy : x = y
      · simp [hxy, ih b (by simpa using h)]
      · simp [hxy]

theorem checkSame_iff (a b : Stamp) : checkSame a b = true ↔ a = b := by
  unfold checkSame
  cases a with | mk a => cases b with | mk b =>
  simp only [bne_iff_ne, ne_eq, ite_not, Stamp.mk.injEq]
  split
  · rename_i h; exact sameLoop_iff a b h
  · rename_i h; simp; intro e; exact h (by rw [e])

theorem checkSame_eq_decide (a b : Stamp) : checkSame a b = decide (a = b) := by
  rw [Bool.eq_iff_iff, checkSame_iff]; simp

theorem merge_overlap_left (a b : Stamp) (h : a.ids ≠ []) : checkOverlap (merge a b) a = true := by
  rw [checkOverlap_iff, merge_ids]
  cases ha : a.ids with
  | nil => exact absurd ha h
  | cons x xs =>
    refine ⟨x, ?_, by simp⟩
    have := take_interleave_left (x :: xs) b.ids 60 x (by simp)
    exact this

theorem merge_overlap_right (a b : Stamp) (h : b.ids ≠ []) : checkOverlap (merge a b) b = true := by
  rw [checkOverlap_iff, merge_ids]
  cases hb : b.ids with
  | nil => exact absurd hb h
  | cons x xs =>
    refine ⟨x, ?_, by simp⟩
    have := take_interleave_right a.ids (x :: xs) 60 x (by simp)
    exact this

end Stamp
end Nar
