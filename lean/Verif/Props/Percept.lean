import Verif.Model.Percept
import Mathlib.Data.Rat.Defs
/-! # Attention is limited to the top percepts -/
namespace Nar.Props
open Nar

/-! ## C109 -/

/-- C109: no more than the allowed number of percepts is attended to, no fewer than possible, and only what was perceived, in
the order in which it came. -/
theorem C109_limited {T : Type} (arr : List (PerceptItem T)) (n : Nat) :
    (limitPercepts arr n).length = min n arr.length ∧ (limitPercepts arr n) <+: arr := by
  unfold limitPercepts
  split
  · exact ⟨by simp, List.take_prefix _ _⟩
  · exact ⟨by omega, List.prefix_refl _⟩

/-- C109: limiting attention again changes nothing, and limiting it more strictly afterwards is the same as at once. -/
theorem C109_limited_twice {T : Type} (arr : List (PerceptItem T)) (n k : Nat) :
    limitPercepts (limitPercepts arr n) k = limitPercepts arr (min k n) := by
  have h : ∀ (l : List (PerceptItem T)) i, limitPercepts l i = l.take i := by
    intro l i
    unfold limitPercepts
    split
    · rfl
    · rw [List.take_of_length_le (by omega)]
  rw [h, h, h, List.take_take]

/-- C109: of percepts which come in the order of their salience the most salient are attended to: none which is left out is more
salient than one which is kept. -/
theorem C109_top_partial {T : Type} (arr : List (PerceptItem T)) (n : Nat) (h : arr.Pairwise (fun a b => b.salience ≤ a.salience))
    (a b : PerceptItem T) (ha : a ∈ limitPercepts arr n) (hb : b ∈ arr.drop n) : b.salience ≤ a.salience := by
  have ha' : a ∈ arr.take n := by
    unfold limitPercepts at ha
    split at ha
    · exact ha
    · rw [List.take_of_length_le (by omega)]; exact ha
  rw [← List.take_append_drop n arr, List.pairwise_append] at h
  exact h.2.2 a ha' b hb

example : limitPercepts [⟨"fire", 9/10, 1/2⟩, ⟨"tree", 1/2, 1/2⟩, ⟨"grass", 1/10, 1/10⟩] 2 =
    [(⟨"fire", 9/10, 1/2⟩ : PerceptItem String), ⟨"tree", 1/2, 1/2⟩] := by decide +kernel

/-- C109, violated for percepts in another order: nothing is sorted, so the most salient percept is left out if it comes last. -/
theorem C109_most_salient_left_out : ∃ (arr : List (PerceptItem String)) (n : Nat) (a b : PerceptItem String),
    a ∈ limitPercepts arr n ∧ b ∈ arr ∧ b ∉ limitPercepts arr n ∧ a.salience < b.salience ∧ a.novelity < b.novelity :=
  ⟨[⟨"grass", 1/10, 1/10⟩, ⟨"fire", 9/10, 1/2⟩], 1, ⟨"grass", 1/10, 1/10⟩, ⟨"fire", 9/10, 1/2⟩, by decide +kernel, by decide +kernel,
    by decide +kernel, by decide +kernel, by decide +kernel⟩

end Nar.Props
