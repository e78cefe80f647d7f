import Verif.Lemmas.Stamp
/-! # Property theorems about evidence trails (C05, C06) -/
namespace Nar.Props
open Nar Stamp

/-- C05: a combined trail has only identifiers of its parents and at most 120 of them. -/
theorem C05_merge_from_parents (a b : Stamp) :
    (∀ x ∈ (merge a b).ids, x ∈ a.ids ∨ x ∈ b.ids) ∧
    (merge a b).ids.length = min 120 (a.ids.length + b.ids.length) := by
  rw [merge_ids]
  refine ⟨fun x hx => (mem_interleave x _ _).1 (List.mem_of_mem_take hx), ?_⟩
  rw [List.length_take, interleave_length]

/-- C05: nothing is lost as long as both trails fit into the limit (with multiplicity). -/
theorem C05_merge_lossless (a b : Stamp) (h : a.ids.length + b.ids.length ≤ 120) :
    (merge a b).ids.Perm (a.ids ++ b.ids) := by
  rw [merge_ids, List.take_of_length_le (by rw [interleave_length]; exact h)]
  exact interleave_perm _ _

/-- C05: in any case the first 60 identifiers of each parent survive; in particular the result
shares evidence with each non-empty parent. -/
theorem C05_merge_keeps_both (a b : Stamp) :
    (∀ x ∈ a.ids.take 60, x ∈ (merge a b).ids) ∧ (∀ x ∈ b.ids.take 60, x ∈ (merge a b).ids) ∧
    (a.ids ≠ [] → checkOverlap (merge a b) a = true) ∧
    (b.ids ≠ [] → checkOverlap (merge a b) b = true) := by
  refine ⟨?_, ?_, merge_overlap_left a b, merge_overlap_right a b⟩
  · intro x hx; rw [merge_ids]; exact take_interleave_left _ _ 60 x hx
  · intro x hx; rw [merge_ids]; exact take_interleave_right _ _ 60 x hx

example : (merge ⟨[1, 2, 3]⟩ ⟨[7]⟩).ids = [1, 7, 2, 3] ∧ ([1, 2, 3] : List Int).length + 1 ≤ 120 := by
  decide

/-- one trail of 100 identifiers and one of 90: those at the front of each survive -/
example : (59 : Int) ∈ (merge ⟨(List.range 100).map (fun n : Nat => (n : Int))⟩
      ⟨(List.range 90).map (fun n : Nat => (n : Int) + 1000)⟩).ids ∧
    (1059 : Int) ∈ (merge ⟨(List.range 100).map (fun n : Nat => (n : Int))⟩
      ⟨(List.range 90).map (fun n : Nat => (n : Int) + 1000)⟩).ids :=
  have h := C05_merge_keeps_both ⟨(List.range 100).map (fun n : Nat => (n : Int))⟩
    ⟨(List.range 90).map (fun n : Nat => (n : Int) + 1000)⟩
  ⟨h.1 59 (by decide +kernel), h.2.1 1059 (by decide +kernel)⟩

/-- C05 (limit of the guarantee): beyond the limit evidence is forgotten, so a conclusion can fail
to overlap with evidence it was derived from. -/
theorem C05_long_trails_forget : ∃ (a b : Stamp) (e : Int), e ∈ a.ids ∧
    checkOverlap (merge a b) ⟨[e]⟩ = false :=
  ⟨⟨(List.range 100).map (fun n : Nat => (n : Int))⟩, ⟨(List.range 100).map (fun n : Nat => (n : Int) + 1000)⟩, 99,
    by decide, by decide +kernel⟩

/-- C06: overlap means a common identifier. -/
theorem C06_overlap_exact (a b : Stamp) :
    checkOverlap a b = true ↔ ∃ x, x ∈ a.ids ∧ x ∈ b.ids := checkOverlap_iff a b

/-- C06: overlap does not depend on the order of the arguments. -/
theorem C06_overlap_symmetric (a b : Stamp) : checkOverlap a b = checkOverlap b a :=
  checkOverlap_comm a b

/-- C06: trails are reported the same exactly when they are identical lists. -/
theorem C06_same_exact (a b : Stamp) : checkSame a b = true ↔ a.ids = b.ids := by
  rw [checkSame_iff]; cases a; cases b; simp

/-- C06 (reading of "same"): the order of identifiers matters, so two trails with the same evidence
in different order are not reported the same. -/
theorem C06_same_is_order_sensitive : ∃ a b : Stamp,
    (∀ x, x ∈ a.ids ↔ x ∈ b.ids) ∧ checkSame a b = false :=
  ⟨⟨[1, 2]⟩, ⟨[2, 1]⟩, by intro x; simp [or_comm], by decide⟩

example : checkOverlap ⟨[1, 2]⟩ ⟨[3, 2]⟩ = true ∧ checkOverlap ⟨[1, 2]⟩ ⟨[3, 4]⟩ = false ∧
    checkSame ⟨[1, 2]⟩ ⟨[1, 2]⟩ = true := by decide

end Nar.Props
