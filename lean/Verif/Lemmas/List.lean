/-! # General list lemmas -/
namespace Nar

theorem eq_of_nodup_map {α β : Type} {f : α → β} {l : List α} (h : (l.map f).Nodup) :
    ∀ a ∈ l, ∀ b ∈ l, f a = f b → a = b := by
  induction l with
  | nil => simp
  | cons x l ih =>
    simp only [List.map_cons, List.nodup_cons] at h
    intro a ha b hb hab
    rcases List.mem_cons.1 ha with rfl | ha2 <;> rcases List.mem_cons.1 hb with rfl | hb2
    · rfl
    · exact absurd (List.mem_map.2 ⟨b, hb2, hab.symm⟩) h.1
    · exact absurd (List.mem_map.2 ⟨a, ha2, hab⟩) h.1
    · exact ih h.2 a ha2 b hb2 hab

end Nar
