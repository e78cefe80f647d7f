import Verif.Spec.Map2d
import Verif.Lemmas.Mem
import Mathlib.Tactic.Linarith
/-! # Lemmas about pixel maps -/
namespace Nar
variable {α : Type}

theorem foldlM_congr_mem {β γ : Type} {f g : β → γ → R β} : ∀ {l : List γ} {b : β}, (∀ b, ∀ a ∈ l, f b a = g b a) →
    l.foldlM f b = l.foldlM g b
  | [], _, _ => rfl
  | a :: l, b, h => by
    rw [List.foldlM_cons, List.foldlM_cons, h b a List.mem_cons_self]
    cases g b a with
    | error e => rfl
    | ok c => exact foldlM_congr_mem (fun b a ha => h b a (List.mem_cons_of_mem _ ha))

theorem has_iff (m : Map2d α) (y x : Int) : ¬ (y < 0 ∨ x < 0 ∨ x ≥ m.w ∨ y ≥ m.h) ↔ m.Has y x := by
  unfold Map2d.Has; omega

theorem has_index {m : Map2d α} (hm : m.WF) {y x : Int} (h : m.Has y x) :
    0 ≤ y * m.w + x ∧ (y * m.w + x).toNat < m.arr.length := by
  obtain ⟨h1, h2, h3, h4⟩ := h
  have hp := hm.pixels
  have hw := hm.w
  have a : 0 ≤ y * m.w := Int.mul_nonneg h1 hw
  have b : (y + 1) * m.w ≤ m.h * m.w := Int.mul_le_mul_of_nonneg_right (by omega) hw
  have c : m.h * m.w = m.w * m.h := Int.mul_comm _ _
  have d : (y + 1) * m.w = y * m.w + m.w := by rw [Int.add_mul, Int.one_mul]
  omega

theorem index_inj {w y x y' x' : Int} (hx : 0 ≤ x ∧ x < w) (hx' : 0 ≤ x' ∧ x' < w) (h : y * w + x = y' * w + x') :
    y = y' ∧ x = x' := by
  have key : y = y' := by
    rcases lt_trichotomy y y' with hl | hl | hl
    · have b : (y + 1) * w ≤ y' * w := Int.mul_le_mul_of_nonneg_right (by omega) (by omega)
      have d : (y + 1) * w = y * w + w := by rw [Int.add_mul, Int.one_mul]
      omega
    · exact hl
    · have b : (y' + 1) * w ≤ y * w := Int.mul_le_mul_of_nonneg_right (by omega) (by omega)
      have d : (y' + 1) * w = y' * w + w := by rw [Int.add_mul, Int.one_mul]
      omega
  subst key
  exact ⟨rfl, by omega⟩

theorem readAt_out [Inhabited α] (m : Map2d α) {y x : Int} (h : ¬ m.Has y x) : readAt m y x = .ok default := by
  unfold readAt
  rw [if_pos (by by_contra hc; exact h ((has_iff m y x).1 hc))]

theorem readAt_in [Inhabited α] {m : Map2d α} (hm : m.WF) {y x : Int} (h : m.Has y x) :
    readAt m y x = .ok (m.arr[(y * m.w + x).toNat]'(has_index hm h).2) := by
  unfold readAt
  rw [if_neg ((has_iff m y x).2 h)]
  unfold indexAt
  rw [List.getElem?_eq_getElem (has_index hm h).2]

theorem readAt_total [Inhabited α] {m : Map2d α} (hm : m.WF) (y x : Int) : ∃ v, readAt m y x = .ok v := by
  by_cases h : m.Has y x
  · exact ⟨_, readAt_in hm h⟩
  · exact ⟨_, readAt_out m h⟩

theorem writeAt_out (m : Map2d α) {y x : Int} (v : α) (h : ¬ m.Has y x) : writeAt m y x v = .ok m := by
  unfold writeAt
  rw [if_pos (by by_contra hc; exact h ((has_iff m y x).1 hc))]

theorem writeAt_in {m : Map2d α} (hm : m.WF) {y x : Int} (v : α) (h : m.Has y x) :
    writeAt m y x v = .ok { m with arr := m.arr.set (y * m.w + x).toNat v } := by
  unfold writeAt
  rw [if_neg ((has_iff m y x).2 h), if_pos (has_index hm h).2]

theorem writeAt_spec [Inhabited α] {m : Map2d α} (hm : m.WF) (y x : Int) (v : α) :
    ∃ m', writeAt m y x v = .ok m' ∧ m'.WF ∧ m'.w = m.w ∧ m'.h = m.h ∧
      ∀ y' x', readAt m' y' x' = if m.Has y' x' ∧ (y', x') = (y, x) then .ok v else readAt m y' x' := by
  by_cases h : m.Has y x
  · refine ⟨_, writeAt_in hm v h, ⟨hm.w, hm.h, ?_⟩, rfl, rfl, ?_⟩
    · show ((m.arr.set _ v).length : Int) = _
      rw [List.length_set]; exact hm.pixels
    · have hwf : Map2d.WF { m with arr := m.arr.set (y * m.w + x).toNat v } :=
        ⟨hm.w, hm.h, by show ((m.arr.set _ v).length : Int) = _; rw [List.length_set]; exact hm.pixels⟩
      intro y' x'
      by_cases h' : m.Has y' x'
      · rw [readAt_in hwf (y := y') (x := x') h', readAt_in hm h']
        simp only
        rw [List.getElem_set]
        have i1 := has_index hm h
        have i2 := has_index hm h'
        by_cases he : (y', x') = (y, x)
        · rw [if_pos (c := m.Has y' x' ∧ _) ⟨h', he⟩]
          cases he
          rw [if_pos rfl]
        · rw [if_neg (c := m.Has y' x' ∧ _) (fun hc => he hc.2), if_neg]
          intro hi
          have hq : y * m.w + x = y' * m.w + x' := by omega
          obtain ⟨e1, e2⟩ := index_inj ⟨h.2.2.1, h.2.2.2⟩ ⟨h'.2.2.1, h'.2.2.2⟩ hq
          exact he (by rw [e1, e2])
      · rw [if_neg (fun hc => h' hc.1), readAt_out m h']
        exact readAt_out _ h'
  · refine ⟨m, writeAt_out m v h, hm, rfl, rfl, fun y' x' => ?_⟩
    rw [if_neg]
    rintro ⟨h1, h2⟩
    cases h2
    exact h h1

/-- writes whose value is determined by the position written to -/
theorem paint_spec [Inhabited α] {γ : Type} (p : γ → Prop) [DecidablePred p] (gy gx : γ → Int) (F : Int → Int → α)
    (cs : List γ) : ∀ {m : Map2d α}, m.WF →
    ∃ m', cs.foldlM (fun m c => if p c then writeAt m (gy c) (gx c) (F (gy c) (gx c)) else .ok m) m = .ok m' ∧
      m'.WF ∧ m'.w = m.w ∧ m'.h = m.h ∧
      (∀ y x, m.Has y x → (∃ c ∈ cs, p c ∧ gy c = y ∧ gx c = x) → readAt m' y x = .ok (F y x)) ∧
      (∀ y x, ¬ (∃ c ∈ cs, p c ∧ gy c = y ∧ gx c = x) → readAt m' y x = readAt m y x) := by
  induction cs with
  | nil =>
    intro m hm
    exact ⟨m, rfl, hm, rfl, rfl, fun y x _ ⟨c, hc, _⟩ => absurd hc List.not_mem_nil, fun _ _ _ => rfl⟩
  | cons c cs ih =>
    intro m hm
    by_cases hp : p c
    · obtain ⟨m1, h1, w1, s1, s2, r1⟩ := writeAt_spec hm (gy c) (gx c) (F (gy c) (gx c))
      obtain ⟨m', h2, w2, s3, s4, r2, r3⟩ := ih w1
      refine ⟨m', foldlM_cons_ok.2 ⟨m1, by rw [if_pos hp]; exact h1, h2⟩, w2, s3.trans s1, s4.trans s2, ?_, ?_⟩
      · rintro y x hh ⟨c', hc', hp', rfl, rfl⟩
        have hh1 : m1.Has (gy c') (gx c') := by
          unfold Map2d.Has at hh ⊢; rw [s1, s2]; exact hh
        by_cases hin : ∃ c'' ∈ cs, p c'' ∧ gy c'' = gy c' ∧ gx c'' = gx c'
        · exact r2 _ _ hh1 hin
        · rw [r3 _ _ hin]
          rcases List.mem_cons.1 hc' with rfl | hmem
          · rw [r1, if_pos ⟨hh, rfl⟩]
          · exact absurd ⟨c', hmem, hp', rfl, rfl⟩ hin
      · intro y x hn
        rw [r3 y x (fun ⟨c', hc', h⟩ => hn ⟨c', List.mem_cons_of_mem _ hc', h⟩), r1, if_neg]
        rintro ⟨_, he⟩
        cases he
        exact hn ⟨c, List.mem_cons_self, hp, rfl, rfl⟩
    · obtain ⟨m', h2, w2, s3, s4, r2, r3⟩ := ih hm
      refine ⟨m', foldlM_cons_ok.2 ⟨m, by rw [if_neg hp], h2⟩, w2, s3, s4, ?_, ?_⟩
      · rintro y x hh ⟨c', hc', hp', h⟩
        rcases List.mem_cons.1 hc' with rfl | hmem
        · exact absurd hp' hp
        · exact r2 y x hh ⟨c', hmem, hp', h⟩
      · intro y x hn
        exact r3 y x (fun ⟨c', hc', h⟩ => hn ⟨c', List.mem_cons_of_mem _ hc', h⟩)

theorem mem_intRange {a b k : Int} : k ∈ intRange a b ↔ a ≤ k ∧ k < b := by
  unfold intRange
  rw [List.mem_map]
  constructor
  · rintro ⟨n, hn, rfl⟩
    rw [List.mem_range] at hn
    omega
  · intro h
    exact ⟨(k - a).toNat, List.mem_range.2 (by omega), by omega⟩

theorem mem_gridPoints {y0 y1 x0 x1 y x : Int} :
    (y, x) ∈ gridPoints y0 y1 x0 x1 ↔ (y0 ≤ y ∧ y < y1) ∧ (x0 ≤ x ∧ x < x1) := by
  unfold gridPoints
  rw [List.mem_flatMap]
  constructor
  · rintro ⟨y', hy, h⟩
    rw [List.mem_map] at h
    obtain ⟨x', hx, he⟩ := h
    cases he
    exact ⟨mem_intRange.1 hy, mem_intRange.1 hx⟩
  · rintro ⟨hy, hx⟩
    exact ⟨y, mem_intRange.2 hy, List.mem_map.2 ⟨x, mem_intRange.2 hx, rfl⟩⟩

/-- a blank map -/
theorem blank_spec [Inhabited α] (v : α) {w h : Int} (hw : 0 ≤ w) (hh : 0 ≤ h) :
    ∃ arr, vecOf v (w * h) = .ok arr ∧ Map2d.WF (⟨arr, w, h⟩ : Map2d α) ∧
      ∀ y x, (⟨arr, w, h⟩ : Map2d α).Has y x → readAt (⟨arr, w, h⟩ : Map2d α) y x = .ok v := by
  have hp : 0 ≤ w * h := Int.mul_nonneg hw hh
  have hwf : Map2d.WF (⟨List.replicate (w * h).toNat v, w, h⟩ : Map2d α) :=
    ⟨hw, hh, by show ((List.replicate _ v).length : Int) = _; rw [List.length_replicate]; exact Int.toNat_of_nonneg hp⟩
  refine ⟨_, by unfold vecOf; rw [if_neg (by omega)], hwf, fun y x hx => ?_⟩
  rw [readAt_in hwf hx]
  simp only [List.getElem_replicate]

/-- the two-map operations -/
theorem zip_spec {m : Map2d Rat} (hm : m.WF) (g : Int → Int → R Rat)
    (hg : ∀ y x, m.Has y x → ∃ v, g y x = .ok v) :
    ∃ c, (do
      let res ← makeMap2d m.h m.w
      (gridPoints 0 m.h 0 m.w).foldlM (fun res (iy, ix) => do
        let v ← g iy ix
        writeAt res iy ix v) res : R (Map2d Rat)) = .ok c ∧ c.WF ∧ c.w = m.w ∧ c.h = m.h ∧
      ∀ y x, m.Has y x → readAt c y x = g y x := by
  obtain ⟨arr, ha, hwf, _⟩ := blank_spec (0 : Rat) hm.w hm.h
  let F : Int → Int → Rat := fun y x => match g y x with | .ok v => v | .error _ => 0
  obtain ⟨c, h1, h2, h3, h4, h5, h6⟩ := paint_spec (fun _ : Int × Int => True) (fun c => c.1) (fun c => c.2) F
    (gridPoints 0 m.h 0 m.w) hwf
  refine ⟨c, ?_, h2, h3, h4, fun y x hh => ?_⟩
  · unfold makeMap2d
    rw [ha]
    show List.foldlM _ _ _ = _
    rw [← h1]
    apply foldlM_congr_mem
    rintro b ⟨iy, ix⟩ hmem
    rw [mem_gridPoints] at hmem
    obtain ⟨v, hv⟩ := hg iy ix ⟨hmem.1.1, hmem.1.2, hmem.2.1, hmem.2.2⟩
    simp only [hv, bind, Except.bind, F]
    rw [if_pos trivial]
  · obtain ⟨v, hv⟩ := hg y x hh
    rw [h5 y x hh ⟨(y, x), mem_gridPoints.2 ⟨⟨hh.1, hh.2.1⟩, hh.2.2.1, hh.2.2.2⟩, trivial, rfl, rfl⟩, hv]
    simp only [F, hv]

end Nar
