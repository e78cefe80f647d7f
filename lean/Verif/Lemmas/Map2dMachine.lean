import Verif.Lemmas.Map2d
import Verif.Spec.Map2dMachine
import Mathlib.Tactic.Linarith
/-! # Lemmas about pixel maps with 32 bit arithmetic -/
namespace Nar

theorem right_checked : RightIn32 checked32 := fun n h1 h2 => by unfold checked32; rw [if_pos ⟨h1, h2⟩]

theorem right_wrapped : RightIn32 wrapped32 := fun n h1 h2 => by
  unfold wrapped32 minI32 maxI32 at *
  have : Int.bmod n 4294967296 = n := by
    rw [Int.bmod_def]
    split <;> omega
  rw [this]

variable {α : Type} {nw : Int → R Int}

/-- two loops which do the same as long as something holds which the second loop keeps -/
theorem foldlM_congr_inv {β γ : Type} {f g : β → γ → R β} (P : β → Prop) : ∀ {l : List γ} {b : β}, P b →
    (∀ b, P b → ∀ a ∈ l, f b a = g b a) → (∀ b, P b → ∀ a ∈ l, ∀ b', g b a = .ok b' → P b') → l.foldlM f b = l.foldlM g b
  | [], _, _, _, _ => rfl
  | a :: l, b, hb, h, k => by
    rw [List.foldlM_cons, List.foldlM_cons, h b hb a List.mem_cons_self]
    cases hg : g b a with
    | error e => rfl
    | ok b' =>
      exact foldlM_congr_inv P (k b hb a List.mem_cons_self b' hg) (fun b hb a ha => h b hb a (List.mem_cons_of_mem _ ha))
        (fun b hb a ha => k b hb a (List.mem_cons_of_mem _ ha))

/-- a well-formed map of the given size -/
def SizedMap (w h : Int) (m : Map2d α) : Prop := m.WF ∧ m.w = w ∧ m.h = h

theorem writeAt_sized {m m' : Map2d α} {w h y x : Int} {v : α} (hm : SizedMap w h m) (hw : writeAt m y x v = .ok m') :
    SizedMap w h m' := by
  haveI : Inhabited α := ⟨v⟩
  obtain ⟨m1, h1, h2, h3, h4, _⟩ := writeAt_spec hm.1 y x v
  cases h1.symm.trans hw
  exact ⟨h2, h3.trans hm.2.1, h4.trans hm.2.2⟩

theorem indexM_right (hn : RightIn32 nw) {m : Map2d α} (hm : m.WF) (hf : m.Fits) {y x : Int} (h : m.Has y x) :
    indexM nw m.w y x = .ok (y * m.w + x) := by
  obtain ⟨a, b, c, d⟩ := h
  have k1 : 0 ≤ y * m.w := Int.mul_nonneg a hm.w
  have k2 : (y + 1) * m.w ≤ m.h * m.w := Int.mul_le_mul_of_nonneg_right (by omega) hm.w
  have k3 : (y + 1) * m.w = y * m.w + m.w := by rw [Int.add_mul, Int.one_mul]
  have k4 : m.h * m.w ≤ maxI32 := by rw [Int.mul_comm]; exact hf
  have k5 : minI32 ≤ 0 := by decide
  unfold indexM
  rw [hn (y * m.w) (by omega) (by omega)]
  exact hn _ (by omega) (by omega)

theorem readAtM_right [Inhabited α] (hn : RightIn32 nw) {m : Map2d α} (hm : m.WF) (hf : m.Fits) (y x : Int) :
    readAtM nw m y x = readAt m y x := by
  unfold readAtM readAt
  by_cases h : m.Has y x
  · rw [if_neg ((has_iff m y x).2 h), if_neg ((has_iff m y x).2 h), indexM_right hn hm hf h]
    have := (has_index hm h).1
    show (if y * m.w + x < 0 then _ else _) = _
    rw [if_neg (by omega)]
  · have : y < 0 ∨ x < 0 ∨ x ≥ m.w ∨ y ≥ m.h := by by_contra hc; exact h ((has_iff m y x).1 hc)
    rw [if_pos this, if_pos this]

theorem writeAtM_right (hn : RightIn32 nw) {m : Map2d α} (hm : m.WF) (hf : m.Fits) (y x : Int) (v : α) :
    writeAtM nw m y x v = writeAt m y x v := by
  unfold writeAtM writeAt
  by_cases h : m.Has y x
  · rw [if_neg ((has_iff m y x).2 h), if_neg ((has_iff m y x).2 h), indexM_right hn hm hf h]
    have := has_index hm h
    show (if 0 ≤ y * m.w + x ∧ (y * m.w + x).toNat < m.arr.length then _ else _) = _
    rw [if_pos this, if_pos this.2]
  · have : y < 0 ∨ x < 0 ∨ x ≥ m.w ∨ y ≥ m.h := by by_contra hc; exact h ((has_iff m y x).1 hc)
    rw [if_pos this, if_pos this]

theorem SizedMap.fits {m : Map2d α} {w h : Int} (hm : SizedMap w h m) (hf : w * h ≤ maxI32) : m.Fits := by
  unfold Map2d.Fits; rw [hm.2.1, hm.2.2]; exact hf

theorem makeMap2dM_right (hn : RightIn32 nw) {h w : Int} (h1 : 0 ≤ h) (h2 : 0 ≤ w) (hf : w * h ≤ maxI32) :
    makeMap2dM nw h w = makeMap2d h w := by
  have : 0 ≤ w * h := Int.mul_nonneg h2 h1
  have k5 : minI32 ≤ 0 := by decide
  unfold makeMap2dM makeMap2d
  rw [hn (w * h) (by omega) hf]
  rfl

theorem makeMap2d_sized {h w : Int} (h1 : 0 ≤ h) (h2 : 0 ≤ w) : ∃ m, makeMap2d h w = .ok m ∧ SizedMap w h m := by
  obtain ⟨arr, k1, k2, _⟩ := blank_spec (0 : Rat) h2 h1
  exact ⟨⟨arr, w, h⟩, by unfold makeMap2d; rw [k1]; rfl, k2, rfl, rfl⟩

theorem writeOffM_right (hn : RightIn32 nw) {m : Map2d α} (hm : m.WF) (hf : m.Fits) {cx cy : Int} {p : Int × Int} (v : α)
    (hy : Fit32 (cy + p.1) (cy + p.1)) (hx : Fit32 (cx + p.2) (cx + p.2)) :
    writeOffM nw cx cy v m p = writeAt m (cy + p.1) (cx + p.2) v := by
  unfold writeOffM
  rw [hn _ hy.1 hy.2]
  show (do let xx ← nw (cx + p.2); writeAtM nw m (cy + p.1) xx v) = _
  rw [hn _ hx.1 hx.2]
  exact writeAtM_right hn hm hf _ _ v

theorem drawBoxM_right (hn : RightIn32 nw) {m : Map2d α} (hm : m.WF) (hf : m.Fits) {cx cy w h : Int} (v : α)
    (hx : Fit32 cx (cx + w - 1)) (hy : Fit32 cy (cy + h - 1)) : drawBoxM nw m cx cy w h v = drawBox m cx cy w h v := by
  unfold drawBoxM drawBox
  refine foldlM_congr_inv (SizedMap m.w m.h) ⟨hm, rfl, rfl⟩ ?_ ?_
  · rintro b hb ⟨y, x⟩ ha
    rw [mem_gridPoints] at ha
    obtain ⟨⟨a1, a2⟩, a3, a4⟩ := ha
    obtain ⟨x1, x2⟩ := hx
    obtain ⟨y1, y2⟩ := hy
    refine writeOffM_right hn hb.1 (hb.fits hf) v ⟨?_, ?_⟩ ⟨?_, ?_⟩ <;> simp only <;> omega
  · rintro b hb ⟨y, x⟩ _ b' k
    exact writeAt_sized hb k

theorem cropM_right [Inhabited α] (hn : RightIn32 nw) {m : Map2d α} (hm : m.WF) (hf : m.Fits) {x y sx sy : Int}
    (h1 : 0 ≤ sx) (h2 : 0 ≤ sy) (hs : sx * sy ≤ maxI32) (hx : Fit32 x (x + sx - 1)) (hy : Fit32 y (y + sy - 1)) :
    cropM nw m x y sx sy = crop m x y sx sy := by
  have k5 : minI32 ≤ 0 := by decide
  have k6 : 0 ≤ sx * sy := Int.mul_nonneg h1 h2
  obtain ⟨arr, k1, k2, _⟩ := blank_spec (default : α) h1 h2
  unfold cropM crop
  rw [hn (sx * sy) (by omega) hs]
  show (do let arr ← vecOf default (sx * sy); _) = (do let arr ← vecOf default (sx * sy); _)
  rw [k1]
  refine foldlM_congr_inv (SizedMap sx sy) ⟨k2, rfl, rfl⟩ ?_ ?_
  · rintro b hb ⟨iy, ix⟩ ha
    rw [mem_gridPoints] at ha
    obtain ⟨⟨a1, a2⟩, a3, a4⟩ := ha
    obtain ⟨x1, x2⟩ := hx
    obtain ⟨y1, y2⟩ := hy
    unfold cropPixelM
    simp only
    rw [hn (y + iy) (by omega) (by omega)]
    show (do let xx ← nw (x + ix); let v ← readAtM nw m (y + iy) xx; writeAtM nw b iy ix v) = _
    rw [hn (x + ix) (by omega) (by omega)]
    show (do let v ← readAtM nw m (y + iy) (x + ix); writeAtM nw b iy ix v) = _
    rw [readAtM_right hn hm hf]
    congr 1
    funext v
    exact writeAtM_right hn hb.1 (hb.fits hs) _ _ v
  · rintro b hb ⟨iy, ix⟩ _ b' k
    simp only at k
    obtain ⟨v, _, k⟩ := R.bind_ok.1 k
    exact writeAt_sized hb k

theorem drawLineM_right (hn : RightIn32 nw) (sqrt : Rat → Rat) {m : Map2d α} (hm : m.WF) (hf : m.Fits) (ax ay bx by' : Int)
    (v : α) : drawLineM nw sqrt m ax ay bx by' v = drawLine sqrt m ax ay bx by' v := by
  unfold drawLineM drawLine
  refine foldlM_congr_inv (SizedMap m.w m.h) ⟨hm, rfl, rfl⟩ ?_ ?_
  · rintro b hb ⟨y, x⟩ _
    simp only
    rw [writeAtM_right hn hb.1 (hb.fits hf)]
  · rintro b hb ⟨y, x⟩ _ b' k
    simp only at k
    split at k
    · exact writeAt_sized hb k
    · cases k; exact hb

theorem zipM_right (hn : RightIn32 nw) (f : Rat → Rat → Rat) {a b : Map2d Rat} (ha : a.WF) (hf : a.Fits) (hb : b.WF)
    (hg : b.Fits) :
    (do let res ← makeMap2dM nw a.h a.w; (gridPoints 0 a.h 0 a.w).foldlM (zipPixelM nw f a b) res) =
    (do let res ← makeMap2d a.h a.w
        (gridPoints 0 a.h 0 a.w).foldlM (fun res (iy, ix) => do
          let av ← readAt a iy ix
          let bv ← readAt b iy ix
          writeAt res iy ix (f av bv)) res) := by
  rw [makeMap2dM_right hn ha.h ha.w hf]
  obtain ⟨m, h1, h2⟩ := makeMap2d_sized ha.h ha.w
  rw [h1]
  refine foldlM_congr_inv (SizedMap a.w a.h) h2 ?_ ?_
  · rintro c hc ⟨y, x⟩ _
    unfold zipPixelM
    simp only
    rw [readAtM_right hn ha hf, readAtM_right hn hb hg]
    congr 1; funext u; congr 1; funext w
    exact writeAtM_right hn hc.1 (hc.fits hf) _ _ _
  · rintro c hc ⟨y, x⟩ _ c' k
    simp only at k
    obtain ⟨v, _, k⟩ := R.bind_ok.1 k
    obtain ⟨w, _, k⟩ := R.bind_ok.1 k
    exact writeAt_sized hc k

theorem mapDivM_right (hn : RightIn32 nw) {a : Map2d Rat} (ha : a.WF) (hf : a.Fits) (d : Rat) :
    mapDivM nw a d = mapDiv a d := by
  unfold mapDivM mapDiv
  rw [makeMap2dM_right hn ha.h ha.w hf]
  obtain ⟨m, h1, h2⟩ := makeMap2d_sized ha.h ha.w
  rw [h1]
  refine foldlM_congr_inv (SizedMap a.w a.h) h2 ?_ ?_
  · rintro c hc ⟨y, x⟩ _
    unfold divPixelM
    simp only
    rw [readAtM_right hn ha hf]
    congr 1; funext u
    exact writeAtM_right hn hc.1 (hc.fits hf) _ _ _
  · rintro c hc ⟨y, x⟩ _ c' k
    simp only at k
    obtain ⟨v, _, k⟩ := R.bind_ok.1 k
    exact writeAt_sized hc k

theorem distPow2M_right (hn : RightIn32 nw) {a : Map2d Rat} (ha : a.WF) (hf : a.Fits) : distPow2M nw a = distPow2 a := by
  unfold distPow2M distPow2
  refine foldlM_congr_mem ?_
  rintro s ⟨y, x⟩ _
  unfold lengthPixelM
  simp only
  rw [readAtM_right hn ha hf]

/-! ## circles -/

theorem drawCircleM_range (hn : RightIn32 nw) (m : Map2d α) (cx cy : Int) (v : α) {r lo hi : Int} (h1 : minI32 ≤ r)
    (h2 : r < maxI32) (e1 : -(r + 1) = lo) (e2 : r + 1 = hi) :
    drawCircleM nw m cx cy r v = (gridPoints lo hi lo hi).foldlM (circlePixelM nw cx cy r v) m := by
  have k1 : minI32 = -2147483648 := rfl
  have k2 : maxI32 = 2147483647 := rfl
  subst e1 e2
  unfold drawCircleM
  rw [hn (r + 1) (by omega) (by omega)]
  show (do let lo ← nw (-(r + 1)); _) = _
  rw [hn (-(r + 1)) (by omega) (by omega)]
  rfl

theorem first_point {lo hi : Int} (h : lo < hi) : ∃ rest, gridPoints lo hi lo hi = (lo, lo) :: rest := by
  obtain ⟨k, hk⟩ : ∃ k : Nat, (hi - lo).toNat = k + 1 := ⟨(hi - lo).toNat - 1, by omega⟩
  unfold gridPoints intRange
  rw [hk, List.range_succ_eq_map]
  simp

theorem square_le {r a : Int} (h1 : -(r + 1) ≤ a) (h2 : a < r + 1) : 0 ≤ a * a ∧ a * a ≤ (r + 1) * (r + 1) := by
  constructor
  · exact mul_self_nonneg a
  · nlinarith

theorem squareSumM_right (hn : RightIn32 nw) {r : Int} (hr : r ≤ 32766) {y x : Int} (hy : -(r + 1) ≤ y ∧ y < r + 1)
    (hx : -(r + 1) ≤ x ∧ x < r + 1) : squareSumM nw (y, x) = .ok (x * x + y * y) := by
  obtain ⟨a1, a2⟩ := square_le hy.1 hy.2
  obtain ⟨b1, b2⟩ := square_le hx.1 hx.2
  have hr0 : 0 ≤ r := by omega
  have k5 : minI32 ≤ 0 := by decide
  have k : (r + 1) * (r + 1) ≤ 32767 * 32767 := by nlinarith
  have k7 : (32767 * 32767 : Int) + 32767 * 32767 ≤ maxI32 := by decide
  unfold squareSumM
  simp only
  rw [hn (x * x) (by omega) (by omega)]
  show (do let b ← nw (y * y); nw (x * x + b)) = _
  rw [hn (y * y) (by omega) (by omega)]
  exact hn _ (by omega) (by omega)

theorem drawCircleM_right (hn : RightIn32 nw) {m : Map2d α} (hm : m.WF) (hf : m.Fits) {cx cy r : Int} (v : α)
    (hr0 : minI32 ≤ r) (hr : r ≤ 32766) (hx : Fit32 (cx - r - 1) (cx + r)) (hy : Fit32 (cy - r - 1) (cy + r)) :
    drawCircleM nw m cx cy r v = drawCircle m cx cy r v := by
  have k1 : minI32 = -2147483648 := rfl
  have k2 : maxI32 = 2147483647 := rfl
  unfold drawCircleM drawCircle
  rw [hn (r + 1) (by omega) (by omega)]
  show (do let lo ← nw (-(r + 1)); _) = _
  rw [hn (-(r + 1)) (by omega) (by omega)]
  refine foldlM_congr_inv (SizedMap m.w m.h) ⟨hm, rfl, rfl⟩ ?_ ?_
  · rintro b hb ⟨y, x⟩ ha
    rw [mem_gridPoints] at ha
    obtain ⟨a1, a3⟩ := ha
    obtain ⟨x1, x2⟩ := hx
    obtain ⟨y1, y2⟩ := hy
    unfold circlePixelM
    rw [squareSumM_right hn hr a1 a3]
    show (if x * x + y * y ≤ r then _ else _) = _
    rw [writeOffM_right hn hb.1 (hb.fits hf) v ⟨by simp only; omega, by simp only; omega⟩ ⟨by simp only; omega, by simp only; omega⟩]
  · rintro b hb ⟨y, x⟩ _ b' k
    simp only at k
    split at k
    · exact writeAt_sized hb k
    · cases k; exact hb

end Nar
