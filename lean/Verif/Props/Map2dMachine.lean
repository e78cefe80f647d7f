import Verif.Lemmas.Map2dMachine
import Mathlib.Tactic.Ring
/-! # Property theorems about pixel maps with 32 bit arithmetic (C44)

The theorems of `Verif.Props.Map2d` are about exact arithmetic.  Here: a program with 32 bit numbers does the same on maps whose
number of pixels fits, whether it stops at an overflow or goes on with the wrong number; and how it fails beyond. -/
namespace Nar.Props
open Nar

/-- C44: both ways of building the program compute right as long as the result fits. -/
theorem C44_both_builds : RightIn32 checked32 ∧ RightIn32 wrapped32 := ⟨right_checked, right_wrapped⟩

/-- C44: reading and writing on a map whose number of pixels fits is exact for every position whatsoever. -/
theorem C44_read_write_in_32_bits {α : Type} [Inhabited α] (nw : Int → R Int) (hn : RightIn32 nw) (m : Map2d α) (hm : m.WF)
    (hf : m.Fits) (y x : Int) (v : α) :
    readAtM nw m y x = readAt m y x ∧ writeAtM nw m y x v = writeAt m y x v :=
  ⟨readAtM_right hn hm hf y x, writeAtM_right hn hm hf y x v⟩

/-- C44: so is making a map, cutting out a rectangle whose pixels have numbers, and the arithmetic on maps. -/
theorem C44_maps_in_32_bits (nw : Int → R Int) (hn : RightIn32 nw) :
    (∀ h w : Int, 0 ≤ h → 0 ≤ w → w * h ≤ maxI32 → makeMap2dM nw h w = makeMap2d h w) ∧
    (∀ (m : Map2d Rat) (x y sx sy : Int), m.WF → m.Fits → 0 ≤ sx → 0 ≤ sy → sx * sy ≤ maxI32 → Fit32 x (x + sx - 1) →
      Fit32 y (y + sy - 1) → cropM nw m x y sx sy = crop m x y sx sy) ∧
    (∀ a b : Map2d Rat, a.WF → a.Fits → b.WF → b.Fits → mapAddM nw a b = mapAdd a b ∧ mapSubM nw a b = mapSub a b) ∧
    (∀ (a : Map2d Rat) (d : Rat), a.WF → a.Fits → mapDivM nw a d = mapDiv a d ∧ distPow2M nw a = distPow2 a) :=
  ⟨fun _ _ h1 h2 h3 => makeMap2dM_right hn h1 h2 h3,
   fun _ _ _ _ _ hm hf h1 h2 hs hx hy => cropM_right hn hm hf h1 h2 hs hx hy,
   fun _ _ ha hf hb hg => ⟨zipM_right hn (fun x y => x + y) ha hf hb hg, zipM_right hn (fun x y => x - y) ha hf hb hg⟩,
   fun _ d ha hf => ⟨mapDivM_right hn ha hf d, distPow2M_right hn ha hf⟩⟩

/-- C44: drawing is exact too if the positions of the pixels of the shape have numbers; a line always is, a circle only up to the
radius 32766. -/
theorem C44_drawing_in_32_bits {α : Type} (nw : Int → R Int) (hn : RightIn32 nw) (m : Map2d α) (hm : m.WF)
    (hf : m.Fits) (v : α) :
    (∀ cx cy w h : Int, Fit32 cx (cx + w - 1) → Fit32 cy (cy + h - 1) → drawBoxM nw m cx cy w h v = drawBox m cx cy w h v) ∧
    (∀ cx cy r : Int, minI32 ≤ r → r ≤ 32766 → Fit32 (cx - r - 1) (cx + r) → Fit32 (cy - r - 1) (cy + r) →
      drawCircleM nw m cx cy r v = drawCircle m cx cy r v) ∧
    (∀ (sqrt : Rat → Rat) (ax ay bx by' : Int), drawLineM nw sqrt m ax ay bx by' v = drawLine sqrt m ax ay bx by' v) :=
  ⟨fun _ _ _ _ hx hy => drawBoxM_right hn hm hf v hx hy,
   fun _ _ _ h1 h2 hx hy => drawCircleM_right hn hm hf v h1 h2 hx hy,
   fun sqrt ax ay bx by' => drawLineM_right hn sqrt hm hf ax ay bx by' v⟩

/-- a picture of 640 times 480 pixels, and a circle in its middle, are well within the limits -/
example : ∃ m : Map2d Rat, makeMap2dM checked32 480 640 = .ok m ∧ m.WF ∧ m.Fits ∧
    Fit32 (320 - 100 - 1) (320 + 100) ∧ Fit32 (240 - 100 - 1) (240 + 100) := by
  obtain ⟨m, h1, h2⟩ := makeMap2d_sized (h := 480) (w := 640) (by decide) (by decide)
  exact ⟨m, (makeMap2dM_right right_checked (by decide) (by decide) (by decide)).trans h1, h2.1,
    h2.fits (by decide), ⟨by decide, by decide⟩, ⟨by decide, by decide⟩⟩

example : (readAtM wrapped32 (⟨[1, 2, 3, 4, 5, 6], 3, 2⟩ : Map2d Nat) 1 2 = .ok 6) ∧
    (readAtM checked32 (⟨[1, 2, 3, 4, 5, 6], 3, 2⟩ : Map2d Nat) maxI32 minI32 = .ok 0) := by
  constructor <;> rfl

/-- C44, violated: a circle of radius 32767 or more crashes a program which checks its arithmetic, wherever it is and however
small the map. -/
theorem C44_large_circle_crashes {α : Type} (m : Map2d α) (cx cy r : Int) (hr : 32767 ≤ r) (v : α) :
    drawCircleM checked32 m cx cy r v = .error .explicit := by
  have k1 : minI32 = -2147483648 := rfl
  have k2 : maxI32 = 2147483647 := rfl
  by_cases h : r + 1 ≤ maxI32
  · unfold drawCircleM
    rw [right_checked (r + 1) (by omega) h]
    show (do let lo ← checked32 (-(r + 1)); _) = _
    rw [right_checked (-(r + 1)) (by omega) (by omega)]
    obtain ⟨rest, he⟩ := first_point (lo := -(r + 1)) (hi := r + 1) (by omega)
    show (gridPoints (-(r + 1)) (r + 1) (-(r + 1)) (r + 1)).foldlM _ m = _
    rw [he, List.foldlM_cons]
    have : squareSumM checked32 (-(r + 1), -(r + 1)) = .error .explicit := by
      have e : -(r + 1) * -(r + 1) = (r + 1) * (r + 1) := by ring
      have l : 32768 * 32768 ≤ (r + 1) * (r + 1) := by nlinarith
      unfold squareSumM
      simp only
      rw [e]
      by_cases hs : (r + 1) * (r + 1) ≤ maxI32
      · rw [right_checked _ (by omega) hs]
        show checked32 ((r + 1) * (r + 1) + (r + 1) * (r + 1)) = _
        unfold checked32
        rw [if_neg (by omega)]
      · unfold checked32
        rw [if_neg (by omega)]; rfl
    unfold circlePixelM
    rw [this]; rfl
  · unfold drawCircleM checked32
    rw [if_neg (by omega)]; rfl

/-- C44, violated: a program which does not check its arithmetic colours the corner of the square around a circle of radius
32767, though it is at a distance of more than 46340 from the centre. -/
theorem C44_large_circle_strays {α : Type} [Inhabited α] (m : Map2d α) (hm : m.WF) (hf : m.Fits) (cx cy : Int)
    (hx : Fit32 (cx - 32768) (cx + 32767)) (hy : Fit32 (cy - 32768) (cy + 32767)) (v : α) :
    ∃ m', drawCircleM wrapped32 m cx cy 32767 v = .ok m' ∧
      (m.Has (cy - 32768) (cx - 32768) → readAt m' (cy - 32768) (cx - 32768) = .ok v) := by
  obtain ⟨d, hd⟩ : ∃ d : Int × Int → Int, ∀ p, squareSumM wrapped32 p = .ok (d p) := ⟨fun p => _, fun p => rfl⟩
  obtain ⟨m', h1, h2, h3, h4, h5, h6⟩ := paint_spec (fun p : Int × Int => d p ≤ 32767) (fun p => cy + p.1) (fun p => cx + p.2)
    (fun _ _ => v) (gridPoints (-32768) 32768 (-32768) 32768) hm
  refine ⟨m', ?_, fun hh => ?_⟩
  · rw [← h1]
    rw [drawCircleM_range right_wrapped m cx cy v (r := 32767) (lo := -32768) (hi := 32768) (by decide) (by decide) (by decide)
      (by decide)]
    refine foldlM_congr_inv (SizedMap m.w m.h) ⟨hm, rfl, rfl⟩ ?_ ?_
    · rintro b hb ⟨y, x⟩ ha
      rw [mem_gridPoints] at ha
      obtain ⟨⟨a1, a2⟩, a3, a4⟩ := ha
      obtain ⟨x1, x2⟩ := hx
      obtain ⟨y1, y2⟩ := hy
      unfold circlePixelM
      rw [hd]
      show (if d (y, x) ≤ 32767 then _ else _) = _
      rw [writeOffM_right right_wrapped hb.1 (hb.fits hf) v ⟨by simp only; omega, by simp only; omega⟩
        ⟨by simp only; omega, by simp only; omega⟩]
    · rintro b hb ⟨y, x⟩ _ b' k
      simp only at k
      split at k
      · exact writeAt_sized hb k
      · cases k; exact hb
  · refine h5 _ _ hh ⟨(-32768, -32768), mem_gridPoints.2 ⟨⟨by decide, by decide⟩, by decide, by decide⟩, ?_, by simp only; omega,
      by simp only; omega⟩
    have : squareSumM wrapped32 (-32768, -32768) = .ok (-2147483648) := by decide +kernel
    rw [hd] at this
    rw [Except.ok.inj this]
    decide

/-- such a corner can be on a small map -/
example : ∃ m : Map2d Nat, m.WF ∧ m.Fits ∧ m.Has (32768 - 32768) (32768 - 32768) ∧ Fit32 (32768 - 32768) (32768 + 32767) :=
  ⟨⟨[0], 1, 1⟩, ⟨by decide, by decide, by decide⟩, by unfold Map2d.Fits; decide, by decide, ⟨by decide, by decide⟩⟩

/-- C44, violated: a map with too many pixels cannot be made by a program which checks its arithmetic; one which does not check
may get a map which has no pixels at all, and crashes as soon as one of them is read or written. -/
theorem C44_large_map_has_no_pixels : makeMap2dM checked32 65536 65536 = .error .explicit ∧
    ∃ m, makeMap2dM wrapped32 65536 65536 = .ok m ∧ m.Has 0 0 ∧ readAtM wrapped32 m 0 0 = .error .index ∧
      ∀ v, writeAtM wrapped32 m 0 0 v = .error .index := by
  refine ⟨rfl, ⟨[], 65536, 65536⟩, by rfl, by decide, by decide +kernel, fun v => by rfl⟩

end Nar.Props
