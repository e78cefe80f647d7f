import Verif.Lemmas.Map2d
import Mathlib.Tactic.Ring
import Mathlib.Tactic.FieldSimp
import Mathlib.Tactic.NormNum
/-! # Property theorems about pixel maps (C44) -/
namespace Nar.Props
open Nar

/-- C44: a new map has the requested size and all its pixels are zero. -/
theorem C44_new_map_blank (h w : Int) (hh : 0 ≤ h) (hw : 0 ≤ w) :
    ∃ m, makeMap2d h w = .ok m ∧ m.WF ∧ m.h = h ∧ m.w = w ∧ ∀ y x, readAt m y x = .ok 0 := by
  obtain ⟨arr, h1, h2, h3⟩ := blank_spec (0 : Rat) hw hh
  refine ⟨⟨arr, w, h⟩, by unfold makeMap2d; rw [h1]; rfl, h2, rfl, rfl, fun y x => ?_⟩
  by_cases hx : (⟨arr, w, h⟩ : Map2d Rat).Has y x
  · exact h3 y x hx
  · exact readAt_out _ hx

/-- C44: a map with exactly one negative dimension cannot be made. -/
theorem C44_new_map_crash (h w : Int) (hn : (h < 0 ∧ 0 < w) ∨ (0 < h ∧ w < 0)) : makeMap2d h w = .error .explicit := by
  have : w * h < 0 := by
    rcases hn with ⟨h1, h2⟩ | ⟨h1, h2⟩
    · exact Int.mul_neg_of_pos_of_neg h2 h1
    · exact Int.mul_neg_of_neg_of_pos h2 h1
  unfold makeMap2d vecOf
  rw [if_pos this]; rfl

/-- C44: every position can be read; positions outside of the map read as the default value. -/
theorem C44_read {α : Type} [Inhabited α] (m : Map2d α) (hm : m.WF) (y x : Int) :
    (∃ v, readAt m y x = .ok v) ∧ (¬ m.Has y x → readAt m y x = .ok default) :=
  ⟨readAt_total hm y x, readAt_out m⟩

/-- C44: every write succeeds and keeps the size; a written pixel on the map reads as the value written and every other
position reads as before; a write outside of the map changes nothing. -/
theorem C44_write {α : Type} [Inhabited α] (m : Map2d α) (hm : m.WF) (y x : Int) (v : α) :
    ∃ m', writeAt m y x v = .ok m' ∧ m'.WF ∧ m'.w = m.w ∧ m'.h = m.h ∧
      (m.Has y x → readAt m' y x = .ok v) ∧
      (∀ y' x', (y', x') ≠ (y, x) → readAt m' y' x' = readAt m y' x') ∧
      (¬ m.Has y x → m' = m) := by
  obtain ⟨m', h1, h2, h3, h4, h5⟩ := writeAt_spec hm y x v
  refine ⟨m', h1, h2, h3, h4, fun h => by rw [h5, if_pos ⟨h, rfl⟩],
    fun y' x' h => by rw [h5, if_neg (fun hc => h hc.2)], fun h => ?_⟩
  rw [writeAt_out m v h] at h1
  cases h1; rfl

/-- C44: after any sequence of writes a pixel of the map shows the value written to it last. -/
theorem C44_last_write_wins {α : Type} [Inhabited α] (m : Map2d α) (hm : m.WF) (ws ws' : List (Int × Int × α)) (y x : Int) (v : α)
    (hin : m.Has y x) (hlast : ∀ w ∈ ws', (w.1, w.2.1) ≠ (y, x)) :
    ∃ m', writeAll m (ws ++ (y, x, v) :: ws') = .ok m' ∧ readAt m' y x = .ok v := by
  have gen : ∀ (l : List (Int × Int × α)) (m : Map2d α), m.WF → ∃ m', writeAll m l = .ok m' ∧ m'.WF ∧ m'.w = m.w ∧ m'.h = m.h ∧
      ((∀ w ∈ l, (w.1, w.2.1) ≠ (y, x)) → readAt m' y x = readAt m y x) := by
    intro l
    induction l with
    | nil => exact fun m hm => ⟨m, rfl, hm, rfl, rfl, fun _ => rfl⟩
    | cons w l ih =>
      intro m hm
      obtain ⟨m1, h1, h2, h3, h4, h5⟩ := writeAt_spec hm w.1 w.2.1 w.2.2
      obtain ⟨m', k1, k2, k3, k4, k5⟩ := ih m1 h2
      refine ⟨m', foldlM_cons_ok.2 ⟨m1, h1, k1⟩, k2, k3.trans h3, k4.trans h4, fun hn => ?_⟩
      rw [k5 (fun w hw => hn w (List.mem_cons_of_mem _ hw)), h5, if_neg]
      rintro ⟨_, he⟩
      exact hn w List.mem_cons_self he.symm
  obtain ⟨m1, h1, w1, s1, s2, _⟩ := gen ws m hm
  have hin1 : m1.Has y x := by unfold Map2d.Has at hin ⊢; rw [s1, s2]; exact hin
  obtain ⟨m2, h2, w2, _, _, r2⟩ := writeAt_spec w1 y x v
  obtain ⟨m3, h3, _, _, _, r3⟩ := gen ws' m2 w2
  refine ⟨m3, ?_, ?_⟩
  · unfold writeAll at h1 h3 ⊢
    rw [List.foldlM_append]
    exact R.bind_ok.2 ⟨m1, h1, foldlM_cons_ok.2 ⟨m2, h2, h3⟩⟩
  · rw [r3 hlast, r2, if_pos ⟨hin1, rfl⟩]

/-- a map of two rows and three columns -/
example : (writeAll (⟨[0, 0, 0, 0, 0, 0], 3, 2⟩ : Map2d Nat) [(1, 2, 7), (0, 1, 5), (0, 1, 4), (2, 0, 9)]) =
    .ok ⟨[0, 4, 0, 0, 0, 7], 3, 2⟩ := by decide
example : Map2d.WF (⟨[0, 0, 0, 0, 0, 0], 3, 2⟩ : Map2d Nat) ∧ Map2d.Has (⟨[0, 0, 0, 0, 0, 0], 3, 2⟩ : Map2d Nat) 1 2 :=
  ⟨⟨by decide, by decide, by decide⟩, by decide⟩

/-- C44: two maps of the same size which read the same everywhere are the same. -/
theorem C44_extensional {α : Type} [Inhabited α] (a b : Map2d α) (ha : a.WF) (hb : b.WF) (hw : a.w = b.w) (hh : a.h = b.h)
    (hr : ∀ y x, readAt a y x = readAt b y x) : a = b := by
  obtain ⟨arr, w, h⟩ := a
  obtain ⟨arr', w', h'⟩ := b
  simp only at hw hh
  subst hw hh
  congr 1
  have l1 := ha.pixels
  have l2 := hb.pixels
  simp only at l1 l2
  refine List.ext_getElem (by omega) (fun i h1 h2 => ?_)
  have hwp : 0 < w := by
    have := ha.w
    simp only at this
    rcases Int.lt_or_eq_of_le this with h0 | h0
    · exact h0
    · rw [← h0, Int.zero_mul] at l1; omega
  have q1 := Int.mul_ediv_add_emod (i : Int) w
  have q2 := Int.emod_nonneg (i : Int) (b := w) (by omega)
  have q3 := Int.emod_lt_of_pos (i : Int) hwp
  have q4 : 0 ≤ (i : Int) / w := Int.ediv_nonneg (by omega) (by omega)
  have q5 : (i : Int) / w < h := by
    rw [Int.ediv_lt_iff_lt_mul hwp, Int.mul_comm]; omega
  have e : (i : Int) / w * w + (i : Int) % w = i := by rw [Int.mul_comm ((i : Int) / w) w]; exact q1
  have hhas : (⟨arr, w, h⟩ : Map2d α).Has ((i : Int) / w) ((i : Int) % w) := ⟨q4, q5, q2, q3⟩
  have hhas' : (⟨arr', w, h⟩ : Map2d α).Has ((i : Int) / w) ((i : Int) % w) := ⟨q4, q5, q2, q3⟩
  have := hr ((i : Int) / w) ((i : Int) % w)
  rw [readAt_in ha hhas, readAt_in hb hhas'] at this
  simp only [e, Int.toNat_natCast] at this
  exact Except.ok.inj this

/-- C44: cropping gives a map of the requested size whose pixels are those of the rectangle, default values where the
rectangle reaches over the edge. -/
theorem C44_crop {α : Type} [Inhabited α] (m : Map2d α) (hm : m.WF) (x y sx sy : Int) (hx : 0 ≤ sx) (hy : 0 ≤ sy) :
    ∃ c, crop m x y sx sy = .ok c ∧ c.WF ∧ c.w = sx ∧ c.h = sy ∧
      ∀ iy ix, 0 ≤ iy ∧ iy < sy → 0 ≤ ix ∧ ix < sx → readAt c iy ix = readAt m (y + iy) (x + ix) := by
  obtain ⟨arr, ha, hwf, _⟩ := blank_spec (default : α) hx hy
  let F : Int → Int → α := fun iy ix => match readAt m (y + iy) (x + ix) with | .ok v => v | .error _ => default
  obtain ⟨c, h1, h2, h3, h4, h5, h6⟩ := paint_spec (fun _ : Int × Int => True) (fun c => c.1) (fun c => c.2) F
    (gridPoints 0 sy 0 sx) hwf
  refine ⟨c, ?_, h2, h3, h4, fun iy ix h7 h8 => ?_⟩
  · unfold crop
    rw [ha]
    show List.foldlM _ _ _ = _
    rw [← h1]
    apply foldlM_congr_mem
    rintro b ⟨iy, ix⟩ hmem
    obtain ⟨v, hv⟩ := readAt_total hm (y + iy) (x + ix)
    simp only [hv, bind, Except.bind, F]
    rw [if_pos trivial]
  · obtain ⟨v, hv⟩ := readAt_total hm (y + iy) (x + ix)
    rw [h5 iy ix ⟨h7.1, h7.2, h8.1, h8.2⟩ ⟨(iy, ix), mem_gridPoints.2 ⟨h7, h8⟩, trivial, rfl, rfl⟩, hv]
    simp only [F, hv]

example : crop (⟨[1, 2, 3, 4, 5, 6], 3, 2⟩ : Map2d Nat) 1 1 3 2 = .ok ⟨[5, 6, 0, 0, 0, 0], 3, 2⟩ := by decide

/-- C44: drawing a box colours exactly the pixels of the box. -/
theorem C44_box {α : Type} [Inhabited α] (m : Map2d α) (hm : m.WF) (cx cy w h : Int) (v : α) :
    ∃ m', drawBox m cx cy w h v = .ok m' ∧
      Painted m m' (fun y x => (cy ≤ y ∧ y < cy + h) ∧ (cx ≤ x ∧ x < cx + w)) v := by
  obtain ⟨m', h1, h2, h3, h4, h5, h6⟩ := paint_spec (fun _ : Int × Int => True) (fun c => cy + c.1) (fun c => cx + c.2)
    (fun _ _ => v) (gridPoints 0 h 0 w) hm
  refine ⟨m', ?_, h2, h3, h4, fun y x hh hreg => ?_, fun y x hreg => ?_⟩
  · unfold drawBox
    rw [← h1]
    apply foldlM_congr_mem
    rintro b ⟨iy, ix⟩ _
    rw [if_pos trivial]
  · exact h5 y x hh ⟨(y - cy, x - cx), mem_gridPoints.2 (by omega), trivial, by simp only; omega, by simp only; omega⟩
  · refine h6 y x ?_
    rintro ⟨⟨iy, ix⟩, hmem, _, e1, e2⟩
    rw [mem_gridPoints] at hmem
    simp only at e1 e2
    exact hreg (by omega)

example : drawBox (⟨[0, 0, 0, 0, 0, 0], 3, 2⟩ : Map2d Nat) 1 0 5 1 8 = .ok ⟨[0, 8, 8, 0, 0, 0], 3, 2⟩ := by decide

/-- C44: drawing a circle colours exactly the pixels whose squared distance from the centre is at most the radius
parameter: the radius of the disk is the square root of what is asked for. -/
theorem C44_circle {α : Type} [Inhabited α] (m : Map2d α) (hm : m.WF) (cx cy r : Int) (v : α) :
    ∃ m', drawCircle m cx cy r v = .ok m' ∧
      Painted m m' (fun y x => (x - cx) * (x - cx) + (y - cy) * (y - cy) ≤ r) v := by
  obtain ⟨m', h1, h2, h3, h4, h5, h6⟩ := paint_spec (fun c : Int × Int => c.2 * c.2 + c.1 * c.1 ≤ r) (fun c => cy + c.1)
    (fun c => cx + c.2) (fun _ _ => v) (gridPoints (-(r + 1)) (r + 1) (-(r + 1)) (r + 1)) hm
  refine ⟨m', h1, h2, h3, h4, fun y x hh hreg => ?_, fun y x hreg => ?_⟩
  · refine h5 y x hh ⟨(y - cy, x - cx), mem_gridPoints.2 ?_, hreg, by simp only; omega, by simp only; omega⟩
    have s1 := mul_self_nonneg (x - cx)
    have s2 := mul_self_nonneg (y - cy)
    have hr : 0 ≤ r := by omega
    constructor
    · constructor
      · nlinarith
      · nlinarith
    · constructor
      · nlinarith
      · nlinarith
  · refine h6 y x ?_
    rintro ⟨⟨iy, ix⟩, hmem, hp, e1, e2⟩
    simp only at e1 e2 hp
    subst e1 e2
    apply hreg
    have a1 : cx + ix - cx = ix := by omega
    have a2 : cy + iy - cy = iy := by omega
    rw [a1, a2]; exact hp

/-- C44, violated: a "circle of radius 4" does not reach the pixels at distance 3 from its centre. -/
theorem C44_circle_too_small : ∃ (m m' : Map2d Nat), m.WF ∧ m.Has 5 8 ∧ drawCircle m 5 5 4 1 = .ok m' ∧
    readAt m' 5 7 = .ok 1 ∧ readAt m' 5 8 = .ok 0 := by
  have h : ((drawCircle (⟨List.replicate 100 0, 10, 10⟩ : Map2d Nat) 5 5 4 1).map fun m' =>
      decide (readAt m' 5 7 = .ok 1) && decide (readAt m' 5 8 = .ok 0)) = .ok true := by decide +kernel
  obtain ⟨m', h1, h2⟩ := R.map_ok.1 h
  rw [Bool.and_eq_true, decide_eq_true_iff, decide_eq_true_iff] at h2
  exact ⟨_, m', ⟨by decide, by decide, by decide⟩, by decide, h1, h2⟩

/-- C44: drawing a line changes pixels of the map only, and those which pass the test of the line get its value. -/
theorem C44_line {α : Type} [Inhabited α] (sqrt : Rat → Rat) (m : Map2d α) (hm : m.WF) (ax ay bx by' : Int) (v : α) :
    ∃ m', drawLine sqrt m ax ay bx by' v = .ok m' ∧
      Painted m m' (fun y x => onLine sqrt ax ay bx by' x y = true) v := by
  obtain ⟨m', h1, h2, h3, h4, h5, h6⟩ := paint_spec (fun c : Int × Int => onLine sqrt ax ay bx by' c.2 c.1 = true)
    (fun c => c.1) (fun c => c.2) (fun _ _ => v) (gridPoints 0 m.h 0 m.w) hm
  refine ⟨m', h1, h2, h3, h4, fun y x hh hreg => ?_, fun y x hreg => ?_⟩
  · exact h5 y x hh ⟨(y, x), mem_gridPoints.2 ⟨⟨hh.1, hh.2.1⟩, hh.2.2.1, hh.2.2.2⟩, hreg, rfl, rfl⟩
  · refine h6 y x ?_
    rintro ⟨⟨iy, ix⟩, _, hp, e1, e2⟩
    simp only at e1 e2 hp
    subst e1 e2
    exact hreg hp

/-- C44, violated: a horizontal line of length three or more is drawn as a dot at its start: only positions in the column
of the start are coloured, and the end is not. -/
theorem C44_line_is_a_dot {α : Type} [Inhabited α] (sqrt : Rat → Rat) (m : Map2d α) (hm : m.WF) (ax ay : Int) (n : Nat) (hn : 3 ≤ n)
    (hs : sqrt ((n : Rat) * n) = n) (v : α) :
    ∃ m', drawLine sqrt m ax ay (ax + n) ay v = .ok m' ∧
      Painted m m' (fun y x => x = ax ∧ ay - 1 ≤ y ∧ y ≤ ay + 1) v := by
  obtain ⟨m', h1, p⟩ := C44_line sqrt m hm ax ay (ax + n) ay v
  have key : ∀ y x, onLine sqrt ax ay (ax + n) ay x y = true ↔ (x = ax ∧ ay - 1 ≤ y ∧ y ≤ ay + 1) := by
    intro y x
    have hn0 : (n : Rat) ≠ 0 := by
      have : (0 : Rat) < n := by exact_mod_cast (by omega : 0 < n)
      exact ne_of_gt this
    have hlen : sqrt (((ax + n : Int) : Rat) - (ax : Rat)) = sqrt (((ax + n : Int) : Rat) - (ax : Rat)) := rfl
    have e1 : (((ax + (n : Int) : Int) : Rat) - (ax : Rat)) = n := by push_cast; ring
    unfold onLine
    simp only [e1, sub_self, mul_zero, add_zero, zero_div, hs]
    rw [if_neg hn0, div_self hn0, mul_one]
    simp only [Bool.and_eq_true, decide_eq_true_iff]
    have e2 : (x : Rat) - (ax + (x - ax) * n) = (((x - ax) * (1 - n) : Int) : Rat) := by push_cast; ring
    have e3 : (y : Rat) - ay = ((y - ay : Int) : Rat) := by push_cast; ring
    have e4 : (x : Rat) - ax = ((x - ax : Int) : Rat) := by push_cast; ring
    rw [e2, e3, e4]
    generalize hd : x - ax = d
    generalize hk : y - ay = k
    have hxd : x = ax + d := by omega
    have hyk : y = ay + k := by omega
    subst hxd hyk
    constructor
    · rintro ⟨⟨h0, _⟩, h2⟩
      have h0' : 0 ≤ d := by exact_mod_cast h0
      have h3 : (4 * (d * (1 - n) * (d * (1 - n)) + k * k) : Int) ≤ 9 := by
        have : ((4 * (d * (1 - n) * (d * (1 - n)) + k * k) : Int) : Rat) ≤ ((9 : Int) : Rat) := by
          push_cast at h2 ⊢
          linarith
        exact_mod_cast this
      have hn' : (3 : Int) ≤ n := by exact_mod_cast hn
      have hd0 : d = 0 := by
        by_contra hne
        have hd1 : 1 ≤ d := by omega
        have hq : 2 ≤ d * (n - 1) := by nlinarith
        have hsq : d * (1 - (n : Int)) * (d * (1 - n)) = d * (n - 1) * (d * (n - 1)) := by ring
        rw [hsq] at h3
        nlinarith [mul_self_nonneg k]
      subst hd0
      have hk2 : 4 * (k * k) ≤ 9 := by simpa using h3
      refine ⟨by omega, ?_, ?_⟩ <;> nlinarith
    · rintro ⟨hx, hy1, hy2⟩
      have hd0 : d = 0 := by omega
      subst hd0
      refine ⟨⟨by norm_num, by simp⟩, ?_⟩
      have hkk : k * k ≤ 1 := by nlinarith
      have : ((k * k : Int) : Rat) ≤ ((1 : Int) : Rat) := by exact_mod_cast hkk
      push_cast at this ⊢
      nlinarith
  refine ⟨m', h1, p.wf, p.w, p.h, fun y x hh hreg => p.inside y x hh ((key y x).2 hreg),
    fun y x hreg => p.outside y x (fun hc => hreg ((key y x).1 hc))⟩

example : drawLine (fun _ => 3) (⟨List.replicate 15 0, 5, 3⟩ : Map2d Nat) 1 1 4 1 1 =
    .ok ⟨[0, 1, 0, 0, 0, 0, 1, 0, 0, 0, 0, 1, 0, 0, 0], 5, 3⟩ := by decide +kernel

/-- C44: the sum of two maps has the size of the first one and is the sum at each of its pixels, where a smaller second map
counts as zero. -/
theorem C44_add (a b : Map2d Rat) (ha : a.WF) (hb : b.WF) :
    ∃ c, mapAdd a b = .ok c ∧ c.WF ∧ c.w = a.w ∧ c.h = a.h ∧
      ∀ y x, a.Has y x → ∃ u v, readAt a y x = .ok u ∧ readAt b y x = .ok v ∧ readAt c y x = .ok (u + v) := by
  obtain ⟨c, h1, h2, h3, h4, h5⟩ := zip_spec ha (fun y x => do let av ← readAt a y x; let bv ← readAt b y x; .ok (av + bv)) (by
    intro y x _
    obtain ⟨u, hu⟩ := readAt_total ha y x
    obtain ⟨v, hv⟩ := readAt_total hb y x
    exact ⟨u + v, by rw [hu, hv]; rfl⟩)
  refine ⟨c, ?_, h2, h3, h4, fun y x hh => ?_⟩
  · rw [← h1]
    unfold mapAdd
    congr 1
    funext res
    apply foldlM_congr_mem
    rintro r ⟨iy, ix⟩ _
    obtain ⟨u, hu⟩ := readAt_total ha iy ix
    obtain ⟨v, hv⟩ := readAt_total hb iy ix
    simp only [hu, hv, bind, Except.bind]
  · obtain ⟨u, hu⟩ := readAt_total ha y x
    obtain ⟨v, hv⟩ := readAt_total hb y x
    refine ⟨u, v, hu, hv, ?_⟩
    rw [h5 y x hh, hu, hv]; rfl

/-- C44: the same for the difference. -/
theorem C44_sub (a b : Map2d Rat) (ha : a.WF) (hb : b.WF) :
    ∃ c, mapSub a b = .ok c ∧ c.WF ∧ c.w = a.w ∧ c.h = a.h ∧
      ∀ y x, a.Has y x → ∃ u v, readAt a y x = .ok u ∧ readAt b y x = .ok v ∧ readAt c y x = .ok (u - v) := by
  obtain ⟨c, h1, h2, h3, h4, h5⟩ := zip_spec ha (fun y x => do let av ← readAt a y x; let bv ← readAt b y x; .ok (av - bv)) (by
    intro y x _
    obtain ⟨u, hu⟩ := readAt_total ha y x
    obtain ⟨v, hv⟩ := readAt_total hb y x
    exact ⟨u - v, by rw [hu, hv]; rfl⟩)
  refine ⟨c, ?_, h2, h3, h4, fun y x hh => ?_⟩
  · rw [← h1]
    unfold mapSub
    congr 1
    funext res
    apply foldlM_congr_mem
    rintro r ⟨iy, ix⟩ _
    obtain ⟨u, hu⟩ := readAt_total ha iy ix
    obtain ⟨v, hv⟩ := readAt_total hb iy ix
    simp only [hu, hv, bind, Except.bind]
  · obtain ⟨u, hu⟩ := readAt_total ha y x
    obtain ⟨v, hv⟩ := readAt_total hb y x
    refine ⟨u, v, hu, hv, ?_⟩
    rw [h5 y x hh, hu, hv]; rfl

/-- C44: dividing by a number other than zero divides every pixel. -/
theorem C44_div (a : Map2d Rat) (ha : a.WF) (d : Rat) (_hd : d ≠ 0) :
    ∃ c, mapDiv a d = .ok c ∧ c.WF ∧ c.w = a.w ∧ c.h = a.h ∧
      ∀ y x, ∃ u, readAt a y x = .ok u ∧ readAt c y x = .ok (u / d) := by
  obtain ⟨c, h1, h2, h3, h4, h5⟩ := zip_spec ha (fun y x => do let av ← readAt a y x; .ok (av / d)) (by
    intro y x _
    obtain ⟨u, hu⟩ := readAt_total ha y x
    exact ⟨u / d, by rw [hu]; rfl⟩)
  refine ⟨c, ?_, h2, h3, h4, fun y x => ?_⟩
  · rw [← h1]
    unfold mapDiv
    congr 1
    funext res
    apply foldlM_congr_mem
    rintro r ⟨iy, ix⟩ _
    obtain ⟨u, hu⟩ := readAt_total ha iy ix
    simp only [hu, bind, Except.bind]
  · by_cases hh : a.Has y x
    · obtain ⟨u, hu⟩ := readAt_total ha y x
      exact ⟨u, hu, by rw [h5 y x hh, hu]; rfl⟩
    · refine ⟨0, readAt_out a hh, ?_⟩
      rw [readAt_out c (by unfold Map2d.Has at hh ⊢; rw [h3, h4]; exact hh), zero_div]
      rfl

example : mapAdd ⟨[1, 2, 3, 4], 2, 2⟩ ⟨[10], 1, 1⟩ = .ok ⟨[11, 2, 3, 4], 2, 2⟩ ∧
    mapSub ⟨[1, 2, 3, 4], 2, 2⟩ ⟨[10], 1, 1⟩ = .ok ⟨[-9, 2, 3, 4], 2, 2⟩ ∧
    mapDiv ⟨[1, 2, 3, 4], 2, 2⟩ 2 = .ok ⟨[1/2, 1, 3/2, 2], 2, 2⟩ := by decide +kernel

/-- C44: adding a map of the same size and subtracting it again gives the map back. -/
theorem C44_add_sub (a b : Map2d Rat) (ha : a.WF) (hb : b.WF) :
    ∃ c, mapAdd a b = .ok c ∧ mapSub c b = .ok a := by
  obtain ⟨c, h1, h2, h3, h4, h5⟩ := C44_add a b ha hb
  obtain ⟨d, k1, k2, k3, k4, k5⟩ := C44_sub c b h2 hb
  refine ⟨c, h1, ?_⟩
  rw [k1]
  congr 1
  refine C44_extensional d a k2 ha (k3.trans h3) (k4.trans h4) (fun y x => ?_)
  by_cases hh : a.Has y x
  · obtain ⟨u, v, e1, e2, e3⟩ := h5 y x hh
    obtain ⟨u', v', f1, f2, f3⟩ := k5 y x (by unfold Map2d.Has at hh ⊢; rw [h3, h4]; exact hh)
    rw [e3] at f1
    rw [e2] at f2
    cases f1; cases f2
    rw [f3, e1, add_sub_cancel_right]
  · rw [readAt_out a hh, readAt_out d (by unfold Map2d.Has at hh ⊢; rw [k3, k4, h3, h4]; exact hh)]

/-- C44: the squared length of a map is never negative, and it is zero exactly if every pixel is zero. -/
theorem C44_length (m : Map2d Rat) (hm : m.WF) :
    ∃ s, distPow2 m = .ok s ∧ 0 ≤ s ∧ (s = 0 ↔ ∀ y x, readAt m y x = .ok 0) := by
  have gen : ∀ (l : List (Int × Int)) (s0 : Rat), 0 ≤ s0 → ∃ s, l.foldlM (fun sum (p : Int × Int) => do
      let v1 ← readAt m p.1 p.2
      (.ok (sum + v1 * v1) : R Rat)) s0 = .ok s ∧ s0 ≤ s ∧ (s = s0 ↔ ∀ p ∈ l, readAt m p.1 p.2 = .ok 0) := by
    intro l
    induction l with
    | nil => exact fun s0 _ => ⟨s0, rfl, le_refl _, by simp⟩
    | cons p l ih =>
      intro s0 h0
      obtain ⟨v, hv⟩ := readAt_total hm p.1 p.2
      obtain ⟨s, h1, h2, h3⟩ := ih (s0 + v * v) (by nlinarith [mul_self_nonneg v])
      refine ⟨s, foldlM_cons_ok.2 ⟨s0 + v * v, by rw [hv]; rfl, h1⟩, by nlinarith [mul_self_nonneg v], ?_⟩
      rw [List.forall_mem_cons, hv]
      constructor
      · intro he
        have hvv : v * v = 0 := by nlinarith [mul_self_nonneg v]
        have hv0 : v = 0 := mul_self_eq_zero.1 hvv
        subst hv0
        exact ⟨rfl, h3.1 (by rw [he]; ring)⟩
      · rintro ⟨hv0, hr⟩
        cases hv0
        rw [h3.2 hr]; ring
  obtain ⟨s, h1, h2, h3⟩ := gen (gridPoints 0 m.h 0 m.w) 0 (le_refl _)
  refine ⟨s, h1, h2, h3.trans ⟨fun h y x => ?_, fun h p _ => h p.1 p.2⟩⟩
  by_cases hh : m.Has y x
  · exact h (y, x) (mem_gridPoints.2 ⟨⟨hh.1, hh.2.1⟩, hh.2.2.1, hh.2.2.2⟩)
  · exact readAt_out m hh

example : distPow2 ⟨[1, 2, 3, 4], 2, 2⟩ = .ok 30 := by decide +kernel

/-- C44: for maps of the same size the distance is zero exactly if they are equal. -/
theorem C44_distance_zero (a b : Map2d Rat) (ha : a.WF) (hb : b.WF) (hw : a.w = b.w) (hh : a.h = b.h) :
    ∃ d s, mapSub a b = .ok d ∧ distPow2 d = .ok s ∧ 0 ≤ s ∧ (s = 0 ↔ a = b) := by
  obtain ⟨d, h1, h2, h3, h4, h5⟩ := C44_sub a b ha hb
  obtain ⟨s, k1, k2, k3⟩ := C44_length d h2
  refine ⟨d, s, h1, k1, k2, k3.trans ⟨fun h => ?_, fun h y x => ?_⟩⟩
  · refine C44_extensional a b ha hb hw hh (fun y x => ?_)
    by_cases hx : a.Has y x
    · obtain ⟨u, v, e1, e2, e3⟩ := h5 y x hx
      rw [h y x] at e3
      have e4 : 0 = u - v := Except.ok.inj e3
      rw [e1, e2]
      have : u = v := by linarith
      rw [this]
    · rw [readAt_out a hx, readAt_out b (by unfold Map2d.Has at hx ⊢; rw [← hw, ← hh]; exact hx)]
  · subst h
    by_cases hx : a.Has y x
    · obtain ⟨u, v, e1, e2, e3⟩ := h5 y x hx
      rw [e1] at e2
      cases e2
      rw [e3, sub_self]
    · exact readAt_out d (by unfold Map2d.Has at hx ⊢; rw [h3, h4]; exact hx)

end Nar.Props
