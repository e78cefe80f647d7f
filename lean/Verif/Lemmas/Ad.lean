import Verif.Spec.Ad
import Verif.Lemmas.Mem
import Mathlib.Analysis.Calculus.Deriv.Inv
import Mathlib.Tactic.FieldSimp
import Mathlib.Tactic.Tauto
import Mathlib.Tactic.Ring
/-! # Lemmas about automatic differentiation -/
namespace Nar

theorem tracks_add {f g : ℝ → ℝ} {x : ℝ} {a b : Ad} (ha : Tracks f x a) (hb : Tracks g x b) :
    Tracks (fun t => f t + g t) x (a.add b) :=
  ⟨by show a.r + b.r = _; rw [ha.1, hb.1], ha.2.add hb.2⟩

theorem tracks_sub {f g : ℝ → ℝ} {x : ℝ} {a b : Ad} (ha : Tracks f x a) (hb : Tracks g x b) :
    Tracks (fun t => f t - g t) x (a.sub b) :=
  ⟨by show a.r - b.r = _; rw [ha.1, hb.1], ha.2.sub hb.2⟩

theorem tracks_mul {f g : ℝ → ℝ} {x : ℝ} {a b : Ad} (ha : Tracks f x a) (hb : Tracks g x b) :
    Tracks (fun t => f t * g t) x (a.mul b) := by
  refine ⟨by show a.r * b.r = _; rw [ha.1, hb.1], ?_⟩
  have h := ha.2.mul hb.2
  have e : (a.mul b).d = a.d * g x + f x * b.d := by
    show a.r * b.d + a.d * b.r = _
    rw [ha.1, hb.1]; ring
  rw [e]; exact h

theorem tracks_exp {f : ℝ → ℝ} {x : ℝ} {a : Ad} (ha : Tracks f x a) : Tracks (fun t => Real.exp (f t)) x a.exp := by
  refine ⟨by show Real.exp a.r = _; rw [ha.1], ?_⟩
  have h := ha.2.exp
  have e : a.exp.d = Real.exp (f x) * a.d := by
    show a.d * Real.exp a.r = _
    rw [ha.1, mul_comm]
  rw [e]; exact h

theorem tracks_quot {f g : ℝ → ℝ} {x : ℝ} {a b : Ad} (ha : Tracks f x a) (hb : Tracks g x b) (hg : g x ≠ 0) :
    HasDerivAt (fun t => f t / g t) ((a.d * b.r - a.r * b.d) / (b.r * b.r)) x := by
  have h := ha.2.div hb.2 hg
  rw [ha.1, hb.1, ← pow_two]
  exact h

/-- the loop of the dot product -/
theorem dot_fold {x : ℝ} : ∀ {fs gs : List (ℝ → ℝ)} {v w : List Ad} (pre pre' : List Ad) {f : ℝ → ℝ} {acc : Ad},
    List.Forall₂ (fun f a => Tracks f x a) fs v → List.Forall₂ (fun g a => Tracks g x a) gs w → fs.length = gs.length →
    pre.length = pre'.length → Tracks f x acc →
    ∃ a, (List.range' pre.length w.length).foldlM (fun acc i => do
      let vi ← indexAt (pre ++ v) i
      let wi ← indexAt (pre' ++ w) i
      (.ok ((vi.mul wi).add acc) : R Ad)) acc = .ok a ∧ Tracks (fun t => f t + dotFn fs gs t) x a := by
  intro fs
  induction fs with
  | nil =>
    intro gs v w pre pre' f acc hv hw hl hp ha
    cases hv
    have : gs = [] := List.length_eq_zero_iff.1 (by simpa using hl.symm)
    subst this
    cases hw
    exact ⟨acc, rfl, by simpa [dotFn] using ha⟩
  | cons f0 fs ih =>
    intro gs v w pre pre' f acc hv hw hl hp ha
    cases hv with
    | @cons _ a0 _ v h1 hv =>
    cases hw with
    | nil => simp at hl
    | @cons g0 b0 gs w h2 hw =>
    have hstep := tracks_add (tracks_mul h1 h2) ha
    have := ih (pre ++ [a0]) (pre' ++ [b0]) hv hw (by simpa using hl) (by simp [hp]) hstep
    obtain ⟨a, k1, k2⟩ := this
    refine ⟨a, ?_, ?_⟩
    · rw [List.length_cons, List.range'_succ]
      refine foldlM_cons_ok.2 ⟨(a0.mul b0).add acc, ?_, ?_⟩
      · have e1 : indexAt (pre ++ a0 :: v) pre.length = .ok a0 := by
          unfold indexAt; simp
        have e2 : indexAt (pre' ++ b0 :: w) pre.length = .ok b0 := by
          unfold indexAt; rw [hp]; simp
        rw [e1, e2]; rfl
      · rw [← k1]
        simp [List.append_assoc]
    · convert k2 using 1
      funext t
      unfold dotFn
      simp only [List.zipWith_cons_cons, List.sum_cons]
      ring

theorem dot_tracks {x : ℝ} {fs gs : List (ℝ → ℝ)} {v w : List Ad} (hv : List.Forall₂ (fun f a => Tracks f x a) fs v)
    (hw : List.Forall₂ (fun g a => Tracks g x a) gs w) (hl : fs.length = gs.length) (hne : fs ≠ []) :
    ∃ a, Ad.dot v w = .ok a ∧ Tracks (dotFn fs gs) x a := by
  cases hv with
  | nil => exact absurd rfl hne
  | @cons f0 a0 fs v h1 hv =>
  cases hw with
  | nil => simp at hl
  | @cons g0 b0 gs w h2 hw =>
  obtain ⟨a, k1, k2⟩ := dot_fold [a0] [b0] hv hw (by simpa using hl) rfl (tracks_mul h1 h2)
  refine ⟨a, ?_, ?_⟩
  · rw [← k1]
    rfl
  · exact k2

theorem dot_error {v w : List Ad} (h : w = [] ∨ v.length < w.length ∨ v = []) : ∃ e, Ad.dot v w = .error e := by
  unfold Ad.dot
  by_cases hv : v = []
  · subst hv; exact ⟨_, rfl⟩
  by_cases hw : w = []
  · subst hw
    cases v with
    | nil => exact ⟨_, rfl⟩
    | cons a v => exact ⟨_, rfl⟩
  have hlt : v.length < w.length := by tauto
  cases v with
  | nil => exact absurd rfl hv
  | cons a v =>
  cases w with
  | nil => exact absurd rfl hw
  | cons b w =>
  show ∃ e, (List.range' 1 ((b :: w).length - 1)).foldlM (fun acc i => do
        let vi ← indexAt (a :: v) i
        let wi ← indexAt (b :: w) i
        (.ok ((vi.mul wi).add acc) : R Ad)) (a.mul b) = .error e
  generalize hr : List.foldlM (m := R) _ _ _ = r
  cases r with
  | error e => exact ⟨e, rfl⟩
  | ok x =>
    exfalso
    have key : ∀ (l : List Nat) (acc x : Ad), l.foldlM (fun acc i => do
        let vi ← indexAt (a :: v) i
        let wi ← indexAt (b :: w) i
        (.ok ((vi.mul wi).add acc) : R Ad)) acc = .ok x → ∀ i ∈ l, i < (a :: v).length := by
      intro l
      induction l with
      | nil => intro _ _ _ i hi; exact absurd hi List.not_mem_nil
      | cons j l ih =>
        intro acc x h i hi
        obtain ⟨c, hc, h⟩ := foldlM_cons_ok.1 h
        rcases List.mem_cons.1 hi with rfl | hi
        · obtain ⟨vi, hvi, _⟩ := R.bind_ok.1 hc
          unfold indexAt at hvi
          by_contra hlt
          rw [List.getElem?_eq_none (by omega)] at hvi
          cases hvi
        · exact ih c x h i hi
    have := key _ _ _ hr (v.length + 1) (List.mem_range'_1.2 (by simp at hlt ⊢; omega))
    simp at this

theorem buildWeights_ok (params : List ℝ) (diffIdx : Option Nat) : ∀ (n idx : Nat), idx + n ≤ params.length →
    buildWeights params diffIdx n idx = .ok ((List.range n).map (fun i => (⟨params.getD (idx + i) 0,
      if diffIdx = some (idx + i) then 1 else 0⟩ : Ad)), idx + n) := by
  intro n
  induction n with
  | zero => intro idx _; rfl
  | succ n ih =>
    intro idx h
    unfold buildWeights
    have e : indexAt params idx = .ok (params.getD idx 0) := by
      unfold indexAt
      rw [List.getElem?_eq_getElem (by omega), List.getD_eq_getElem?_getD, List.getElem?_eq_getElem (by omega), Option.getD_some]
    rw [e, ih (idx + 1) (by omega), List.range_succ_eq_map]
    simp only [bind, Except.bind, List.map_cons, List.map_map, Nat.add_zero]
    have e2 : (fun i => (⟨params.getD (idx + i) 0, if diffIdx = some (idx + i) then 1 else 0⟩ : Ad)) ∘ Nat.succ =
        (fun i => (⟨params.getD (idx + 1 + i) 0, if diffIdx = some (idx + 1 + i) then 1 else 0⟩ : Ad)) := by
      funext i
      have : idx + 1 + i = idx + (i + 1) := by omega
      simp only [Function.comp, this, Nat.succ_eq_add_one]
    rw [e2]
    have e3 : idx + 1 + n = idx + (n + 1) := by omega
    rw [e3]
    rfl

theorem buildWeights_err (params : List ℝ) (diffIdx : Option Nat) : ∀ (n idx : Nat), ¬ idx + n ≤ params.length → 0 < n →
    buildWeights params diffIdx n idx = .error .index := by
  intro n
  induction n with
  | zero => intro idx _ h; omega
  | succ n ih =>
    intro idx h _
    unfold buildWeights
    by_cases hi : idx < params.length
    · have e : indexAt params idx = .ok (params.getD idx 0) := by
        unfold indexAt
        rw [List.getElem?_eq_getElem hi, List.getD_eq_getElem?_getD, List.getElem?_eq_getElem hi, Option.getD_some]
      rw [e, ih (idx + 1) (by omega) (by omega)]
      rfl
    · have e : indexAt params idx = .error .index := by
        unfold indexAt
        rw [List.getElem?_eq_none (by omega)]
      rw [e]; rfl

theorem buildLayer_ok (params : List ℝ) (diffIdx : Option Nat) (nIn act : Nat) (boost : ℝ) : ∀ (n idx : Nat),
    idx + n * (nIn + 1) ≤ params.length →
    buildLayer params diffIdx nIn act boost n idx = .ok ((List.range n).map (fun j =>
      neuronAt params diffIdx nIn act boost (idx + j * (nIn + 1))), idx + n * (nIn + 1)) := by
  intro n
  induction n with
  | zero => intro idx _; simp [buildLayer]
  | succ n ih =>
    intro idx h
    have hm : (n + 1) * (nIn + 1) = n * (nIn + 1) + (nIn + 1) := by ring
    rw [hm] at h
    unfold buildLayer
    have e : indexAt params (idx + nIn) = .ok (params.getD (idx + nIn) 0) := by
      unfold indexAt
      rw [List.getElem?_eq_getElem (by omega), List.getD_eq_getElem?_getD, List.getElem?_eq_getElem (by omega), Option.getD_some]
    rw [buildWeights_ok params diffIdx nIn idx (by omega)]
    simp only [bind, Except.bind]
    rw [e]
    simp only
    rw [ih (idx + nIn + 1) (by omega), List.range_succ_eq_map]
    simp only [List.map_cons, List.map_map]
    have e2 : (fun j => neuronAt params diffIdx nIn act boost (idx + j * (nIn + 1))) ∘ Nat.succ =
        (fun j => neuronAt params diffIdx nIn act boost (idx + nIn + 1 + j * (nIn + 1))) := by
      funext j
      have : idx + (j + 1) * (nIn + 1) = idx + nIn + 1 + j * (nIn + 1) := by ring
      simp only [Function.comp, Nat.succ_eq_add_one, this]
    have e3 : idx + nIn + 1 + n * (nIn + 1) = idx + (n + 1) * (nIn + 1) := by ring
    rw [e2, e3, Nat.zero_mul, Nat.add_zero]
    rfl

theorem buildLayer_err (params : List ℝ) (diffIdx : Option Nat) (nIn act : Nat) (boost : ℝ) : ∀ (n idx : Nat),
    ¬ idx + n * (nIn + 1) ≤ params.length → 0 < n → buildLayer params diffIdx nIn act boost n idx = .error .index := by
  intro n
  induction n with
  | zero => intro idx _ h; omega
  | succ n ih =>
    intro idx h _
    have hm : (n + 1) * (nIn + 1) = n * (nIn + 1) + (nIn + 1) := by ring
    rw [hm] at h
    unfold buildLayer
    by_cases h1 : idx + nIn ≤ params.length
    · rw [buildWeights_ok params diffIdx nIn idx h1]
      simp only [bind, Except.bind]
      by_cases h2 : idx + nIn < params.length
      · have e : indexAt params (idx + nIn) = .ok (params.getD (idx + nIn) 0) := by
          unfold indexAt
          rw [List.getElem?_eq_getElem h2, List.getD_eq_getElem?_getD, List.getElem?_eq_getElem h2, Option.getD_some]
        rw [e]
        simp only
        have hn : 0 < n := by
          rcases Nat.eq_zero_or_pos n with rfl | hn
          · rw [Nat.zero_mul] at h; omega
          · exact hn
        rw [ih (idx + nIn + 1) (by omega) hn]
      · have e : indexAt params (idx + nIn) = .error .index := by
          unfold indexAt
          rw [List.getElem?_eq_none (by omega)]
        rw [e]
    · have hn : 0 < nIn ∨ nIn = 0 := by omega
      rcases hn with hn | rfl
      · rw [buildWeights_err params diffIdx nIn idx h1 hn]; rfl
      · have e : indexAt params idx = .error .index := by
          unfold indexAt
          rw [List.getElem?_eq_none (by omega)]
        simp only [buildWeights, bind, Except.bind, e]

end Nar
