import Verif.Spec.MlUtils
import Verif.Lemmas.Mem
import Mathlib.Tactic.Ring
import Mathlib.Tactic.Linarith
import Mathlib.Tactic.Positivity
/-! # Lemmas about the vector helpers -/
namespace Nar

theorem indexAt_lt {α} {l : List α} {i : Nat} (h : i < l.length) : indexAt l i = .ok l[i] := by
  unfold indexAt; rw [List.getElem?_eq_getElem h]

theorem indexAt_err {α} {l : List α} {i : Nat} (h : l.length ≤ i) : indexAt l i = .error .index := by
  unfold indexAt; rw [List.getElem?_eq_none h]

theorem zipLoop_ok (op : ℝ → ℝ → ℝ) (a b : List ℝ) (h : a.length ≤ b.length) :
    (List.range a.length).mapM (fun idx => do
      let x ← indexAt a idx
      let y ← indexAt b idx
      (.ok (op x y) : R ℝ)) = .ok (List.zipWith op a b) := by
  rw [mapM_ok_iff, List.forall₂_iff_get]
  refine ⟨by simp [h], fun i h1 h2 => ?_⟩
  simp only [List.get_eq_getElem, List.getElem_range, List.getElem_zipWith]
  simp only [List.length_range] at h1
  rw [indexAt_lt h1, indexAt_lt (show i < b.length by omega)]
  rfl

theorem zipLoop_err (op : ℝ → ℝ → ℝ) (a b : List ℝ) (h : b.length < a.length) :
    ∃ e, (List.range a.length).mapM (fun idx => do
      let x ← indexAt a idx
      let y ← indexAt b idx
      (.ok (op x y) : R ℝ)) = .error e := by
  generalize hr : List.mapM (m := R) _ _ = r
  cases r with
  | error e => exact ⟨e, rfl⟩
  | ok l =>
    exfalso
    rw [mapM_ok_iff, List.forall₂_iff_get] at hr
    obtain ⟨hl, hr⟩ := hr
    have := hr b.length (by simpa using h) (by simp at hl; omega)
    simp only [List.get_eq_getElem, List.getElem_range] at this
    rw [indexAt_lt h, indexAt_err (le_refl _)] at this
    cases this

theorem dotLoop (a b pre pre' : List ℝ) (hl : a.length ≤ b.length) (hp : pre.length = pre'.length) (acc : ℝ) :
    (List.range' pre.length a.length).foldlM (fun acc idx => do
      let x ← indexAt (pre ++ a) idx
      let y ← indexAt (pre' ++ b) idx
      (.ok (acc + x * y) : R ℝ)) acc = .ok (acc + inner' a b) := by
  induction a generalizing b pre pre' acc with
  | nil => simp [inner', pure, Except.pure]
  | cons x a ih =>
    cases b with
    | nil => simp at hl
    | cons y b =>
      have := ih b (pre ++ [x]) (pre' ++ [y]) (by simpa using hl) (by simp [hp]) (acc + x * y)
      rw [List.length_cons, List.range'_succ]
      refine foldlM_cons_ok.2 ⟨acc + x * y, ?_, ?_⟩
      · have e1 : indexAt (pre ++ x :: a) pre.length = .ok x := by unfold indexAt; simp
        have e2 : indexAt (pre' ++ y :: b) pre.length = .ok y := by unfold indexAt; rw [hp]; simp
        rw [e1, e2]; rfl
      · have e : acc + inner' (x :: a) (y :: b) = acc + x * y + inner' a b := by
          unfold inner'
          simp only [List.zipWith_cons_cons, List.sum_cons]
          ring
        rw [e, ← this]
        simp [List.append_assoc]

theorem vecDot_ok (a b : List ℝ) (h : a.length ≤ b.length) : vecDot a b = .ok (inner' a b) := by
  have := dotLoop a b [] [] h rfl 0
  rw [zero_add] at this
  unfold vecDot
  rw [List.range_eq_range']
  exact this

theorem inner_cons (x y : ℝ) (a b : List ℝ) : inner' (x :: a) (y :: b) = x * y + inner' a b := by
  unfold inner'; simp

theorem inner_self_nonneg (a : List ℝ) : 0 ≤ inner' a a := by
  induction a with
  | nil => simp [inner']
  | cons x a ih => rw [inner_cons]; nlinarith [mul_self_nonneg x]

theorem inner_comm (a b : List ℝ) : inner' a b = inner' b a := by
  unfold inner'
  rw [List.zipWith_comm]
  simp only [mul_comm]

theorem inner_self_zero (a : List ℝ) : inner' a a = 0 ↔ ∀ x ∈ a, x = 0 := by
  induction a with
  | nil => simp [inner']
  | cons x a ih =>
    rw [inner_cons, List.forall_mem_cons, ← ih]
    have := inner_self_nonneg a
    have h2 := mul_self_nonneg x
    constructor
    · intro h
      exact ⟨mul_self_eq_zero.1 (by linarith), by linarith⟩
    · rintro ⟨rfl, h⟩; rw [h]; ring

theorem vecLen_eq (a : List ℝ) : vecLen a = norm' a := by
  have : ∀ (l : List ℝ) (acc : ℝ), l.foldl (fun acc x => acc + x ^ 2) acc = acc + inner' l l := by
    intro l
    induction l with
    | nil => intro acc; simp [inner']
    | cons x l ih => intro acc; rw [List.foldl_cons, ih, inner_cons]; ring
  unfold vecLen norm'
  rw [this, zero_add]

/-- Lagrange's step of the Cauchy-Schwarz inequality -/
theorem cauchy (a b : List ℝ) (h : a.length = b.length) : inner' a b ^ 2 ≤ inner' a a * inner' b b := by
  induction a generalizing b with
  | nil => simp [inner']
  | cons x a ih =>
    cases b with
    | nil => simp at h
    | cons y b =>
      have hi := ih b (by simpa using h)
      rw [inner_cons, inner_cons, inner_cons]
      set A := inner' a a with hA
      set B := inner' b b with hB
      set C := inner' a b with hC
      have hA0 : 0 ≤ A := inner_self_nonneg a
      have hB0 : 0 ≤ B := inner_self_nonneg b
      -- 2xyC ≤ x²B + y²A
      have key : 2 * (x * y) * C ≤ x * x * B + y * y * A := by
        have h1 : (2 * (x * y) * C) ^ 2 ≤ (x * x * B + y * y * A) ^ 2 := by
          have e1 : (2 * (x * y) * C) ^ 2 = 4 * (x * y) ^ 2 * C ^ 2 := by ring
          have e2 : (x * y) ^ 2 * C ^ 2 ≤ (x * y) ^ 2 * (A * B) := mul_le_mul_of_nonneg_left hi (sq_nonneg _)
          nlinarith [sq_nonneg (x * x * B - y * y * A)]
        have h2 : 0 ≤ x * x * B + y * y * A := by
          have := mul_nonneg (mul_self_nonneg x) hB0
          have := mul_nonneg (mul_self_nonneg y) hA0
          linarith
        exact le_of_sq_le_sq h1 h2
      nlinarith

end Nar
