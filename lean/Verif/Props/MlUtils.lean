import Verif.Lemmas.MlUtils
import Mathlib.Tactic.NormNum
/-! # Property theorems about the vector helpers (C74) -/
namespace Nar.Props
open Nar

/-- C74: sums of vectors are taken element by element; the second vector may be longer (its rest is ignored), a shorter one is
a crash. -/
theorem C74_sums (a b : List ℝ) (w : ℝ) :
    (a.length ≤ b.length → vecAdd a b = .ok (List.zipWith (· + ·) a b) ∧
      vecAddScale a b w = .ok (List.zipWith (fun x y => x + y * w) a b) ∧ vecDot a b = .ok (inner' a b)) ∧
    (b.length < a.length → (∃ e, vecAdd a b = .error e) ∧ (∃ e, vecAddScale a b w = .error e) ∧ ∃ e, vecDot a b = .error e) := by
  refine ⟨fun h => ⟨zipLoop_ok (· + ·) a b h, zipLoop_ok (fun x y => x + y * w) a b h, vecDot_ok a b h⟩,
    fun h => ⟨zipLoop_err (· + ·) a b h, zipLoop_err (fun x y => x + y * w) a b h, ?_⟩⟩
  generalize hr : vecDot a b = r
  cases r with
  | error e => exact ⟨e, rfl⟩
  | ok x =>
    exfalso
    have key : ∀ (l : List Nat) (acc x : ℝ), l.foldlM (fun acc idx => do
        let x ← indexAt a idx
        let y ← indexAt b idx
        (.ok (acc + x * y) : R ℝ)) acc = .ok x → ∀ i ∈ l, i < b.length := by
      intro l
      induction l with
      | nil => intro _ _ _ i hi; exact absurd hi List.not_mem_nil
      | cons j l ih =>
        intro acc x h i hi
        obtain ⟨c, hc, h⟩ := foldlM_cons_ok.1 h
        rcases List.mem_cons.1 hi with rfl | hi
        · obtain ⟨_, _, hc⟩ := R.bind_ok.1 hc
          obtain ⟨y, hy, _⟩ := R.bind_ok.1 hc
          by_contra hlt
          rw [indexAt_err (by omega)] at hy
          cases hy
        · exact ih c x h i hi
    have := key _ _ _ hr b.length (List.mem_range.2 h)
    omega

example : vecAdd [1, 2] [3, 4, 5] = .ok [4, 6] := by
  rw [((C74_sums [1, 2] [3, 4, 5] 0).1 (by decide)).1]
  norm_num

/-- C74: scaling multiplies every element, and the length of a scaled vector is the scaled length. -/
theorem C74_scale (a : List ℝ) (w : ℝ) : vecScale a w = a.map (· * w) ∧ vecLen (vecScale a w) = |w| * vecLen a := by
  refine ⟨rfl, ?_⟩
  rw [vecLen_eq, vecLen_eq]
  unfold norm'
  have : inner' (vecScale a w) (vecScale a w) = w ^ 2 * inner' a a := by
    unfold vecScale
    induction a with
    | nil => simp [inner']
    | cons x a ih => rw [List.map_cons, inner_cons, inner_cons, ih]; ring
  rw [this, Real.sqrt_mul (sq_nonneg w), Real.sqrt_sq_eq_abs]

/-- C74: the length of a vector is never negative and is zero exactly if all elements are zero. -/
theorem C74_length (a : List ℝ) : vecLen a = norm' a ∧ 0 ≤ vecLen a ∧ (vecLen a = 0 ↔ ∀ x ∈ a, x = 0) := by
  rw [vecLen_eq]
  refine ⟨rfl, Real.sqrt_nonneg _, ?_⟩
  unfold norm'
  rw [Real.sqrt_eq_zero (inner_self_nonneg a)]
  exact inner_self_zero a

/-- C74: the cosine similarity of two vectors of the same size, neither of them zero, lies between -1 and 1 and does not
depend on the order; a vector is fully similar to itself. -/
theorem C74_cosine (a b : List ℝ) (h : a.length = b.length) (ha : ∃ x ∈ a, x ≠ 0) (hb : ∃ x ∈ b, x ≠ 0) :
    ∃ s, cosineSim a b = .ok s ∧ -1 ≤ s ∧ s ≤ 1 ∧ cosineSim b a = .ok s ∧ cosineSim a a = .ok 1 := by
  have pos : ∀ l : List ℝ, (∃ x ∈ l, x ≠ 0) → 0 < vecLen l := by
    rintro l ⟨x, hx, hne⟩
    obtain ⟨_, h2, h3⟩ := C74_length l
    exact lt_of_le_of_ne h2 (fun hc => hne (h3.1 hc.symm x hx))
  have pa := pos a ha
  have pb := pos b hb
  have hp : 0 < vecLen a * vecLen b := mul_pos pa pb
  have sa : vecLen a * vecLen a = inner' a a := by
    rw [vecLen_eq]; exact Real.mul_self_sqrt (inner_self_nonneg a)
  have sb : vecLen b * vecLen b = inner' b b := by
    rw [vecLen_eq]; exact Real.mul_self_sqrt (inner_self_nonneg b)
  have hc : |inner' a b| ≤ vecLen a * vecLen b := by
    refine abs_le_of_sq_le_sq ?_ hp.le
    have := cauchy a b h
    have e : (vecLen a * vecLen b) ^ 2 = inner' a a * inner' b b := by rw [← sa, ← sb]; ring
    rw [e]; exact this
  obtain ⟨hc1, hc2⟩ := abs_le.1 hc
  refine ⟨inner' a b / (vecLen a * vecLen b), ?_, ?_, ?_, ?_, ?_⟩
  · unfold cosineSim
    rw [vecDot_ok a b (le_of_eq h)]
    show (if _ then _ else _) = _
    rw [if_neg hp.ne']
  · rw [le_div_iff₀ hp]; linarith
  · rw [div_le_iff₀ hp]; linarith
  · unfold cosineSim
    rw [vecDot_ok b a (le_of_eq h.symm)]
    show (if _ then _ else _) = _
    rw [if_neg (by rw [mul_comm]; exact hp.ne'), inner_comm b a, mul_comm (vecLen b)]
  · unfold cosineSim
    rw [vecDot_ok a a (le_refl _)]
    show (if _ then _ else _) = _
    have := mul_pos pa pa
    rw [if_neg this.ne', sa, div_self]
    rw [← sa]; exact this.ne'

example : cosineSim [3, 4] [4, 3] = .ok (24 / 25) := by
  unfold cosineSim
  have h5 : Real.sqrt 25 = 5 := by
    rw [show (25 : ℝ) = 5 ^ 2 by norm_num]; exact Real.sqrt_sq (by norm_num)
  have l1 : vecLen [3, 4] = 5 := by unfold vecLen; norm_num [h5]
  have l2 : vecLen [4, 3] = 5 := by unfold vecLen; norm_num [h5]
  rw [vecDot_ok _ _ (by decide), l1, l2]
  show (if _ then _ else _) = _
  rw [if_neg (by norm_num)]
  simp [inner']
  norm_num

/-- C74: a vector of zeros has no cosine similarity with anything (the code divides by zero). -/
theorem C74_cosine_of_zero (a b : List ℝ) (h : a.length ≤ b.length) (h0 : (∀ x ∈ a, x = 0) ∨ ∀ x ∈ b, x = 0) :
    cosineSim a b = .error .nan := by
  unfold cosineSim
  rw [vecDot_ok a b h]
  show (if _ then _ else _) = _
  rw [if_pos]
  rcases h0 with h0 | h0
  · rw [(C74_length a).2.2.2 h0, zero_mul]
  · rw [(C74_length b).2.2.2 h0, mul_zero]

end Nar.Props
