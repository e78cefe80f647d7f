import Verif.Lemmas.Ad
import Mathlib.Tactic.NormNum
/-! # Property theorems about automatic differentiation (C45) -/
namespace Nar.Props
open Nar

/-- C45: a constant and the variable are represented by derivative zero and one, and sum, difference, product and
exponential of pairs holding value and derivative hold value and derivative of the combined function. -/
theorem C45_operations (f g : ℝ → ℝ) (x c : ℝ) (a b : Ad) (ha : Tracks f x a) (hb : Tracks g x b) :
    Tracks (fun _ => c) x ⟨c, 0⟩ ∧ Tracks (fun t => t) x ⟨x, 1⟩ ∧
    Tracks (fun t => f t + g t) x (a.add b) ∧ Tracks (fun t => f t - g t) x (a.sub b) ∧
    Tracks (fun t => f t * g t) x (a.mul b) ∧ Tracks (fun t => Real.exp (f t)) x a.exp :=
  ⟨⟨rfl, hasDerivAt_const x c⟩, ⟨rfl, hasDerivAt_id x⟩, tracks_add ha hb, tracks_sub ha hb, tracks_mul ha hb, tracks_exp ha⟩

/-- C45: for every expression without division, at every point, the computed pair holds the value and the derivative. -/
theorem C45_expressions (e : AdExpr) (x : ℝ) : Tracks e.fn x (e.eval x) := by
  induction e with
  | var => exact ⟨rfl, hasDerivAt_id x⟩
  | const c => exact ⟨rfl, hasDerivAt_const x c⟩
  | add a b iha ihb => exact tracks_add iha ihb
  | sub a b iha ihb => exact tracks_sub iha ihb
  | mul a b iha ihb => exact tracks_mul iha ihb
  | exp a iha => exact tracks_exp iha

/-- `x * x + exp x` at 3 -/
example : (AdExpr.add (.mul .var .var) (.exp .var)).eval 3 = ⟨9 + Real.exp 3, 6 + Real.exp 3⟩ := by
  simp only [AdExpr.eval, Ad.add, Ad.mul, Ad.exp]
  norm_num

/-- C45, violated by division: the value of a quotient is right, but the derivative is right only where the numerator or the
derivative of the denominator vanishes. -/
theorem C45_division_iff (f g : ℝ → ℝ) (x : ℝ) (a b : Ad) (ha : Tracks f x a) (hb : Tracks g x b) (hg : g x ≠ 0) :
    (a.div b).r = f x / g x ∧ (Tracks (fun t => f t / g t) x (a.div b) ↔ a.r = 0 ∨ b.d = 0) := by
  have hr : b.r ≠ 0 := by rw [hb.1]; exact hg
  refine ⟨by show a.r / b.r = _; rw [ha.1, hb.1], ?_⟩
  have hq := tracks_quot ha hb hg
  constructor
  · intro h
    have he : (a.r * b.d + a.d * b.r) / (b.r * b.r) = (a.d * b.r - a.r * b.d) / (b.r * b.r) := h.2.unique hq
    have hrr : b.r * b.r ≠ 0 := mul_ne_zero hr hr
    rw [div_left_inj' hrr] at he
    have : a.r * b.d = 0 := by linarith
    exact mul_eq_zero.1 this
  · intro h
    refine ⟨by show a.r / b.r = _; rw [ha.1, hb.1], ?_⟩
    have h0 : a.r * b.d = 0 := mul_eq_zero.2 h
    have e : (a.div b).d = (a.d * b.r - a.r * b.d) / (b.r * b.r) := by
      show (a.r * b.d + a.d * b.r) / (b.r * b.r) = _
      rw [h0, zero_add, sub_zero]
    rw [e]; exact hq

/-- C45: for example the derivative of 1/x at 1 is computed as 1; it is -1. -/
theorem C45_division_wrong : (Ad.div ⟨1, 0⟩ ⟨1, 1⟩).d = 1 ∧ HasDerivAt (fun t : ℝ => 1 / t) (-1) 1 ∧
    ¬ Tracks (fun t => 1 / t) 1 (Ad.div ⟨1, 0⟩ ⟨1, 1⟩) := by
  have hd : HasDerivAt (fun t : ℝ => 1 / t) (-1) 1 := by
    have := tracks_quot (f := fun _ => 1) (g := fun t => t) (x := 1) (a := ⟨1, 0⟩) (b := ⟨1, 1⟩)
      ⟨rfl, hasDerivAt_const 1 1⟩ ⟨rfl, hasDerivAt_id 1⟩ one_ne_zero
    norm_num at this
    simpa using this
  refine ⟨by simp [Ad.div], hd, fun h => ?_⟩
  have := h.2.unique hd
  simp [Ad.div] at this
  norm_num at this

/-- C45, violated by the sigmoid activation: its value is right, but its derivative is larger than the true one by the
factor 2·e^v + 1; it is right only if the derivative of the argument is zero. -/
theorem C45_sigmoid_exact (f : ℝ → ℝ) (x : ℝ) (v : Ad) (hv : Tracks f x v) :
    v.sigmoid.r = logistic (f x) ∧
    (∃ d, HasDerivAt (fun t => logistic (f t)) d x ∧ v.sigmoid.d = d * (2 * Real.exp (f x) + 1)) ∧
    (Tracks (fun t => logistic (f t)) x v.sigmoid ↔ v.d = 0) := by
  have hpos : (0 : ℝ) < Real.exp (f x) := Real.exp_pos _
  have hne : Real.exp (f x) + 1 ≠ 0 := by positivity
  have h1 := tracks_exp hv
  have h2 := tracks_add h1 (b := ⟨1, 0⟩) (g := fun _ => 1) ⟨rfl, hasDerivAt_const x 1⟩
  have hq := tracks_quot h1 h2 hne
  obtain ⟨k1, k2⟩ := C45_division_iff _ _ x _ _ h1 h2 hne
  refine ⟨k1, ⟨_, hq, ?_⟩, k2.trans ?_⟩
  · simp only [Ad.sigmoid, Ad.div, Ad.exp, Ad.add, hv.1]
    field_simp
    ring
  · simp only [Ad.exp, Ad.add, add_zero, mul_eq_zero, Real.exp_ne_zero, false_or, or_false]

/-- C45: so at 0 the computed slope of the logistic function is 3/4 instead of 1/4. -/
theorem C45_sigmoid_wrong : (Ad.sigmoid ⟨0, 1⟩).d = 3 / 4 ∧ HasDerivAt logistic (1 / 4) 0 := by
  obtain ⟨_, ⟨d, h1, h2⟩, _⟩ := C45_sigmoid_exact (fun t => t) 0 ⟨0, 1⟩ ⟨rfl, hasDerivAt_id 0⟩
  have h3 : (Ad.sigmoid ⟨0, 1⟩).d = 3 / 4 := by
    simp only [Ad.sigmoid, Ad.div, Ad.exp, Ad.add, Real.exp_zero]
    norm_num
  refine ⟨h3, ?_⟩
  rw [h3, Real.exp_zero] at h2
  have : d = 1 / 4 := by linarith
  rw [← this]; exact h1

/-- C45: the rectifier holds value and derivative of the positive part wherever the argument is not zero. -/
theorem C45_relu (f : ℝ → ℝ) (x : ℝ) (v : Ad) (hv : Tracks f x v) :
    v.relu.r = max 0 (f x) ∧ (f x ≠ 0 → Tracks (fun t => max 0 (f t)) x v.relu) := by
  have hcont : ContinuousAt f x := hv.2.continuousAt
  rcases lt_trichotomy (f x) 0 with h | h | h
  · have e : v.relu = ⟨0, 0⟩ := by unfold Ad.relu; rw [if_neg (by rw [hv.1]; exact not_lt.2 h.le)]
    refine ⟨by rw [e, max_eq_left h.le], fun _ => ⟨by rw [e]; exact (max_eq_left h.le).symm, ?_⟩⟩
    rw [e]
    refine (hasDerivAt_const x (0 : ℝ)).congr_of_eventuallyEq ?_
    filter_upwards [hcont.eventually (gt_mem_nhds h)] with t ht
    exact max_eq_left (le_of_lt ht)
  · have e : v.relu = ⟨0, 0⟩ := by unfold Ad.relu; rw [if_neg (by rw [hv.1, h]; exact lt_irrefl _)]
    exact ⟨by rw [e, h, max_self], fun hn => absurd h hn⟩
  · have e : v.relu = v := by unfold Ad.relu; rw [if_pos (by rw [hv.1]; exact h)]
    refine ⟨by rw [e, max_eq_right h.le]; exact hv.1, fun _ => ⟨by rw [e, hv.1]; exact (max_eq_right h.le).symm, ?_⟩⟩
    rw [e]
    refine hv.2.congr_of_eventuallyEq ?_
    filter_upwards [hcont.eventually (lt_mem_nhds h)] with t ht
    exact max_eq_right (le_of_lt ht)

/-- C45: the scalar product of two lists of the same non-zero length holds value and derivative. -/
theorem C45_dot (x : ℝ) (fs gs : List (ℝ → ℝ)) (v w : List Ad) (hv : List.Forall₂ (fun f a => Tracks f x a) fs v)
    (hw : List.Forall₂ (fun g a => Tracks g x a) gs w) (hl : fs.length = gs.length) (hne : fs ≠ []) :
    ∃ a, Ad.dot v w = .ok a ∧ Tracks (dotFn fs gs) x a := dot_tracks hv hw hl hne

example : Ad.dot [⟨1, 0⟩, ⟨2, 1⟩] [⟨3, 0⟩, ⟨4, 0⟩] = .ok ⟨11, 4⟩ ∧ dotFn [fun _ => 1, fun t => t] [fun _ => 3, fun _ => 4] 2 = 11 := by
  constructor
  · simp [Ad.dot, indexAt, bind, Except.bind, List.range', Ad.mul, Ad.add, pure, Except.pure]
    norm_num
  · simp [dotFn]; norm_num

/-- C45: the scalar product crashes if there are no weights or fewer inputs than weights. -/
theorem C45_dot_crash (v w : List Ad) (h : w = [] ∨ v.length < w.length ∨ v = []) : ∃ e, Ad.dot v w = .error e := dot_error h

/-- C45: a neuron with the rectifier holds value and derivative of its activation unless the sum is zero; one with the
sigmoid has the right value and a derivative which is too large by the factor 2·e^s + 1 for the weighted sum s. -/
theorem C45_neuron (x : ℝ) (fs gs : List (ℝ → ℝ)) (β : ℝ → ℝ) (v : List Ad) (n : Neuron)
    (hv : List.Forall₂ (fun f a => Tracks f x a) fs v) (hw : List.Forall₂ (fun g a => Tracks g x a) gs n.weights)
    (hb : Tracks β x n.bias) (hl : fs.length = gs.length) (hne : fs ≠ []) :
    ∃ a, n.calc v = .ok a ∧
      (n.act = 0 → dotFn fs gs x + β x ≠ 0 → Tracks (fun t => max 0 (dotFn fs gs t + β t)) x a) ∧
      (n.act ≠ 0 → a.r = logistic (dotFn fs gs x + β x) ∧
        ∃ d, HasDerivAt (fun t => logistic (dotFn fs gs t + β t)) d x ∧
          a.d = d * (2 * Real.exp (dotFn fs gs x + β x) + 1)) := by
  obtain ⟨s, h1, h2⟩ := dot_tracks hv hw hl hne
  have h3 := tracks_add h2 hb
  refine ⟨_, by unfold Neuron.calc; rw [h1]; rfl, fun h0 hz => ?_, fun h0 => ?_⟩
  · rw [if_pos h0]
    exact (C45_relu _ x _ h3).2 hz
  · rw [if_neg h0]
    obtain ⟨k1, k2, _⟩ := C45_sigmoid_exact _ x _ h3
    exact ⟨k1, k2⟩

example : List.Forall₂ (fun f a => Tracks f 2 a) [fun t => t, fun _ => 5] [⟨2, 1⟩, ⟨5, 0⟩] :=
  .cons ⟨rfl, hasDerivAt_id 2⟩ (.cons ⟨rfl, hasDerivAt_const 2 5⟩ .nil)

/-- C45: with enough parameters the network builder takes the parameters in order: for each neuron its weights and then its
bias, which is multiplied by 15 in the first and 8 in the second layer; it marks the parameter asked for by derivative one. -/
theorem C45_network (params : List ℝ) (idx nInput act0 n0 n1 : Nat) (diffIdx : Option Nat)
    (h : idx + n0 * (nInput + 1) + n1 * (n0 + 1) ≤ params.length) :
    buildNn idx params nInput act0 n0 n1 diffIdx = .ok (
      ⟨(List.range n0).map fun j => neuronAt params diffIdx nInput act0 15 (idx + j * (nInput + 1)),
       (List.range n1).map fun j => neuronAt params diffIdx n0 1 8 (idx + n0 * (nInput + 1) + j * (n0 + 1))⟩,
      idx + n0 * (nInput + 1) + n1 * (n0 + 1)) := by
  unfold buildNn
  rw [buildLayer_ok params diffIdx nInput act0 15 n0 idx (by omega)]
  simp only [bind, Except.bind]
  rw [buildLayer_ok params diffIdx n0 1 8 n1 _ h]

/-- C45: with too few parameters the builder crashes. -/
theorem C45_network_crash (params : List ℝ) (idx nInput act0 n0 n1 : Nat) (diffIdx : Option Nat)
    (h : params.length < idx + n0 * (nInput + 1) + n1 * (n0 + 1)) (hp : 0 < n0) (hp1 : 0 < n1) :
    buildNn idx params nInput act0 n0 n1 diffIdx = .error .index := by
  unfold buildNn
  by_cases h1 : idx + n0 * (nInput + 1) ≤ params.length
  · rw [buildLayer_ok params diffIdx nInput act0 15 n0 idx h1]
    simp only [bind, Except.bind]
    rw [buildLayer_err params diffIdx n0 1 8 n1 _ (by omega) hp1]
  · rw [buildLayer_err params diffIdx nInput act0 15 n0 idx h1 hp]; rfl

example : ∃ net, buildNn 0 [1, 2, 3, 4, 5] 2 0 1 1 (some 1) = .ok (net, 5) ∧ net.layer0.length = 1 ∧
    net.layer0.map (fun n => n.bias.r) = [45] := by
  refine ⟨_, C45_network [1, 2, 3, 4, 5] 0 2 0 1 1 (some 1) (by decide), by simp, ?_⟩
  simp [neuronAt]
  norm_num

/-- C45: in a built network every weight holds its value and derivative as a function of the marked parameter. -/
theorem C45_weights_tracked (params : List ℝ) (k nIn act : Nat) (boost : ℝ) (base i : Nat) (hk : k < params.length)
    (hi : i < nIn) :
    ∃ a, (neuronAt params (some k) nIn act boost base).weights[i]? = some a ∧
      Tracks (fun t => (params.set k t).getD (base + i) 0) (params[k]) a := by
  refine ⟨⟨params.getD (base + i) 0, if some k = some (base + i) then 1 else 0⟩, ?_, ?_, ?_⟩
  · simp [neuronAt, List.getElem?_map, List.getElem?_range hi]
  · simp
  · by_cases h : k = base + i
    · subst h
      rw [if_pos rfl]
      have : (fun t => (params.set (base + i) t).getD (base + i) 0) = (fun t : ℝ => t) := by
        funext t
        rw [List.getD_eq_getElem?_getD, List.getElem?_set_self hk, Option.getD_some]
      rw [this]; exact hasDerivAt_id _
    · rw [if_neg (fun hc => h (Option.some.inj hc))]
      have : (fun t => (params.set k t).getD (base + i) 0) = (fun _ : ℝ => params.getD (base + i) 0) := by
        funext t
        rw [List.getD_eq_getElem?_getD, List.getElem?_set_ne h, ← List.getD_eq_getElem?_getD]
      rw [this]; exact hasDerivAt_const _ _

/-- C45, violated by the network builder: with respect to its own parameter a bias has derivative `boost` (15 or 8), but it is
marked with derivative one, so that its pair is wrong for every boost other than one. -/
theorem C45_bias_derivative_wrong (params : List ℝ) (nIn act : Nat) (boost : ℝ) (base : Nat) (hb : base + nIn < params.length) :
    (neuronAt params (some (base + nIn)) nIn act boost base).bias.d = 1 ∧
    HasDerivAt (fun t => (params.set (base + nIn) t).getD (base + nIn) 0 * boost) boost (params[base + nIn]) ∧
    (boost ≠ 1 → ¬ Tracks (fun t => (params.set (base + nIn) t).getD (base + nIn) 0 * boost) (params[base + nIn])
      (neuronAt params (some (base + nIn)) nIn act boost base).bias) := by
  have hd : HasDerivAt (fun t => (params.set (base + nIn) t).getD (base + nIn) 0 * boost) boost (params[base + nIn]) := by
    have : (fun t => (params.set (base + nIn) t).getD (base + nIn) 0 * boost) = (fun t : ℝ => t * boost) := by
      funext t
      rw [List.getD_eq_getElem?_getD, List.getElem?_set_self hb, Option.getD_some]
    rw [this]
    have := (hasDerivAt_id (params[base + nIn])).mul_const boost
    simpa using this
  have h1 : (neuronAt params (some (base + nIn)) nIn act boost base).bias.d = 1 := if_pos rfl
  refine ⟨h1, hd, fun hne h => hne ?_⟩
  have := h.2.unique hd
  rw [h1] at this
  exact this.symm

end Nar.Props
