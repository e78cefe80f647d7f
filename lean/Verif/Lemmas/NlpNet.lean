import Verif.Spec.NlpNet
import Verif.Lemmas.Task
import Verif.Lemmas.MemSane
import Verif.Lemmas.Goal4
import Mathlib.Tactic.Ring
import Mathlib.Tactic.Linarith
import Mathlib.Algebra.Order.Ring.Rat
/-! # Lemmas about the network of the language module -/
namespace Nar

/-- the value of a number with derivative after a change by `h` of the marked parameter -/
def Dual.at (h : Rat) (d : Dual) : Rat := d.1 + h * d.2

theorem at_zero (d : Dual) : Dual.at 0 d = d.1 := by simp [Dual.at]

theorem foldl_dual (h : Rat) (l : List (Dual × Dual)) (acc : Dual) (hl : ∀ p ∈ l, p.1.2 = 0 ∨ p.2.2 = 0) :
    Dual.at h (l.foldl (fun acc p => dualAdd acc (dualMul p.1 p.2)) acc) =
      Dual.at h acc + (l.map fun p => Dual.at h p.1 * Dual.at h p.2).sum := by
  induction l generalizing acc with
  | nil => simp
  | cons p l ih =>
    rw [List.foldl_cons, ih _ (fun q hq => hl q (List.mem_cons_of_mem _ hq)), List.map_cons, List.sum_cons]
    have : Dual.at h (dualAdd acc (dualMul p.1 p.2)) = Dual.at h acc + Dual.at h p.1 * Dual.at h p.2 := by
      simp only [Dual.at, dualAdd, dualMul]
      rcases hl p List.mem_cons_self with e | e <;> rw [e] <;> ring
    rw [this]; ring

theorem sum_zip (h : Rat) (a b : List Dual) :
    ((a.zip b).map fun p => Dual.at h p.1 * Dual.at h p.2).sum =
      (List.zipWith (· * ·) (a.map (Dual.at h)) (b.map (Dual.at h))).sum := by
  congr 1
  induction a generalizing b with
  | nil => rfl
  | cons x a ih => cases b with
    | nil => rfl
    | cons y b => simp [ih]

theorem dualDot_ok {a b : List Dual} (hl : a.length = b.length) : ∃ d, dualDot a b = .ok d ∧
    ∀ h, (∀ p ∈ a.zip b, p.1.2 = 0 ∨ p.2.2 = 0) →
      Dual.at h d = (List.zipWith (· * ·) (a.map (Dual.at h)) (b.map (Dual.at h))).sum := by
  refine ⟨_, by unfold dualDot; rw [if_neg (by simpa using hl)], fun h hz => ?_⟩
  rw [foldl_dual h _ _ hz, sum_zip]
  simp [Dual.at]

/-- the neuron after a change by `h` of the marked parameter -/
def WeightBias.at (h : Rat) (n : WeightBias) : WeightBias :=
  ⟨n.weights.map fun w => (Dual.at h w, 0), (Dual.at h n.bias, 0)⟩

theorem layerOut_ok {ns : List WeightBias} {stim : List Dual} (hl : ∀ n ∈ ns, n.weights.length = stim.length) :
    ∃ outs, layerOut ns stim = .ok outs ∧ outs.length = ns.length ∧
      ∀ h, (∀ n ∈ ns, ∀ p ∈ stim.zip n.weights, p.1.2 = 0 ∨ p.2.2 = 0) →
        outs.map (Dual.at h) = ns.map fun n => plainNeuron (stim.map (Dual.at h)) (n.at h) := by
  induction ns with
  | nil => exact ⟨[], rfl, rfl, fun h _ => rfl⟩
  | cons n ns ih =>
    obtain ⟨outs, h1, h2, h3⟩ := ih fun n hn => hl n (List.mem_cons_of_mem _ hn)
    obtain ⟨d, hd1, hd2⟩ := dualDot_ok (a := stim) (b := n.weights) (hl n List.mem_cons_self).symm
    refine ⟨dualAdd d n.bias :: outs, ?_, by simp [h2], fun h hz => ?_⟩
    · unfold layerOut at h1 ⊢
      rw [List.mapM_cons, hd1, h1]
      rfl
    · rw [List.map_cons, List.map_cons, h3 h fun m hm => hz m (List.mem_cons_of_mem _ hm)]
      congr 1
      have := hd2 h (hz n List.mem_cons_self)
      simp only [plainNeuron, WeightBias.at, List.map_map, Function.comp_def]
      rw [show Dual.at h (dualAdd d n.bias) = Dual.at h d + Dual.at h n.bias by simp [Dual.at, dualAdd]; ring, this]

/-- no derivative in the layer -/
def LayerUnmarked (ns : List WeightBias) : Prop := ∀ n ∈ ns, n.bias.2 = 0 ∧ ∀ w ∈ n.weights, w.2 = 0

theorem zip_left_zero {a b : List Dual} (h : ∀ x ∈ a, x.2 = 0) : ∀ p ∈ a.zip b, p.1.2 = 0 ∨ p.2.2 = 0 :=
  fun _ hp => .inl (h _ (List.of_mem_zip hp).1)

theorem zip_right_zero {a b : List Dual} (h : ∀ x ∈ b, x.2 = 0) : ∀ p ∈ a.zip b, p.1.2 = 0 ∨ p.2.2 = 0 :=
  fun _ hp => .inr (h _ (List.of_mem_zip hp).2)

theorem foldl_dual_zero (l : List (Dual × Dual)) (acc : Dual) (ha : acc.2 = 0) (hl : ∀ p ∈ l, p.1.2 = 0 ∧ p.2.2 = 0) :
    (l.foldl (fun acc p => dualAdd acc (dualMul p.1 p.2)) acc).2 = 0 := by
  induction l generalizing acc with
  | nil => exact ha
  | cons p l ih =>
    refine ih _ ?_ fun q hq => hl q (List.mem_cons_of_mem _ hq)
    obtain ⟨e1, e2⟩ := hl p List.mem_cons_self
    simp [dualAdd, dualMul, ha, e1, e2]

theorem layerOut_zero {ns : List WeightBias} {stim outs : List Dual} (h : layerOut ns stim = .ok outs) (hn : LayerUnmarked ns)
    (hs : ∀ x ∈ stim, x.2 = 0) : ∀ x ∈ outs, x.2 = 0 := by
  intro x hx
  obtain ⟨n, hn', hx'⟩ := forall₂_right_mem (mapM_ok_iff.1 h) hx
  obtain ⟨d, hd, he⟩ := R.bind_ok.1 hx'
  cases he
  obtain ⟨hb, hw⟩ := hn n hn'
  unfold dualDot at hd
  split at hd
  · cases hd
  · cases hd
    simp only [dualAdd, hb, add_zero]
    refine foldl_dual_zero _ _ rfl fun p hp => ⟨hs _ (List.of_mem_zip hp).1, hw _ (List.of_mem_zip hp).2⟩

theorem NetShape.getD0 {nn : NlpNet} {a b c : Nat} (h : NetShape nn a b c) : nn = [nn.getD 0 [], nn.getD 1 []] := by
  match nn, h.layers with
  | [l0, l1], _ => rfl

/-- the network after a change by `h` of the marked parameter -/
def atNet (h : Rat) (nn : NlpNet) : NlpNet := nn.map fun l => l.map (WeightBias.at h)

theorem forward_ok {nn : NlpNet} {nIn n0 n1 : Nat} (hs : NetShape nn nIn n0 n1) {x : List Dual} (hx : x.length = nIn) :
    ∃ outs, forward nn x = .ok outs ∧ outs.length = n1 ∧
      ∀ h, (∀ d ∈ x, d.2 = 0) → (LayerUnmarked (nn.getD 0 []) ∨ LayerUnmarked (nn.getD 1 [])) →
        outs.map (Dual.at h) = plainNet (atNet h nn) (x.map (·.1)) := by
  obtain ⟨l0, l1, rfl⟩ : ∃ l0 l1, nn = [l0, l1] := ⟨_, _, hs.getD0⟩
  have e0 : l0.length = n0 := hs.first
  have e1 : l1.length = n1 := hs.second
  have w0 : ∀ n ∈ l0, n.weights.length = nIn := hs.weights0
  have w1 : ∀ n ∈ l1, n.weights.length = n0 := hs.weights1
  obtain ⟨o0, h1, h2, h3⟩ := layerOut_ok (stim := x) fun n hn => (w0 n hn).trans hx.symm
  obtain ⟨o1, k1, k2, k3⟩ := layerOut_ok (stim := o0) fun n hn => (w1 n hn).trans ((h2.trans e0).symm)
  refine ⟨o1, ?_, k2.trans e1, fun h hx0 hz => ?_⟩
  · unfold forward
    simp only [indexAt, List.getElem?_cons_zero, List.getElem?_cons_succ, bind, Except.bind, h1, k1]
  · have a0 := h3 h fun n hn => zip_left_zero hx0
    have a1 := k3 h fun n hn => by
      rcases hz with hz | hz
      · exact zip_left_zero (layerOut_zero h1 hz hx0)
      · exact zip_right_zero (hz n hn).2
    rw [a1, a0]
    unfold plainNet atNet
    simp only [List.map_cons, List.map_nil, List.getD_cons_zero, List.getD_cons_succ, List.map_map, Function.comp_def]
    have : x.map (Dual.at h) = x.map (·.1) := List.map_congr_left fun d hd => by simp [Dual.at, hx0 d hd]
    rw [this]

theorem at_unmarked {n : WeightBias} (h : Rat) (hn : n.bias.2 = 0 ∧ ∀ w ∈ n.weights, w.2 = 0) : n.at h = n := by
  obtain ⟨ws, b⟩ := n
  obtain ⟨hb, hw⟩ := hn
  simp only at hb hw
  simp only [WeightBias.at, WeightBias.mk.injEq]
  refine ⟨?_, Prod.ext (by simp [Dual.at, hb]) hb.symm⟩
  conv_rhs => rw [← List.map_id ws]
  exact List.map_congr_left fun w hw' => Prod.ext (by simp [Dual.at, hw w hw']) (hw w hw').symm

theorem atNet_unmarked {nn : NlpNet} (h : Rat) (hn : Unmarked nn) : atNet h nn = nn := by
  unfold atNet
  conv_rhs => rw [← List.map_id nn]
  refine List.map_congr_left fun l hl => ?_
  conv_rhs => rw [id, ← List.map_id l]
  exact List.map_congr_left fun n hn' => at_unmarked h (hn l hl n hn')

/-- outputs of a network without derivatives -/
theorem forward_plain {nn : NlpNet} {nIn n0 n1 : Nat} (hs : NetShape nn nIn n0 n1) (hu : Unmarked nn) {x : List Dual}
    (hx : x.length = nIn) (hz : ∀ d ∈ x, d.2 = 0) :
    ∃ outs, forward nn x = .ok outs ∧ outs.length = n1 ∧ outs.map (·.1) = plainNet nn (x.map (·.1)) := by
  obtain ⟨outs, h1, h2, h3⟩ := forward_ok hs hx
  refine ⟨outs, h1, h2, ?_⟩
  have hu0 : LayerUnmarked (nn.getD 0 []) := by
    rw [hs.getD0] at hu
    exact hu _ (by simp)
  have := h3 0 hz (.inl hu0)
  rw [atNet_unmarked 0 hu] at this
  rw [← this]
  exact List.map_congr_left fun d _ => (at_zero d).symm

/-! ## Changing a parameter -/

theorem set_modify {α} {l : List α} {i : Nat} {a : α} (f : α → α) (h : l[i]? = some a) : l.set i (f a) = l.modify i f := by
  apply List.ext_getElem?
  intro j
  rw [List.getElem?_set, List.getElem?_modify]
  by_cases e : i = j
  · subst e
    obtain ⟨hlt, e⟩ := List.getElem?_eq_some_iff.1 h
    simp [hlt, e]
  · simp [e]

theorem set_modify_of {α} {l : List α} {i : Nat} {a b : α} (f : α → α) (h : l[i]? = some a) (hb : f a = b) :
    l.set i b = l.modify i f := by rw [← hb]; exact set_modify f h

theorem modNeuron_ok {k : Option Nat} {f : Dual → Dual} {n : WeightBias}
    (h : ∀ j, k = some j → j < n.weights.length) : modNeuron k f n = .ok (updNeuron k f n) := by
  cases k with
  | none => rfl
  | some j =>
    have hj := h j rfl
    unfold modNeuron
    simp only [indexAt, List.getElem?_eq_getElem hj, bind, Except.bind]
    rw [set_modify f (List.getElem?_eq_getElem hj)]; rfl

theorem getParam_iff {nn : NlpNet} {p : NlpParam} {d : Dual} : getParam nn p = some d ↔
    ∃ l n, nn[p.layer]? = some l ∧ l[p.neuron]? = some n ∧
      (match p.weight with
        | none => some n.bias
        | some k => n.weights[k]?) = some d := by
  unfold getParam
  cases h1 : nn[p.layer]? with
  | none => simp
  | some l =>
    cases h2 : l[p.neuron]? with
    | none => simp [h2]
    | some n => simp [h2]; rfl

theorem modParam_ok {nn : NlpNet} {p : NlpParam} {d : Dual} (f : Dual → Dual) (h : getParam nn p = some d) :
    modParam nn p f = .ok (updParam nn p f) := by
  obtain ⟨l, n, h1, h2, h3⟩ := getParam_iff.1 h
  unfold modParam
  simp only [indexAt, h1, h2, bind, Except.bind]
  rw [modNeuron_ok (by
    intro j hj
    rw [hj] at h3
    exact (List.getElem?_eq_some_iff.1 h3).1)]
  simp only
  unfold updParam
  rw [set_modify (updNeuron p.weight f) h2, set_modify_of (fun l => l.modify p.neuron (updNeuron p.weight f)) h1 rfl]

theorem updNeuron_updNeuron (k : Option Nat) (f g : Dual → Dual) (n : WeightBias) :
    updNeuron k g (updNeuron k f n) = updNeuron k (g ∘ f) n := by
  cases k with
  | none => rfl
  | some k => simp [updNeuron, List.modify_modify_eq]

theorem updParam_updParam (nn : NlpNet) (p : NlpParam) (f g : Dual → Dual) :
    updParam (updParam nn p f) p g = updParam nn p (g ∘ f) := by
  unfold updParam
  rw [List.modify_modify_eq]
  congr 1
  funext l
  simp only [Function.comp]
  rw [List.modify_modify_eq]
  congr 1
  funext n
  exact updNeuron_updNeuron _ _ _ _

theorem getParam_upd_self (nn : NlpNet) (p : NlpParam) (f : Dual → Dual) :
    getParam (updParam nn p f) p = (getParam nn p).map f := by
  unfold getParam updParam
  rw [List.getElem?_modify_eq]
  cases h1 : nn[p.layer]? with
  | none => simp
  | some l =>
    simp only [Option.map_eq_map, Option.map_some, Option.bind_eq_bind, Option.bind_some]
    rw [List.getElem?_modify_eq]
    cases h2 : l[p.neuron]? with
    | none => simp
    | some n =>
      cases hk : p.weight with
      | none => simp [updNeuron]
      | some k => simp [updNeuron, List.getElem?_modify_eq]

theorem getParam_upd_ne (nn : NlpNet) {p q : NlpParam} (f : Dual → Dual) (hpq : q ≠ p) :
    getParam (updParam nn p f) q = getParam nn q := by
  unfold getParam updParam
  rw [List.getElem?_modify]
  cases h1 : nn[q.layer]? with
  | none => simp
  | some l =>
    simp only [Option.map_eq_map, Option.map_some, Option.bind_eq_bind, Option.bind_some]
    by_cases h0 : p.layer = q.layer
    · rw [if_pos h0, List.getElem?_modify]
      cases h3 : l[q.neuron]? with
      | none => simp
      | some n =>
        simp only [Option.map_eq_map, Option.map_some, Option.bind_some]
        by_cases h2 : p.neuron = q.neuron
        · rw [if_pos h2]
          have hw : p.weight ≠ q.weight := by
            intro hw
            apply hpq
            cases p; cases q; simp_all
          cases hp : p.weight with
          | none =>
            cases hq : q.weight with
            | none => rw [hp, hq] at hw; exact absurd rfl hw
            | some j => simp [updNeuron]
          | some k =>
            cases hq : q.weight with
            | none => simp [updNeuron]
            | some j =>
              have : k ≠ j := fun e => hw (by rw [hp, hq, e])
              simp [updNeuron, this]
        · rw [if_neg h2]
    · rw [if_neg h0]

/-! ## What a change of a parameter does to the outputs -/

theorem modify_map {α β} (g : α → β) (f : α → α) (f' : β → β) (h : ∀ a, g (f a) = f' (g a)) (l : List α) (i : Nat) :
    (l.modify i f).map g = (l.map g).modify i f' := by
  apply List.ext_getElem?
  intro j
  simp only [List.getElem?_map, List.getElem?_modify]
  cases l[j]? with
  | none => simp
  | some a => by_cases e : i = j <;> simp [e, h]

theorem modify_mem {α} {l : List α} {i : Nat} {f : α → α} {x : α} (h : x ∈ l.modify i f) : x ∈ l ∨ ∃ y ∈ l, x = f y := by
  obtain ⟨j, hj⟩ := List.mem_iff_getElem?.1 h
  rw [List.getElem?_modify] at hj
  cases hlj : l[j]? with
  | none => rw [hlj] at hj; simp at hj
  | some a =>
    rw [hlj] at hj
    have ha : a ∈ l := List.mem_of_getElem? hlj
    by_cases e : i = j
    · simp [e] at hj; exact .inr ⟨a, ha, hj.symm⟩
    · simp [e] at hj; exact .inl (hj ▸ ha)

theorem updNeuron_length (k : Option Nat) (f : Dual → Dual) (n : WeightBias) :
    (updNeuron k f n).weights.length = n.weights.length := by
  cases k <;> simp [updNeuron]

theorem netShape_iff {nn : NlpNet} {a b c : Nat} : NetShape nn a b c ↔ nn.map (·.map fun n => n.weights.length) =
    [List.replicate b a, List.replicate c b] := by
  constructor
  · intro h
    rw [h.getD0]
    simp only [List.map_cons, List.map_nil, List.cons.injEq, and_true]
    exact ⟨List.eq_replicate_iff.2 ⟨by rw [List.length_map, h.first], by simpa using h.weights0⟩,
      List.eq_replicate_iff.2 ⟨by rw [List.length_map, h.second], by simpa using h.weights1⟩⟩
  · intro h
    have hl : nn.length = 2 := by simpa using congrArg List.length h
    match nn, hl, h with
    | [l0, l1], _, h =>
      simp only [List.map_cons, List.map_nil, List.cons.injEq, and_true] at h
      obtain ⟨h0, h1⟩ := h
      have k0 := List.eq_replicate_iff.1 h0
      have k1 := List.eq_replicate_iff.1 h1
      exact ⟨rfl, by simpa using k0.1, by simpa using k1.1, by simpa using k0.2, by simpa using k1.2⟩

theorem updParam_shape {nn : NlpNet} {a b c : Nat} (h : NetShape nn a b c) (p : NlpParam) (f : Dual → Dual) :
    NetShape (updParam nn p f) a b c := by
  rw [netShape_iff] at h ⊢
  rw [← h]
  unfold updParam
  rw [modify_map _ _ id]
  · simp
  · intro l
    rw [modify_map _ _ id]
    · simp
    · intro n; exact updNeuron_length _ _ _

theorem updParam_unmarked {nn : NlpNet} (h : Unmarked nn) (p : NlpParam) (f : Dual → Dual) (hf : ∀ d, d.2 = 0 → (f d).2 = 0) :
    Unmarked (updParam nn p f) := by
  intro l hl n hn
  have key : ∀ l ∈ nn, ∀ n ∈ l, (updNeuron p.weight f n).bias.2 = 0 ∧ ∀ w ∈ (updNeuron p.weight f n).weights, w.2 = 0 := by
    intro l hl n hn
    obtain ⟨hb, hw⟩ := h l hl n hn
    cases p.weight with
    | none => exact ⟨hf _ hb, hw⟩
    | some k =>
      refine ⟨hb, fun w hw' => ?_⟩
      rcases modify_mem hw' with h1 | ⟨y, hy, rfl⟩
      · exact hw w h1
      · exact hf _ (hw y hy)
  rcases modify_mem hl with h1 | ⟨l0, h1, rfl⟩
  · exact h l h1 n hn
  · rcases modify_mem hn with h2 | ⟨n0, h2, rfl⟩
    · exact h l0 h1 n h2
    · exact key l0 h1 n0 h2

theorem at_updNeuron (h : Rat) (k : Option Nat) {n : WeightBias} (hn : n.bias.2 = 0 ∧ ∀ w ∈ n.weights, w.2 = 0) :
    (updNeuron k (fun w => (w.1, 1)) n).at h = updNeuron k (fun w => (w.1 + h, 0)) n := by
  cases k with
  | none =>
    have := at_unmarked h hn
    simp only [updNeuron, WeightBias.at, WeightBias.mk.injEq] at this ⊢
    refine ⟨?_, by simp [Dual.at]⟩
    have h2 := congrArg WeightBias.weights this
    exact h2
  | some k =>
    have h2 := congrArg WeightBias.weights (at_unmarked h hn)
    have h3 := congrArg WeightBias.bias (at_unmarked h hn)
    simp only [WeightBias.at] at h2 h3
    simp only [updNeuron, WeightBias.at, WeightBias.mk.injEq]
    refine ⟨?_, h3⟩
    apply List.ext_getElem?
    intro j
    simp only [List.getElem?_map, List.getElem?_modify]
    cases hj : n.weights[j]? with
    | none => simp
    | some w =>
      have hw := hn.2 w (List.mem_of_getElem? hj)
      by_cases e : k = j
      · simp [e, Dual.at]
      · simp only [if_neg e, Option.map_eq_map, Option.map_some]
        congr 1
        exact Prod.ext (by simp [Dual.at, hw]) hw.symm

theorem map_modify_of {α β} (g : α → β) (f : α → α) (f' : β → β) (l : List α) (i : Nat)
    (h : ∀ a ∈ l, g (f a) = f' (g a)) : (l.modify i f).map g = (l.map g).modify i f' := by
  apply List.ext_getElem?
  intro j
  simp only [List.getElem?_map, List.getElem?_modify]
  cases hj : l[j]? with
  | none => simp
  | some a => by_cases e : i = j <;> simp [e, h a (List.mem_of_getElem? hj)]

theorem atNet_mark (h : Rat) {nn : NlpNet} (hu : Unmarked nn) (p : NlpParam) :
    atNet h (updParam nn p fun w => (w.1, 1)) = updParam nn p fun w => (w.1 + h, 0) := by
  have e := atNet_unmarked h hu
  unfold atNet at e ⊢
  unfold updParam
  rw [map_modify_of _ _ (fun l => l.modify p.neuron (updNeuron p.weight fun w => (w.1 + h, 0))), e]
  intro l hl
  have el : l.map (WeightBias.at h) = l := by
    conv_rhs => rw [← List.map_id l]
    exact List.map_congr_left fun n hn => at_unmarked h (hu l hl n hn)
  rw [map_modify_of _ _ (updNeuron p.weight fun w => (w.1 + h, 0))]
  intro n hn
  rw [at_updNeuron h _ (hu l hl n hn), at_unmarked h (hu l hl n hn)]

theorem mark_layers {nn : NlpNet} (hu : Unmarked nn) (p : NlpParam) (f : Dual → Dual) :
    LayerUnmarked ((updParam nn p f).getD 0 []) ∨ LayerUnmarked ((updParam nn p f).getD 1 []) := by
  have key : ∀ i, i ≠ p.layer → LayerUnmarked ((updParam nn p f).getD i []) := by
    intro i hi n hn
    unfold updParam at hn
    rw [List.getD_eq_getElem?_getD, List.getElem?_modify] at hn
    simp only [if_neg (Ne.symm hi), Option.map_eq_map, Option.map_id'] at hn
    cases hj : nn[i]? with
    | none => rw [hj] at hn; exact absurd hn (by simp)
    | some l =>
      rw [hj] at hn
      exact hu l (List.mem_of_getElem? hj) n hn
  by_cases h : p.layer = 0
  · exact .inr (key 1 (by omega))
  · exact .inl (key 0 (by omega))

/-- with a marked parameter the outputs come with their slopes -/
theorem forward_marked {nn : NlpNet} {nIn n0 n1 : Nat} (hs : NetShape nn nIn n0 n1) (hu : Unmarked nn) (p : NlpParam)
    {x : List Dual} (hx : x.length = nIn) (hz : ∀ d ∈ x, d.2 = 0) :
    ∃ outs, forward (updParam nn p fun w => (w.1, 1)) x = .ok outs ∧ outs.length = n1 ∧
      ∀ h, plainNet (updParam nn p fun w => (w.1 + h, 0)) (x.map (·.1)) = outs.map fun o => o.1 + h * o.2 := by
  obtain ⟨outs, h1, h2, h3⟩ := forward_ok (updParam_shape hs p fun w => (w.1, 1)) hx
  refine ⟨outs, h1, h2, fun h => ?_⟩
  rw [← atNet_mark h hu p, ← h3 h hz (mark_layers hu p _)]
  rfl

/-- the marked parameter is changed against the error -/
theorem adapt_ok {nn : NlpNet} {nIn n0 n1 : Nat} (hs : NetShape nn nIn n0 n1) (hu : Unmarked nn) {p : NlpParam}
    (hp : (getParam nn p).isSome) {x : List Dual} (hx : x.length = nIn) (hz : ∀ d ∈ x, d.2 = 0) {out : Nat} (ho : out < n1)
    (lr target : Rat) : ∃ value slope,
      (plainNet nn (x.map (·.1)))[out]? = some value ∧
      (∀ h, (plainNet (updParam nn p fun w => (w.1 + h, 0)) (x.map (·.1)))[out]? = some (value + h * slope)) ∧
      adapt lr nn p x out target = .ok (updParam nn p fun w => (w.1 - lr * (value - target) * slope, 0)) := by
  obtain ⟨d, hd⟩ := Option.isSome_iff_exists.1 hp
  obtain ⟨outs, h1, h2, h3⟩ := forward_marked hs hu p hx hz
  have hlt : out < outs.length := by omega
  have h3' : ∀ h, (plainNet (updParam nn p fun w => (w.1 + h, 0)) (x.map (·.1)))[out]? =
      some (outs[out].1 + h * outs[out].2) := by
    intro h; rw [h3 h, List.getElem?_map, List.getElem?_eq_getElem hlt]; rfl
  refine ⟨outs[out].1, outs[out].2, ?_, h3', ?_⟩
  · have e := h3' 0
    have : updParam nn p (fun w => (w.1 + 0, 0)) = nn := by
      rw [← atNet_mark 0 hu p]
      have hm := atNet_mark 0 hu p
      rw [hm]
      have : (fun w : Dual => ((w.1 + 0, 0) : Dual)) = fun w => (w.1, 0) := by funext w; simp
      rw [this]
      apply List.ext_getElem?
      intro i
      unfold updParam
      rw [List.getElem?_modify]
      cases hi : nn[i]? with
      | none => simp
      | some l =>
        simp only [Option.map_eq_map, Option.map_some]
        congr 1
        split
        · apply List.ext_getElem?
          intro j
          rw [List.getElem?_modify]
          cases hj : l[j]? with
          | none => simp
          | some n =>
            simp only [Option.map_eq_map, Option.map_some]
            congr 1
            split
            · obtain ⟨hb, hw⟩ := hu l (List.mem_of_getElem? hi) n (List.mem_of_getElem? hj)
              cases p.weight with
              | none =>
                obtain ⟨ws, b⟩ := n
                simp only [updNeuron, WeightBias.mk.injEq, true_and]
                exact Prod.ext rfl hb.symm
              | some k =>
                obtain ⟨ws, b⟩ := n
                simp only [updNeuron, WeightBias.mk.injEq, and_true]
                apply List.ext_getElem?
                intro m
                rw [List.getElem?_modify]
                cases hm' : ws[m]? with
                | none => simp
                | some w =>
                  simp only [Option.map_eq_map, Option.map_some]
                  congr 1
                  split
                  · exact Prod.ext rfl (hw w (List.mem_of_getElem? hm')).symm
                  · rfl
            · rfl
        · rfl
    rw [this] at e
    rw [e]; simp
  · unfold adapt
    rw [modParam_ok _ hd]
    simp only [bind, Except.bind, h1]
    simp only [indexAt, List.getElem?_eq_getElem hlt]
    rw [modParam_ok (d := (d.1, 1)) _ (by rw [getParam_upd_self, hd]; rfl)]
    simp only
    rw [modParam_ok (d := (d.1 - lr * (outs[out].1 - target) * outs[out].2, 1)) _ (by
      rw [getParam_upd_self, getParam_upd_self, hd]; rfl)]
    rw [updParam_updParam, updParam_updParam]
    rfl

end Nar
