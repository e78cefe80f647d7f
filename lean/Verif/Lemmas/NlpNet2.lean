import Verif.Lemmas.NlpNet
import Mathlib.Algebra.Order.Floor.Ring
import Mathlib.Data.Rat.Floor
/-! # Lemmas about the encoding of sentences, the choice of actions, and training -/
namespace Nar

/-! ## The encoding -/

theorem placeCodes_ok {seq : List Int} (h : seq.length ≤ 12) :
    placeCodes seq (List.replicate 12 33) = .ok (List.replicate (12 - seq.length) 33 ++ seq) := by
  unfold placeCodes
  have key : ∀ m, m ≤ seq.length → (List.range m).foldlM (fun codes idx => do
      let k := seq.length - 1 - idx
      let v ← indexAt seq idx
      if k ≤ codes.length - 1 ∧ codes.length - 1 - k < codes.length then
        .ok (codes.set (codes.length - 1 - k) v)
      else (.error .index : R (List Int))) (List.replicate 12 33) =
      .ok (List.replicate (12 - seq.length) 33 ++ (seq.take m ++ List.replicate (seq.length - m) 33)) := by
    intro m
    induction m with
    | zero =>
      intro _
      simp only [List.range_zero, List.foldlM_nil, List.take_zero, List.nil_append, pure, Except.pure]
      rw [List.replicate_append_replicate]
      congr 2
      omega
    | succ m ih =>
      intro hm
      rw [List.range_succ, List.foldlM_append, ih (by omega)]
      simp only [bind, Except.bind, List.foldlM_cons, List.foldlM_nil]
      have hlt : m < seq.length := by omega
      simp only [indexAt, List.getElem?_eq_getElem hlt]
      have hlen : (List.replicate (12 - seq.length) (33 : Int) ++ (seq.take m ++ List.replicate (seq.length - m) 33)).length
          = 12 := by
        simp only [List.length_append, List.length_replicate, List.length_take]
        omega
      rw [hlen, if_pos (by omega)]
      simp only [pure, Except.pure]
      congr 1
      rw [List.set_append, if_neg (by simp only [List.length_replicate]; omega)]
      congr 1
      rw [List.set_append, if_neg (by simp only [List.length_replicate, List.length_take]; omega)]
      rw [show List.take (m + 1) seq = seq.take m ++ [seq[m]] from List.take_succ_eq_append_getElem hlt, List.append_assoc]
      congr 1
      simp only [List.length_replicate, List.length_take]
      have e1 : 12 - 1 - (seq.length - 1 - m) - (12 - seq.length) - min m seq.length = 0 := by omega
      obtain ⟨k, hk⟩ : ∃ k, seq.length - m = k + 1 := ⟨seq.length - m - 1, by omega⟩
      rw [e1, hk, List.replicate_succ, show seq.length - (m + 1) = k by omega]
      rfl
  have := key seq.length (le_refl _)
  rw [this]
  simp

theorem placeCodes_err {seq : List Int} (h : 12 < seq.length) : placeCodes seq (List.replicate 12 33) = .error .index := by
  unfold placeCodes
  obtain ⟨k, hk⟩ : ∃ k, seq.length = k + 1 := ⟨seq.length - 1, by omega⟩
  rw [show List.range seq.length = 0 :: (List.range k).map Nat.succ by rw [hk, List.range_succ_eq_map]]
  simp only [List.foldlM_cons]
  have hlt : 0 < seq.length := by omega
  simp only [indexAt, List.getElem?_eq_getElem hlt, bind, Except.bind]
  rw [if_neg (by simp only [List.length_replicate]; omega)]

theorem encodeOnehot_ok {c : Int} (h : 0 ≤ c ∧ c < 34) : encodeOnehot c 34 = .ok (codeInputs c) := by
  unfold encodeOnehot
  rw [if_pos (by exact_mod_cast h)]
  congr 1
  apply List.ext_getElem?
  intro i
  unfold codeInputs
  rw [List.getElem?_set, List.getElem?_map, List.length_replicate]
  by_cases hi : i < 34
  · rw [List.getElem?_eq_getElem (l := List.range 34) (by simpa using hi), List.getElem_range]
    by_cases e : c.toNat = i
    · rw [if_pos e, if_pos (by omega), Option.map_some, if_pos (by omega)]
    · rw [if_neg e, Option.map_some, if_neg (by omega), List.getElem?_replicate, if_pos hi]
  · rw [List.getElem?_eq_none (l := List.range 34) (by simpa using hi), if_neg (by omega), List.getElem?_replicate, if_neg hi]
    rfl

theorem encodeOnehot_err {c : Int} (h : ¬ (0 ≤ c ∧ c < 34)) : encodeOnehot c 34 = .error .index := by
  unfold encodeOnehot; rw [if_neg (by exact_mod_cast h)]

theorem mapM_ok_of {α β} {f : α → R β} {g : α → β} {l : List α} (h : ∀ a ∈ l, f a = .ok (g a)) : l.mapM f = .ok (l.map g) := by
  rw [mapM_ok_iff, List.forall₂_map_right_iff, List.forall₂_same]
  exact h

theorem convSeq_ok {seq : List Int} (h : seq.length ≤ 12) (hc : ∀ c ∈ seq, 0 ≤ c ∧ c < 34) :
    convSeq seq = .ok ((inputsOf seq).map fun v => (v, 0)) := by
  unfold convSeq
  rw [placeCodes_ok h]
  simp only [bind, Except.bind]
  rw [mapM_ok_of (g := codeInputs) (fun c hc' => encodeOnehot_ok (by
    rcases List.mem_append.1 hc' with h1 | h1
    · rw [(List.mem_replicate.1 h1).2]; decide
    · exact hc c h1))]
  simp only [inputsOf, List.flatMap]

theorem codeInputs_length (c : Int) : (codeInputs c).length = 34 := by simp [codeInputs]

theorem flatMap_length {l : List Int} : (l.flatMap codeInputs).length = 34 * l.length := by
  induction l with
  | nil => rfl
  | cons a l ih => rw [List.flatMap_cons, List.length_append, ih, codeInputs_length, List.length_cons]; omega

theorem inputsOf_length {seq : List Int} (h : seq.length ≤ 12) : (inputsOf seq).length = 408 := by
  unfold inputsOf
  rw [flatMap_length, List.length_append, List.length_replicate]
  omega

theorem codeInputs_inj {c d : Int} (hc : 0 ≤ c ∧ c < 34) (h : codeInputs c = codeInputs d) : c = d := by
  have e := congrArg (fun l => l[c.toNat]?) h
  simp only [codeInputs, List.getElem?_map] at e
  rw [List.getElem?_eq_getElem (l := List.range 34) (by simp; omega), List.getElem_range] at e
  simp only [Option.map_some, Option.some.injEq] at e
  rw [if_pos (by omega)] at e
  by_contra hne
  rw [if_neg (by omega)] at e
  exact one_ne_zero e

theorem flatMap_inj {l m : List Int} (hl : l.length = m.length) (hc : ∀ c ∈ l, 0 ≤ c ∧ c < 34)
    (h : l.flatMap codeInputs = m.flatMap codeInputs) : l = m := by
  induction l generalizing m with
  | nil => cases m with
    | nil => rfl
    | cons _ _ => simp at hl
  | cons a l ih => cases m with
    | nil => simp at hl
    | cons b m =>
      rw [List.flatMap_cons, List.flatMap_cons] at h
      obtain ⟨h1, h2⟩ := List.append_inj h (by rw [codeInputs_length, codeInputs_length])
      rw [codeInputs_inj (hc a List.mem_cons_self) h1,
        ih (by simpa using hl) (fun c hc' => hc c (List.mem_cons_of_mem _ hc')) h2]

theorem inputsOf_inj {s t : List Int} (hs : s.length ≤ 12) (ht : t.length ≤ 12) (cs : ∀ c ∈ s, 0 ≤ c ∧ c < 33)
    (ct : ∀ c ∈ t, 0 ≤ c ∧ c < 33) (h : inputsOf s = inputsOf t) : s = t := by
  unfold inputsOf at h
  have := flatMap_inj (by simp; omega) (by
    intro c hc
    rcases List.mem_append.1 hc with h1 | h1
    · rw [(List.mem_replicate.1 h1).2]; decide
    · have := cs c h1; omega) h
  have e := congrArg (List.filter fun c => decide (c ≠ 33)) this
  rw [List.filter_append, List.filter_append] at e
  have f1 : ∀ n, (List.replicate n (33 : Int)).filter (fun c => decide (c ≠ 33)) = [] := by
    intro n; simp
  have f2 : ∀ l : List Int, (∀ c ∈ l, 0 ≤ c ∧ c < 33) → l.filter (fun c => decide (c ≠ 33)) = l := by
    intro l hl; rw [List.filter_eq_self]; intro c hc; have := hl c hc; simp; omega
  rw [f1, f1, f2 s cs, f2 t ct] at e
  simpa using e

/-! ## The choice of the action -/

theorem maxFold (v : List Dual) :
    ((∀ x ∈ v, x.1 ≤ 0) ∧ v.foldl maxStep (0, 0, 0) = (0, 0, v.length)) ∨
    ∃ i x, v[i]? = some x ∧ 0 < x.1 ∧ v.foldl maxStep (0, 0, 0) = (min x.1 1, i, v.length) ∧
      (∀ y ∈ v, min y.1 1 ≤ min x.1 1) ∧ ∀ j y, j < i → v[j]? = some y → min y.1 1 < min x.1 1 := by
  induction v using List.reverseRecOn with
  | nil => left; exact ⟨by simp, rfl⟩
  | append_singleton l a ih =>
    rw [List.foldl_append, List.foldl_cons, List.foldl_nil, List.length_append, List.length_singleton]
    rcases ih with ⟨h1, h2⟩ | ⟨i, x, h1, h2, h3, h4, h5⟩
    · rw [h2]
      unfold maxStep
      by_cases ha : a.1 ≤ 0
      · left
        refine ⟨fun x hx => ?_, ?_⟩
        · rcases List.mem_append.1 hx with h | h
          · exact h1 x h
          · rw [List.mem_singleton.1 h]; exact ha
        · rw [if_neg]
          simp only [not_lt, max_le_iff, le_refl, true_and]
          exact (min_le_left _ _).trans ha
      · right
        have hpos : 0 < a.1 := not_le.1 ha
        have hm : 0 < min a.1 1 := lt_min hpos one_pos
        refine ⟨l.length, a, by simp, hpos, ?_, ?_, ?_⟩
        · rw [if_pos (by simp only [gt_iff_lt, lt_max_iff]; exact .inr hm), max_eq_right hm.le]
        · intro y hy
          rcases List.mem_append.1 hy with h | h
          · exact (min_le_left _ _).trans ((h1 y h).trans hm.le)
          · rw [List.mem_singleton.1 h]
        · intro j y hj hy
          rw [List.getElem?_append_left hj] at hy
          exact lt_of_le_of_lt ((min_le_left _ _).trans (h1 y (List.mem_of_getElem? hy))) hm
    · rw [h3]
      have hi : i < l.length := (List.getElem?_eq_some_iff.1 h1).1
      have hxm : 0 < min x.1 1 := lt_min h2 one_pos
      unfold maxStep
      by_cases ha : max 0 (min a.1 1) > min x.1 1
      · right
        have ha' : min x.1 1 < min a.1 1 := by
          rcases lt_max_iff.1 ha with h | h
          · exact absurd h (not_lt.2 hxm.le)
          · exact h
        have hm : 0 < min a.1 1 := hxm.trans ha'
        refine ⟨l.length, a, by simp, (lt_min_iff.1 hm).1, ?_, ?_, ?_⟩
        · rw [if_pos ha, max_eq_right hm.le]
        · intro y hy
          rcases List.mem_append.1 hy with h | h
          · exact (h4 y h).trans ha'.le
          · rw [List.mem_singleton.1 h]
        · intro j y hj hy
          rw [List.getElem?_append_left hj] at hy
          exact lt_of_le_of_lt (h4 y (List.mem_of_getElem? hy)) ha'
      · right
        refine ⟨i, x, by rw [List.getElem?_append_left hi]; exact h1, h2, by rw [if_neg ha], ?_, ?_⟩
        · intro y hy
          rcases List.mem_append.1 hy with h | h
          · exact h4 y h
          · rw [List.mem_singleton.1 h]
            exact (le_max_right _ _).trans (not_lt.1 ha)
        · intro j y hj hy
          rw [List.getElem?_append_left (by omega)] at hy
          exact h5 j y hj hy

theorem calcMaxOnehot_chosen (v : List Dual) : Chosen (v.map (·.1)) (calcMaxOnehot v) := by
  unfold calcMaxOnehot
  rcases maxFold v with ⟨h1, h2⟩ | ⟨i, x, h1, h2, h3, h4, h5⟩
  · rw [h2]
    refine ⟨fun _ => rfl, fun ⟨x, hx, hp⟩ => ?_⟩
    obtain ⟨y, hy, rfl⟩ := List.mem_map.1 hx
    exact absurd hp (not_lt.2 (h1 y hy))
  · rw [h3]
    refine ⟨fun h => absurd h2 (not_lt.2 (h _ (List.mem_map.2 ⟨x, List.mem_of_getElem? h1, rfl⟩))), fun _ => ?_⟩
    refine ⟨x.1, by simp [h1], h2, ?_, ?_⟩
    · intro y hy
      obtain ⟨z, hz, rfl⟩ := List.mem_map.1 hy
      exact h4 z hz
    · intro j y hj hy
      rw [List.getElem?_map] at hy
      obtain ⟨z, hz, rfl⟩ := Option.map_eq_some_iff.1 hy
      exact h5 j z hj hz

theorem chosen_unique {out : List Rat} {a b : Nat} (ha : Chosen out a) (hb : Chosen out b) : a = b := by
  by_cases h : ∀ x ∈ out, x ≤ 0
  · rw [ha.none h, hb.none h]
  · have h' : ∃ x ∈ out, 0 < x := by
      by_contra hn
      exact h fun x hx => not_lt.1 fun hp => hn ⟨x, hx, hp⟩
    obtain ⟨x, hx, _, hx2, hx3⟩ := ha.some h'
    obtain ⟨y, hy, _, hy2, hy3⟩ := hb.some h'
    rcases lt_trichotomy a b with hlt | heq | hlt
    · exact absurd (hx2 y (List.mem_of_getElem? hy)) (not_le.2 (hy3 a x hlt hx))
    · exact heq
    · exact absurd (hy2 x (List.mem_of_getElem? hx)) (not_le.2 (hx3 b y hlt hy))

/-! ## Random numbers -/

theorem ratTrunc_bound {x : Rat} {B : Int} (h : |x| ≤ (B : Rat)) : -B ≤ ratTrunc x ∧ ratTrunc x ≤ B := by
  obtain ⟨h1, h2⟩ := abs_le.1 h
  unfold ratTrunc
  split
  · rename_i h0
    have a1 : 0 ≤ x.floor := Rat.le_floor_iff.2 (by exact_mod_cast h0)
    have a2 : (x.floor : Rat) ≤ x := Rat.floor_le x
    have a3 : x.floor ≤ B := by exact_mod_cast a2.trans h2
    omega
  · rename_i h0
    have a1 : 0 ≤ (-x).floor := Rat.le_floor_iff.2 (by push_cast; linarith [not_le.1 h0])
    have a2 : ((-x).floor : Rat) ≤ -x := Rat.floor_le (-x)
    have a4 : -x ≤ (B : Rat) := by linarith
    have a3 : (-x).floor ≤ B := by exact_mod_cast a2.trans a4
    omega

theorem rngGenint_ok {sn : Int → Rat} (hs : SineLike sn) {v m : Int} (hv : 0 ≤ v) (hm : 0 < m) :
    ∃ r, rngGenint sn v m = .ok (r, v + 1) ∧ 0 ≤ r ∧ r < m := by
  have hb : |sn v * 8461256485| ≤ ((8461256485 : Int) : Rat) := by
    rw [abs_mul, abs_of_pos (by norm_num : (0 : Rat) < 8461256485)]
    have := abs_le.2 (hs v)
    push_cast
    nlinarith
  obtain ⟨b1, b2⟩ := ratTrunc_bound hb
  have hpos : 0 ≤ 1383462957253 + v * 1337 + ratTrunc (sn v * 8461256485) := by omega
  exact ⟨_, by unfold rngGenint; rw [if_neg (by omega)], Int.tmod_nonneg _ hpos, Int.tmod_lt_of_pos _ hm⟩

theorem rngGenfloat_ok {sn : Int → Rat} (hs : SineLike sn) {v : Int} (hv : 0 ≤ v) :
    0 ≤ (rngGenfloat sn v).1 ∧ (rngGenfloat sn v).1 < 1 ∧ (rngGenfloat sn v).2 = v + 1 := by
  have h1 := hs v
  have hv' : (0 : Rat) ≤ v := by exact_mod_cast hv
  have hpos : (0 : Rat) ≤ 1383462957253 + v * 1337 + sn v * 8461256485 := by nlinarith [h1.1]
  unfold rngGenfloat ratTrunc
  simp only [if_pos hpos]
  have a1 := Rat.floor_le (1383462957253 + v * 1337 + sn v * 8461256485)
  have a2 := Rat.lt_floor_add_one (1383462957253 + v * 1337 + sn v * 8461256485)
  push_cast at a2
  refine ⟨by linarith, by linarith, trivial⟩

/-! ## Training -/

theorem initWeights_ok (sn : Int → Rat) (off : Rat) : ∀ (n : Nat) (v : Int),
    (initWeights sn off n v).1.length = n ∧ (∀ w ∈ (initWeights sn off n v).1, w.2 = 0) ∧
      (initWeights sn off n v).2 = v + n
  | 0, v => by simp [initWeights]
  | n + 1, v => by
    obtain ⟨h1, h2, h3⟩ := initWeights_ok sn off n (v + 1)
    have e : (rngGenfloat sn v).2 = v + 1 := rfl
    simp only [initWeights, e, List.length_cons, h1, List.mem_cons, forall_eq_or_imp, true_and, h3]
    refine ⟨h2, ?_⟩
    push_cast; ring

theorem initLayer_ok (sn : Int → Rat) (off : Rat) (nIn : Nat) : ∀ (n : Nat) (v : Int), 0 ≤ v →
    (initLayer sn off nIn n v).1.length = n ∧ LayerUnmarked (initLayer sn off nIn n v).1 ∧
      (∀ m ∈ (initLayer sn off nIn n v).1, m.weights.length = nIn) ∧ 0 ≤ (initLayer sn off nIn n v).2
  | 0, v, hv => by simp [initLayer, LayerUnmarked, hv]
  | n + 1, v, hv => by
    obtain ⟨w1, w2, w3⟩ := initWeights_ok sn off nIn v
    have e : ∀ v, (rngGenfloat sn v).2 = v + 1 := fun _ => rfl
    have hv' : 0 ≤ v + nIn + 1 := by omega
    obtain ⟨h1, h2, h3, h4⟩ := initLayer_ok sn off nIn n (v + nIn + 1) hv'
    simp only [initLayer, e, w3]
    refine ⟨by simp [h1], ?_, ?_, h4⟩
    · intro m hm
      rcases List.mem_cons.1 hm with rfl | hm
      · exact ⟨rfl, w2⟩
      · exact h2 m hm
    · intro m hm
      rcases List.mem_cons.1 hm with rfl | hm
      · exact w1
      · exact h3 m hm

theorem initNet_aux {l0 l1 : List WeightBias} {v : Int} {a b c : Nat} (a1 : l0.length = b) (a2 : LayerUnmarked l0)
    (a3 : ∀ n ∈ l0, n.weights.length = a) (b1 : l1.length = c) (b2 : LayerUnmarked l1)
    (b3 : ∀ n ∈ l1, n.weights.length = b) (hv : 0 ≤ v) :
    NetShape (([l0, l1], v) : NlpNet × Int).1 a b c ∧ Unmarked (([l0, l1], v) : NlpNet × Int).1 ∧
      0 ≤ (([l0, l1], v) : NlpNet × Int).2 := by
  refine ⟨⟨rfl, a1, b1, a3, b3⟩, ?_, hv⟩
  intro l hl
  rcases List.mem_cons.1 hl with rfl | hl
  · exact a2
  · rw [List.mem_singleton.1 hl]; exact b2

theorem initNet_ok (sn : Int → Rat) : NetShape (initNet sn).1 408 9 15 ∧ Unmarked (initNet sn).1 ∧ 0 ≤ (initNet sn).2 := by
  obtain ⟨a1, a2, a3, a4⟩ := initLayer_ok sn (1 / 10) 408 9 8737 (by decide)
  obtain ⟨b1, b2, b3, b4⟩ := initLayer_ok sn (5 / 100) 9 15 (initLayer sn (1 / 10) 408 9 8737).2 a4
  have e : initNet sn = ([(initLayer sn (1 / 10) 408 9 8737).1,
      (initLayer sn (5 / 100) 9 15 (initLayer sn (1 / 10) 408 9 8737).2).1],
      (initLayer sn (5 / 100) 9 15 (initLayer sn (1 / 10) 408 9 8737).2).2) := by
    unfold initNet
    simp only
    rw [a1]
  rw [e]
  exact initNet_aux a1 a2 a3 b1 b2 b3 b4

theorem chooseParam_ok {sn : Int → Rat} (hs : SineLike sn) {nn : NlpNet} {nIn n0 n1 : Nat} (hn : NetShape nn nIn n0 n1)
    (h0 : 0 < n0) (h1 : 0 < n1) {v : Int} (hv : 0 ≤ v) :
    ∃ p v', chooseParam sn nn v = .ok (p, v') ∧ (getParam nn p).isSome ∧ 0 ≤ v' := by
  have e2 : ∀ v, (rngGenfloat sn v).2 = v + 1 := fun _ => rfl
  unfold chooseParam
  simp only [e2]
  have hl : ∃ l, nn[if (rngGenfloat sn v).1 > 9 / 10 then 1 else 0]? = some l ∧ 0 < l.length := by
    have h := hn.getD0
    split
    · exact ⟨nn.getD 1 [], by rw [h]; rfl, by rw [hn.second]; exact h1⟩
    · exact ⟨nn.getD 0 [], by rw [h]; rfl, by rw [hn.first]; exact h0⟩
  obtain ⟨l, hl, hpos⟩ := hl
  simp only [indexAt, hl, bind, Except.bind]
  obtain ⟨i, g1, g2, g3⟩ := rngGenint_ok hs (v := v + 1) (m := l.length) (by omega) (by omega)
  rw [g1]
  have hi : i.toNat < l.length := by omega
  simp only [List.getElem?_eq_getElem hi]
  obtain ⟨k, k1, k2, k3⟩ := rngGenint_ok hs (v := v + 1 + 1) (m := (l[i.toNat].weights.length : Int) + 1) (by omega) (by omega)
  rw [k1]
  refine ⟨_, _, rfl, ?_, by omega⟩
  unfold getParam
  simp only [hl, Option.bind_eq_bind, Option.bind_some, List.getElem?_eq_getElem hi]
  by_cases hm : 0 ≤ (l[i.toNat].weights.length : Int) - 1 - k
  · rw [if_pos hm]
    simp only
    rw [List.getElem?_eq_getElem (by omega)]
    rfl
  · rw [if_neg hm]; rfl

/-- a sample for a network with `n1` outputs -/
def GoodSeq (n1 : Nat) (s : NlpSeq) : Prop := s.seq.length ≤ 12 ∧ (∀ c ∈ s.seq, 0 ≤ c ∧ c < 34) ∧ s.out < n1

theorem trainStep_ok {sn : Int → Rat} (hs : SineLike sn) {seqs : List NlpSeq} {n0 n1 : Nat} (hq : ∀ s ∈ seqs, GoodSeq n1 s)
    (hne : 0 < seqs.length) (h0 : 0 < n0) (h1 : 0 < n1) (lr : Rat) {st : TrainState} (hn : NetShape st.1 408 n0 n1)
    (hu : Unmarked st.1) (hv : 0 ≤ st.2) :
    ∃ p s o t value slope v', s ∈ seqs ∧ o < n1 ∧ (getParam st.1 p).isSome ∧
      t = (if o = s.out then 9 / 10 else 1 / 10) ∧
      (plainNet st.1 (inputsOf s.seq))[o]? = some value ∧
      (∀ h, (plainNet (updParam st.1 p fun w => (w.1 + h, 0)) (inputsOf s.seq))[o]? = some (value + h * slope)) ∧
      trainStep sn seqs lr st = .ok (updParam st.1 p fun w => (w.1 - lr * (value - t) * slope, 0), v') ∧ 0 ≤ v' := by
  obtain ⟨p, v1, c1, c2, c3⟩ := chooseParam_ok hs hn h0 h1 hv
  obtain ⟨i, i1, i2, i3⟩ := rngGenint_ok hs (m := seqs.length) c3 (by omega)
  have hi : i.toNat < seqs.length := by omega
  have hmem : seqs[i.toNat] ∈ seqs := List.getElem_mem hi
  obtain ⟨q1, q2, q3⟩ := hq _ hmem
  obtain ⟨o, o1, o2, o3⟩ := rngGenint_ok hs (v := v1 + 1) (m := n1) (by omega) (by omega)
  have ho : o.toNat < n1 := by omega
  have hin := convSeq_ok q1 q2
  have hx : ((inputsOf seqs[i.toNat].seq).map fun v => ((v, 0) : Dual)).map (·.1) = inputsOf seqs[i.toNat].seq := by
    simp [List.map_map, Function.comp_def]
  obtain ⟨value, slope, a1, a2, a3⟩ := adapt_ok hn hu c2 (x := (inputsOf seqs[i.toNat].seq).map fun v => (v, 0))
    (by rw [List.length_map, inputsOf_length q1]) (by
      intro d hd
      obtain ⟨v, _, rfl⟩ := List.mem_map.1 hd
      rfl) ho lr (if o.toNat = seqs[i.toNat].out then 9 / 10 else 1 / 10)
  rw [hx] at a1 a2
  refine ⟨p, seqs[i.toNat], o.toNat, _, value, slope, v1 + 1 + 1, hmem, ho, c2, rfl, a1, a2, ?_, by omega⟩
  unfold trainStep
  rw [c1]
  simp only [bind, Except.bind]
  rw [i1]
  simp only [indexAt, List.getElem?_eq_getElem hi, hin]
  have hl1 : st.1[1]? = some (st.1.getD 1 []) := by rw [hn.getD0]; rfl
  rw [hl1]
  simp only [hn.second]
  rw [show targetOf n1 seqs[i.toNat] = .ok ((List.replicate n1 (1 / 10)).set seqs[i.toNat].out (9 / 10)) from if_pos q3]
  simp only
  rw [o1]
  simp only
  have ht : ((List.replicate n1 ((1 : Rat) / 10)).set seqs[i.toNat].out (9 / 10))[o.toNat]? =
      some (if o.toNat = seqs[i.toNat].out then 9 / 10 else 1 / 10) := by
    rw [List.getElem?_set, List.length_replicate, List.getElem?_replicate, if_pos ho]
    by_cases e : seqs[i.toNat].out = o.toNat
    · rw [if_pos e, if_pos q3, if_pos e.symm]
    · rw [if_neg e, if_neg (Ne.symm e)]
  rw [ht]
  simp only
  rw [a3]

theorem trainEpochs_ok {sn : Int → Rat} (hs : SineLike sn) {seqs : List NlpSeq} {n0 n1 : Nat} (hq : ∀ s ∈ seqs, GoodSeq n1 s)
    (hne : 0 < seqs.length) (h0 : 0 < n0) (h1 : 0 < n1) (max : Nat) {st : TrainState} (hn : NetShape st.1 408 n0 n1)
    (hu : Unmarked st.1) (hv : 0 ≤ st.2) :
    ∃ st', trainEpochs sn seqs max st = .ok st' ∧ NetShape st'.1 408 n0 n1 ∧ Unmarked st'.1 ∧ 0 ≤ st'.2 := by
  have key := foldlM_total (f := fun st i => trainStep sn seqs (rateAt max i) st)
    (fun st : TrainState => NetShape st.1 408 n0 n1 ∧ Unmarked st.1 ∧ 0 ≤ st.2) (List.range max)
    (by
      intro i _ st h
      obtain ⟨p, s, o, t, value, slope, v', _, _, _, _, _, _, h5, h6⟩ :=
        trainStep_ok hs hq hne h0 h1 (rateAt max i) h.1 h.2.1 h.2.2
      exact ⟨_, h5, updParam_shape h.1 p _, updParam_unmarked h.2.1 p _ (fun _ _ => rfl), h6⟩) st ⟨hn, hu, hv⟩
  exact key

theorem trainingSeqs_good : ∃ seqs, trainingSeqs = .ok seqs ∧ 0 < seqs.length ∧ ∀ s ∈ seqs, GoodSeq 15 s := by
  have key : ∀ o : R (List NlpSeq), (o.map fun l => decide (0 < l.length ∧ ∀ s ∈ l, s.seq.length ≤ 12 ∧
      (∀ c ∈ s.seq, 0 ≤ c ∧ c < 34) ∧ s.out < 15)) = .ok true →
      ∃ l, o = .ok l ∧ 0 < l.length ∧ ∀ s ∈ l, s.seq.length ≤ 12 ∧ (∀ c ∈ s.seq, 0 ≤ c ∧ c < 34) ∧ s.out < 15 := by
    intro o h
    cases o with
    | error e => simp [Except.map] at h
    | ok l => exact ⟨l, rfl, by simpa [Except.map] using h⟩
  exact key _ (by decide +kernel)

end Nar
