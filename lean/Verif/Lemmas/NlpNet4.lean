import Verif.Lemmas.NlpNet2
/-! # Lemmas about the language module: each choice of the training is possible -/
namespace Nar

theorem ratTrunc_natCast (k : Nat) : ratTrunc (k : Rat) = k := by
  unfold ratTrunc
  rw [if_pos (by exact_mod_cast Nat.zero_le k)]
  exact Rat.floor_intCast (k : Int)

/-- the value of the sine which makes an integer draw from `m` numbers give `r` -/
def sineFor (v m r : Int) : Rat := ((r - (1383462957253 + v * 1337)) % m).toNat / 8461256485

theorem sineFor_range {v m : Int} (hm : 0 < m) (hK : m ≤ 8461256485) (r : Int) : 0 ≤ sineFor v m r ∧ sineFor v m r ≤ 1 := by
  unfold sineFor
  have h1 := Int.emod_lt_of_pos (r - (1383462957253 + v * 1337)) hm
  have h2 : ((r - (1383462957253 + v * 1337)) % m).toNat ≤ 8461256485 := by omega
  have h3 : (((r - (1383462957253 + v * 1337)) % m).toNat : Rat) ≤ 8461256485 := by exact_mod_cast h2
  constructor
  · positivity
  · rw [div_le_one (by norm_num)]; exact h3

theorem rngGenint_for {sn : Int → Rat} {v m r : Int} (hv : 0 ≤ v) (hr : 0 ≤ r) (hm : r < m) (h : sn v = sineFor v m r) :
    rngGenint sn v m = .ok (r, v + 1) := by
  unfold rngGenint
  rw [if_neg (by omega), h]
  unfold sineFor
  rw [div_mul_cancel₀ _ (by norm_num), ratTrunc_natCast]
  have h0 := Int.emod_nonneg (r - (1383462957253 + v * 1337)) (show m ≠ 0 by omega)
  rw [Int.toNat_of_nonneg h0, Int.tmod_eq_emod_of_nonneg (by omega), Int.add_emod, Int.emod_emod, ← Int.add_emod,
    show 1383462957253 + v * 1337 + (r - (1383462957253 + v * 1337)) = r by omega, Int.emod_eq_of_lt hr hm]

theorem rngGenfloat_for {sn : Int → Rat} {v : Int} {q : Rat} (hv : 0 ≤ v) (h0 : 0 ≤ q) (h1 : q < 1) (h : sn v = q / 8461256485) :
    rngGenfloat sn v = (q, v + 1) := by
  unfold rngGenfloat ratTrunc
  simp only [h]
  rw [div_mul_cancel₀ _ (by norm_num)]
  have hpos : (0 : Rat) ≤ 1383462957253 + v * 1337 + q := by
    have : (0 : Rat) ≤ v := by exact_mod_cast hv
    linarith
  rw [if_pos hpos]
  have hf : (1383462957253 + (v : Rat) * 1337 + q).floor = 1383462957253 + v * 1337 := by
    apply le_antisymm
    · have : (1383462957253 + (v : Rat) * 1337 + q).floor < 1383462957253 + v * 1337 + 1 := by
        rw [Rat.floor_lt_iff]
        push_cast
        linarith
      omega
    · rw [Rat.le_floor_iff]
      push_cast
      linarith
  rw [hf]
  push_cast
  rw [show (1383462957253 + (v : Rat) * 1337 + q - (1383462957253 + v * 1337)) = q by ring]

/-- draws which choose a parameter -/
theorem chooseParam_for {sn : Int → Rat} {nn : NlpNet} {nIn n0 n1 : Nat} (hn : NetShape nn nIn n0 n1) {v : Int} (hv : 0 ≤ v)
    {p : NlpParam} {l : List WeightBias} {n : WeightBias} (hl : nn[p.layer]? = some l) (hi : l[p.neuron]? = some n)
    (hw : ∀ k, p.weight = some k → k < n.weights.length)
    (h0 : sn v = (if p.layer = 0 then 1 / 2 else 95 / 100) / 8461256485) (h1 : sn (v + 1) = sineFor (v + 1) l.length p.neuron)
    (h2 : sn (v + 2) = sineFor (v + 2) (n.weights.length + 1)
      (match p.weight with | none => n.weights.length | some k => n.weights.length - 1 - k)) :
    chooseParam sn nn v = .ok (p, v + 3) := by
  have hlay : p.layer = 0 ∨ p.layer = 1 := by
    have := (List.getElem?_eq_some_iff.1 hl).1
    rw [hn.layers] at this
    omega
  have hneu : p.neuron < l.length := (List.getElem?_eq_some_iff.1 hi).1
  unfold chooseParam
  have hfl : rngGenfloat sn v = (if p.layer = 0 then 1 / 2 else 95 / 100, v + 1) :=
    rngGenfloat_for hv (by split <;> norm_num) (by split <;> norm_num) h0
  have hsel : (if (if p.layer = 0 then (1 / 2 : Rat) else 95 / 100) > 9 / 10 then 1 else 0) = p.layer := by
    rcases hlay with e | e
    · rw [e]; norm_num
    · rw [e]; norm_num
  rw [hfl]
  simp only [hsel, indexAt, hl, bind, Except.bind]
  rw [rngGenint_for (by omega) (by omega) (by omega) h1]
  simp only [Int.toNat_natCast, hi]
  have e2 : v + 1 + 1 = v + 2 := by omega
  rw [e2]
  obtain ⟨layer, neuron, weight⟩ := p
  cases weight with
  | none =>
    simp only at h2
    rw [rngGenint_for (by omega) (by omega) (by omega) h2]
    simp only
    rw [if_neg (by omega), show v + 2 + 1 = v + 3 by omega]
  | some k =>
    have hk := hw k rfl
    simp only at h2
    rw [rngGenint_for (by omega) (by omega) (by omega) h2]
    simp only
    rw [if_pos (by omega), show ((n.weights.length : Int) - 1 - (n.weights.length - 1 - k)).toNat = k by omega,
      show v + 2 + 1 = v + 3 by omega]

/-- a step of the training for given choices -/
theorem trainStep_for {sn : Int → Rat} {seqs : List NlpSeq} {n0 n1 : Nat} (hq : ∀ s ∈ seqs, GoodSeq n1 s) (lr : Rat) {st : TrainState}
    (hn : NetShape st.1 408 n0 n1) (hu : Unmarked st.1) {p : NlpParam} {v1 v2 v3 : Int} {i o : Nat} {s : NlpSeq}
    (c1 : chooseParam sn st.1 st.2 = .ok (p, v1)) (c2 : (getParam st.1 p).isSome) (hi : seqs[i]? = some s) (ho : o < n1)
    (i1 : rngGenint sn v1 seqs.length = .ok ((i : Int), v2)) (o1 : rngGenint sn v2 n1 = .ok ((o : Int), v3)) :
    ∃ value slope, (plainNet st.1 (inputsOf s.seq))[o]? = some value ∧
      (∀ h, (plainNet (updParam st.1 p fun w => (w.1 + h, 0)) (inputsOf s.seq))[o]? = some (value + h * slope)) ∧
      trainStep sn seqs lr st =
        .ok (updParam st.1 p fun w => (w.1 - lr * (value - (if o = s.out then 9 / 10 else 1 / 10)) * slope, 0), v3) := by
  obtain ⟨q1, q2, q3⟩ := hq s (List.mem_of_getElem? hi)
  have hin := convSeq_ok q1 q2
  have hx : ((inputsOf s.seq).map fun v => ((v, 0) : Dual)).map (·.1) = inputsOf s.seq := by
    simp [List.map_map, Function.comp_def]
  obtain ⟨value, slope, a1, a2, a3⟩ := adapt_ok hn hu c2 (x := (inputsOf s.seq).map fun v => (v, 0))
    (by rw [List.length_map, inputsOf_length q1]) (by
      intro d hd
      obtain ⟨v, _, rfl⟩ := List.mem_map.1 hd
      rfl) ho lr (if o = s.out then 9 / 10 else 1 / 10)
  rw [hx] at a1 a2
  refine ⟨value, slope, a1, a2, ?_⟩
  unfold trainStep
  rw [c1]
  simp only [bind, Except.bind]
  rw [i1]
  simp only [indexAt, Int.toNat_natCast, hi, hin]
  have hl1 : st.1[1]? = some (st.1.getD 1 []) := by rw [hn.getD0]; rfl
  rw [hl1]
  simp only [hn.second]
  rw [show targetOf n1 s = .ok ((List.replicate n1 (1 / 10)).set s.out (9 / 10)) from if_pos q3]
  simp only
  rw [o1]
  simp only [Int.toNat_natCast]
  have ht : ((List.replicate n1 ((1 : Rat) / 10)).set s.out (9 / 10))[o]? = some (if o = s.out then 9 / 10 else 1 / 10) := by
    rw [List.getElem?_set, List.length_replicate, List.getElem?_replicate, if_pos ho]
    by_cases e : s.out = o
    · rw [if_pos e, if_pos q3, if_pos e.symm]
    · rw [if_neg e, if_neg (Ne.symm e)]
  rw [ht]
  simp only
  rw [a3]

theorem getParam_isSome {nn : NlpNet} {p : NlpParam} (h : (getParam nn p).isSome) :
    ∃ l n, nn[p.layer]? = some l ∧ l[p.neuron]? = some n ∧ ∀ k, p.weight = some k → k < n.weights.length := by
  unfold getParam at h
  cases hl : nn[p.layer]? with
  | none => simp [hl] at h
  | some l =>
    cases hn : l[p.neuron]? with
    | none => simp [hl, hn] at h
    | some n =>
      refine ⟨l, n, rfl, hn, fun k hk => ?_⟩
      simp only [hl, hn, hk, bind, Option.bind] at h
      by_contra hc
      rw [List.getElem?_eq_none (by omega)] at h
      simp at h

end Nar
