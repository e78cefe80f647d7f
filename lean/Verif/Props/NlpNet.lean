import Verif.Lemmas.NlpNet3
import Verif.Lemmas.NlpNet4
import Verif.Props.Parser
/-! # Property theorems about the language module (C81, C82, C83) -/
namespace Nar.Props
open Nar

/-! ## C81: training -/

/-- C81: the random numbers of the training lie in the range asked for, from each state which is reached. -/
theorem C81_random_numbers (sn : Int → Rat) (hs : SineLike sn) (v m : Int) (hv : 0 ≤ v) (hm : 0 < m) :
    (∃ r, rngGenint sn v m = .ok (r, v + 1) ∧ 0 ≤ r ∧ r < m) ∧
    0 ≤ (rngGenfloat sn v).1 ∧ (rngGenfloat sn v).1 < 1 ∧ (rngGenfloat sn v).2 = v + 1 :=
  ⟨rngGenint_ok hs hv hm, rngGenfloat_ok hs hv⟩

/-- a function with values between -1 and 1 -/
def zigzag (v : Int) : Rat := if v % 3 = 0 then 1 / 3 else if v % 3 = 1 then -2 / 7 else 9 / 10

theorem zigzag_sine : SineLike zigzag := by
  intro v
  unfold zigzag
  split
  · constructor <;> decide +kernel
  · split
    · constructor <;> decide +kernel
    · constructor <;> decide +kernel

example : rngGenint zigzag 8737 9 = .ok (4, 8738) ∧ (rngGenfloat zigzag 8737).1 = 1 / 7 := by decide +kernel

/-- a network with one neuron in the first layer, which looks whether the last sign is the first action, and 15 outputs: it
says 1 first and then 0 -/
def smallNet : NlpNet :=
  [[⟨(List.replicate 408 (0, 0)).set 393 (1, 0), (0, 0)⟩],
   [⟨[(1, 0)], (0, 0)⟩, ⟨[(-1, 0)], (1 / 2, 0)⟩] ++ List.replicate 13 ⟨[(0, 0)], (0, 0)⟩]

theorem smallNet_shape : NetShape smallNet 408 1 15 :=
  ⟨rfl, rfl, rfl, by decide +kernel, by decide +kernel⟩

theorem smallNet_unmarked : Unmarked smallNet := by unfold Unmarked; decide +kernel

/-- C81: when a parameter is marked, the network computes for each output besides its value its slope, that is the exact change
of the output for each change of the parameter. -/
theorem C81_slopes (nn : NlpNet) (nIn n0 n1 : Nat) (hs : NetShape nn nIn n0 n1) (hu : Unmarked nn) (p : NlpParam)
    (x : List Rat) (hx : x.length = nIn) :
    ∃ outs, forward (updParam nn p fun w => (w.1, 1)) (x.map fun v => (v, 0)) = .ok outs ∧ outs.length = n1 ∧
      ∀ h, plainNet (updParam nn p fun w => (w.1 + h, 0)) x = outs.map fun o => o.1 + h * o.2 := by
  obtain ⟨outs, h1, h2, h3⟩ := forward_marked hs hu p (x := x.map fun v => (v, 0)) (by rw [List.length_map, hx]) (by
    intro d hd
    obtain ⟨v, _, rfl⟩ := List.mem_map.1 hd
    rfl)
  refine ⟨outs, h1, h2, fun h => ?_⟩
  have := h3 h
  rw [show (x.map fun v => ((v, 0) : Dual)).map (·.1) = x by simp [List.map_map, Function.comp_def]] at this
  exact this

example : (forward (updParam smallNet ⟨1, 1, some 0⟩ fun w => (w.1, 1)) ((inputsOf [2, 0, 1, 7, 19]).map fun v => (v, 0))).map
    (fun outs => outs.take 3) = .ok [(1, 0), (-1 / 2, 1), (0, 0)] := by decide +kernel

/-- C81: a step of the training changes one parameter against the error. For the output looked at, the difference between the
value and the target is multiplied by `1 - lr * slope²`; no other parameter changes. -/
theorem C81_step (sn : Int → Rat) (hs : SineLike sn) (seqs : List NlpSeq) (n0 n1 : Nat)
    (hq : ∀ s ∈ seqs, s.seq.length ≤ 12 ∧ (∀ c ∈ s.seq, 0 ≤ c ∧ c < 34) ∧ s.out < n1) (hne : seqs ≠ []) (h0 : 0 < n0)
    (h1 : 0 < n1) (lr : Rat) (nn : NlpNet) (v : Int) (hn : NetShape nn 408 n0 n1) (hu : Unmarked nn) (hv : 0 ≤ v) :
    ∃ nn' v', trainStep sn seqs lr (nn, v) = .ok (nn', v') ∧ NetShape nn' 408 n0 n1 ∧ Unmarked nn' ∧ 0 ≤ v' ∧
      ∃ p s o value slope, s ∈ seqs ∧ o < n1 ∧ (getParam nn p).isSome ∧ (∀ q, q ≠ p → getParam nn' q = getParam nn q) ∧
        (plainNet nn (inputsOf s.seq))[o]? = some value ∧
        (∀ h, (plainNet (updParam nn p fun w => (w.1 + h, 0)) (inputsOf s.seq))[o]? = some (value + h * slope)) ∧
        ∃ value', (plainNet nn' (inputsOf s.seq))[o]? = some value' ∧
          value' - (if o = s.out then 9 / 10 else 1 / 10) =
            (value - (if o = s.out then 9 / 10 else 1 / 10)) * (1 - lr * slope ^ 2) := by
  obtain ⟨p, s, o, t, value, slope, v', a1, a2, a3, a4, a5, a6, a7, a8⟩ :=
    trainStep_ok hs (n1 := n1) (st := (nn, v)) hq (List.length_pos_iff.2 hne) h0 h1 lr hn hu hv
  subst a4
  refine ⟨_, v', a7, updParam_shape hn p _, updParam_unmarked hu p _ fun _ _ => rfl, a8, p, s, o, value, slope, a1, a2, a3,
    fun q hq' => getParam_upd_ne nn _ hq', a5, a6, ?_⟩
  have := a6 (-(lr * (value - (if o = s.out then 9 / 10 else 1 / 10)) * slope))
  refine ⟨value + -(lr * (value - (if o = s.out then 9 / 10 else 1 / 10)) * slope) * slope, ?_, ?_⟩
  · rw [← this]
    simp only [sub_eq_add_neg]
  · ring

/-- C81: nothing is left out by the training: for each parameter of the network, each sample and each output there are random
numbers with which the step trains this parameter for this output of this sample. -/
theorem C81_every_choice_possible (seqs : List NlpSeq) (n0 n1 : Nat)
    (hq : ∀ s ∈ seqs, s.seq.length ≤ 12 ∧ (∀ c ∈ s.seq, 0 ≤ c ∧ c < 34) ∧ s.out < n1)
    (hsize : seqs.length + n0 + n1 ≤ 8461256000) (lr : Rat) (nn : NlpNet) (v : Int) (hn : NetShape nn 408 n0 n1)
    (hu : Unmarked nn) (hv : 0 ≤ v) (p : NlpParam) (hp : (getParam nn p).isSome) (s : NlpSeq) (hs : s ∈ seqs) (o : Nat)
    (ho : o < n1) :
    ∃ sn, SineLike sn ∧ ∃ value slope, (plainNet nn (inputsOf s.seq))[o]? = some value ∧
      (∀ h, (plainNet (updParam nn p fun w => (w.1 + h, 0)) (inputsOf s.seq))[o]? = some (value + h * slope)) ∧
      trainStep sn seqs lr (nn, v) =
        .ok (updParam nn p fun w => (w.1 - lr * (value - (if o = s.out then 9 / 10 else 1 / 10)) * slope, 0), v + 5) := by
  obtain ⟨i, hi⟩ := List.mem_iff_getElem?.1 hs
  have hil := (List.getElem?_eq_some_iff.1 hi).1
  obtain ⟨l, n, hl, hnn, hw⟩ := getParam_isSome hp
  have hneu : p.neuron < l.length := (List.getElem?_eq_some_iff.1 hnn).1
  have hll : l.length ≤ n0 + n1 ∧ n.weights.length ≤ 408 + n0 := by
    have hlay := (List.getElem?_eq_some_iff.1 hl).1
    rw [hn.layers] at hlay
    have hmem := List.mem_of_getElem? hnn
    rcases (show p.layer = 0 ∨ p.layer = 1 by omega) with e | e <;> rw [e] at hl
    · have : nn.getD 0 [] = l := by simp [List.getD, hl]
      have h1 := hn.first
      have h2 := hn.weights0 n
      rw [this] at h1 h2
      have := h2 hmem
      omega
    · have : nn.getD 1 [] = l := by simp [List.getD, hl]
      have h1 := hn.second
      have h2 := hn.weights1 n
      rw [this] at h1 h2
      have := h2 hmem
      omega
  let r2 : Int := match p.weight with | none => n.weights.length | some k => n.weights.length - 1 - k
  let sn : Int → Rat := fun x =>
    if x = v then (if p.layer = 0 then 1 / 2 else 95 / 100) / 8461256485
    else if x = v + 1 then sineFor (v + 1) l.length p.neuron
    else if x = v + 2 then sineFor (v + 2) (n.weights.length + 1) r2
    else if x = v + 3 then sineFor (v + 3) seqs.length i
    else sineFor (v + 4) n1 o
  have e0 : sn v = (if p.layer = 0 then 1 / 2 else 95 / 100) / 8461256485 := if_pos rfl
  have e1 : sn (v + 1) = sineFor (v + 1) l.length p.neuron := by
    simp only [sn]; rw [if_neg (by omega), if_pos trivial]
  have e2 : sn (v + 2) = sineFor (v + 2) (n.weights.length + 1) r2 := by
    simp only [sn]; rw [if_neg (by omega), if_neg (by omega), if_pos trivial]
  have e3 : sn (v + 3) = sineFor (v + 3) seqs.length i := by
    simp only [sn]; rw [if_neg (by omega), if_neg (by omega), if_neg (by omega), if_pos trivial]
  have e4 : sn (v + 4) = sineFor (v + 4) n1 o := by
    simp only [sn]; rw [if_neg (by omega), if_neg (by omega), if_neg (by omega), if_neg (by omega)]
  have up : ∀ q : Rat, 0 ≤ q ∧ q ≤ 1 → -1 ≤ q ∧ q ≤ 1 := fun q h => ⟨by linarith [h.1], h.2⟩
  refine ⟨sn, fun x => up _ ?_, ?_⟩
  · simp only [sn]
    split
    · split <;> constructor <;> norm_num
    · split
      · exact sineFor_range (by omega) (by omega) _
      · split
        · exact sineFor_range (by omega) (by omega) _
        · split
          · exact sineFor_range (by omega) (by omega) _
          · exact sineFor_range (by omega) (by omega) _
  · have c1 := chooseParam_for hn hv hl hnn hw e0 e1 e2
    have i1 := rngGenint_for (by omega) (by omega) (by exact_mod_cast hil) e3
    have o1 := rngGenint_for (by omega) (by omega) (by exact_mod_cast ho) e4
    rw [show v + 3 + 1 = v + 4 by omega] at i1
    rw [show v + 4 + 1 = v + 5 by omega] at o1
    exact trainStep_for hq lr (st := (nn, v)) hn hu c1 hp hi ho i1 o1

example : ∃ sn, SineLike sn ∧ (trainStep sn [⟨[2, 0, 1, 7], 1⟩] (1 / 100) (smallNet, 8737)).map
    (fun st => getParam st.1 ⟨1, 1, none⟩) = .ok (some (504 / 1000, 0)) := by
  obtain ⟨sn, h1, value, slope, h2, h3, h4⟩ := C81_every_choice_possible [⟨[2, 0, 1, 7], 1⟩] 1 15 (by decide) (by decide)
    (1 / 100) smallNet 8737 smallNet_shape smallNet_unmarked (by decide) ⟨1, 1, none⟩ (by decide +kernel) ⟨[2, 0, 1, 7], 1⟩
    (by simp) 1 (by decide)
  have hv : value = 1 / 2 := by
    have : (plainNet smallNet (inputsOf [2, 0, 1, 7]))[1]? = some (1 / 2) := by decide +kernel
    rw [this] at h2; exact (Option.some.inj h2).symm
  have hsl : slope = 1 := by
    have h5 := h3 1
    have : (plainNet (updParam smallNet ⟨1, 1, none⟩ fun w => (w.1 + 1, 0)) (inputsOf [2, 0, 1, 7]))[1]? = some (3 / 2) := by
      decide +kernel
    rw [this, hv] at h5
    have := Option.some.inj h5
    linarith
  refine ⟨sn, h1, ?_⟩
  rw [h4, hv, hsl]
  decide +kernel

/-- C81: the learning rate is 0.01 for the first fifth of the epochs, then 0.001 up to half of them and 0.0005 after that: it
never rises. -/
theorem C81_rates (max i : Nat) (hm : 10 ≤ max) :
    (i < max / 5 → rateAt max i = 1 / 100) ∧ (max / 5 ≤ i → i < max / 2 → rateAt max i = 1 / 1000) ∧
      (max / 2 ≤ i → rateAt max i = 5 / 10000) ∧ ∀ j, i ≤ j → rateAt max j ≤ rateAt max i := by
  have h : max / 5 < max / 2 := by omega
  have r1 : ∀ i, i < max / 5 → rateAt max i = 1 / 100 := fun i hi => by
    unfold rateAt; rw [if_neg (by omega), if_neg (by omega)]
  have r2 : ∀ i, max / 5 ≤ i → i < max / 2 → rateAt max i = 1 / 1000 := fun i hi hj => by
    unfold rateAt; rw [if_neg (by omega), if_pos (by omega)]
  have r3 : ∀ i, max / 2 ≤ i → rateAt max i = 5 / 10000 := fun i hi => by
    unfold rateAt; rw [if_pos (by omega)]
  refine ⟨r1 i, r2 i, r3 i, fun j hj => ?_⟩
  by_cases a : i < max / 5
  · rw [r1 i a]
    by_cases b : j < max / 5
    · rw [r1 j b]
    · by_cases c : j < max / 2
      · rw [r2 j (by omega) c]; norm_num
      · rw [r3 j (by omega)]; norm_num
  · by_cases c : i < max / 2
    · rw [r2 i (by omega) c]
      by_cases d : j < max / 2
      · rw [r2 j (by omega) d]
      · rw [r3 j (by omega)]; norm_num
    · rw [r3 i (by omega), r3 j (by omega)]

example : rateAt 450000000 89999999 = 1 / 100 ∧ rateAt 450000000 90000000 = 1 / 1000 ∧
    rateAt 450000000 225000000 = 5 / 10000 := by decide +kernel

/-- C81: so a step never makes the error which it looks at larger if the learning rate is small enough, and it does so otherwise. -/
theorem C81_error_shrinks_iff (lr e slope : Rat) (hl : 0 ≤ lr) :
    |e * (1 - lr * slope ^ 2)| ≤ |e| ↔ e = 0 ∨ lr * slope ^ 2 ≤ 2 := by
  have hs : 0 ≤ lr * slope ^ 2 := mul_nonneg hl (sq_nonneg _)
  rw [abs_mul]
  constructor
  · intro h
    by_cases he : e = 0
    · exact .inl he
    · right
      have hpos : 0 < |e| := abs_pos.2 he
      have h2 : |1 - lr * slope ^ 2| ≤ 1 := by
        by_contra hc
        have : |e| * 1 < |e| * |1 - lr * slope ^ 2| := mul_lt_mul_of_pos_left (not_le.1 hc) hpos
        linarith
      have := (abs_le.1 h2).1
      linarith
  · rintro (rfl | h)
    · simp
    · have h2 : |1 - lr * slope ^ 2| ≤ 1 := abs_le.2 ⟨by linarith, by linarith⟩
      calc |e| * |1 - lr * slope ^ 2| ≤ |e| * 1 := mul_le_mul_of_nonneg_left h2 (abs_nonneg e)
        _ = |e| := mul_one _

example : |(-2 / 5 : Rat) * (1 - 1 / 100 * 3 ^ 2)| ≤ |(-2 / 5 : Rat)| ∧ ¬ |(-2 / 5 : Rat) * (1 - 1 / 100 * 15 ^ 2)| ≤ |(-2 / 5 : Rat)| := by
  constructor
  · exact (C81_error_shrinks_iff (1 / 100) (-2 / 5) 3 (by decide +kernel)).2 (.inr (by decide +kernel))
  · intro h
    have := (C81_error_shrinks_iff (1 / 100) (-2 / 5) 15 (by decide +kernel)).1 h
    revert this
    decide +kernel

/-- C81: the training never crashes, for any number of epochs and any sine. The network stored has 9 and 15 neurons for 408
inputs, and no derivative is left in it. -/
theorem C81_training (sn : Int → Rat) (hs : SineLike sn) (epochs : Nat) :
    ∃ nn, train sn epochs = .ok (nn, nnStore nn) ∧ NetShape nn 408 9 15 ∧ Unmarked nn := by
  obtain ⟨seqs, s1, s2, s3⟩ := trainingSeqs_good
  obtain ⟨i1, i2, i3⟩ := initNet_ok sn
  obtain ⟨st, t1, t2, t3, _⟩ := trainEpochs_ok hs s3 s2 (by decide) (by decide) epochs i1 i2 i3
  refine ⟨st.1, ?_, t2, t3⟩
  unfold train
  rw [s1]
  simp only [bind, Except.bind, t1]

example : ∃ nn, train zigzag 450000000 = .ok (nn, nnStore nn) ∧ NetShape nn 408 9 15 ∧ Unmarked nn :=
  C81_training zigzag zigzag_sine _

/-- C81: the samples of the training do not contradict each other: samples with the same inputs have the same answer. -/
theorem C81_samples_consistent : ∃ seqs, trainingSeqs = .ok seqs ∧ seqs.length = 18 ∧
    ∀ s ∈ seqs, ∀ t ∈ seqs, inputsOf s.seq = inputsOf t.seq → s.out = t.out := by
  have key : ∀ o : R (List NlpSeq), (o.map fun l => decide (l.length = 18 ∧ ∀ s ∈ l, s.seq.length ≤ 12 ∧
      (∀ c ∈ s.seq, 0 ≤ c ∧ c < 33) ∧ ∀ t ∈ l, s.seq = t.seq → s.out = t.out)) = .ok true →
      ∃ l, o = .ok l ∧ l.length = 18 ∧ ∀ s ∈ l, s.seq.length ≤ 12 ∧
      (∀ c ∈ s.seq, 0 ≤ c ∧ c < 33) ∧ ∀ t ∈ l, s.seq = t.seq → s.out = t.out := by
    intro o h
    cases o with
    | error e => simp [Except.map] at h
    | ok l => exact ⟨l, rfl, by simpa [Except.map] using h⟩
  obtain ⟨l, h1, h2, h3⟩ := key trainingSeqs (by decide +kernel)
  refine ⟨l, h1, h2, fun s hs t ht e => ?_⟩
  obtain ⟨a1, a2, a3⟩ := h3 s hs
  obtain ⟨b1, b2, _⟩ := h3 t ht
  exact a3 t ht (inputsOf_inj a1 b1 a2 b2 e)

/-- C81, violated: the sentence "Cat want food", for which there is a sample according to the text of the training set, is not
trained: its sample has another class of verbs than the word has in sentences. -/
theorem C81_sentence_not_trained : ∃ seqs, trainingSeqs = .ok seqs ∧
    ∀ s ∈ seqs, ∀ acts : List Nat, acts.length ≤ 8 → (∀ a ∈ acts, a < 15) →
      inputsOf s.seq ≠ inputsOf (seen ["Cat".toList, "want".toList, "food".toList] acts) := by
  have key : ∀ o : R (List NlpSeq), (o.map fun l => decide (∀ s ∈ l, s.seq.length ≤ 12 ∧
      (∀ c ∈ s.seq, 0 ≤ c ∧ c < 33) ∧ s.seq.take 4 ≠ [5, 11, 5, 7])) = .ok true →
      ∃ l, o = .ok l ∧ ∀ s ∈ l, s.seq.length ≤ 12 ∧ (∀ c ∈ s.seq, 0 ≤ c ∧ c < 33) ∧ s.seq.take 4 ≠ [5, 11, 5, 7] := by
    intro o h
    cases o with
    | error e => simp [Except.map] at h
    | ok l => exact ⟨l, rfl, by simpa [Except.map] using h⟩
  obtain ⟨l, h1, h2⟩ := key trainingSeqs (by decide +kernel)
  refine ⟨l, h1, fun s hs acts ha hb e => ?_⟩
  obtain ⟨a1, a2, a3⟩ := h2 s hs
  have e2 := inputsOf_inj a1 (by rw [seen_length]; simp; omega) a2 (seen_codes (by decide +kernel) hb) e
  apply a3
  rw [e2]
  unfold seen
  rw [show ["Cat".toList, "want".toList, "food".toList].map classOf = [5, 11, 5] by decide +kernel]
  rfl

/-- C81: the samples teach whole sentences: a network which gives the answer of each sample runs through each sentence with the
classes of a taught sentence by exactly the actions meant for it. -/
theorem C81_samples_teach_sentences : ∃ seqs, trainingSeqs = .ok seqs ∧
    ∀ nn, (∀ s ∈ seqs, Chosen (plainNet nn (inputsOf s.seq)) s.out) →
      ∀ p ∈ taughtSentences, ∀ words : List (List Char), words.map classOf = p.1.map classOf → RunOf nn words p.2 := by
  have key : ∀ o : R (List NlpSeq), (o.map fun l => decide (∀ p ∈ taughtSentences, ∀ i < p.2.length,
      ∃ s ∈ l, s.seq = seen p.1 (p.2.take i) ∧ p.2[i]? = some s.out)) = .ok true →
      ∃ l, o = .ok l ∧ ∀ p ∈ taughtSentences, ∀ i < p.2.length, ∃ s ∈ l, s.seq = seen p.1 (p.2.take i) ∧ p.2[i]? = some s.out := by
    intro o h
    cases o with
    | error e => simp [Except.map] at h
    | ok l => exact ⟨l, rfl, by simpa [Except.map] using h⟩
  obtain ⟨l, h1, h2⟩ := key trainingSeqs (by decide +kernel)
  refine ⟨l, h1, fun nn hn p hp words hw => ?_⟩
  have hfix : ∀ p ∈ taughtSentences, (p.2.length = 10 ∨ p.2.getLast? = some 0) ∧ p.2.length ≤ 10 ∧ 0 ∉ p.2.dropLast := by decide
  obtain ⟨f1, f2, f3⟩ := hfix p hp
  refine ⟨fun i a hi => ?_, f1, f2, f3⟩
  obtain ⟨s, hs, e1, e2⟩ := h2 p hp i (List.getElem?_eq_some_iff.1 hi).1
  rw [hi] at e2
  have e3 : seen words (p.2.take i) = s.seq := by rw [e1]; unfold seen; rw [hw]
  rw [e3, Option.some.inj e2]
  exact hn s hs

/-- a neuron for 408 inputs, with weights for the given places and codes -/
def detector (ws : List (Nat × Nat × Rat)) : WeightBias :=
  ⟨ws.foldl (fun l w => l.set (w.1 * 34 + w.2.1) (w.2.2, 0)) (List.replicate 408 (0, 0)), (0, 0)⟩

/-- a network for the samples: its neurons stand for the actions 0, 1, 2, 3, 4, 7, 11 and 12 -/
def learnedNet : NlpNet :=
  [[detector [(11, 19, 1 / 2), (11, 25, 2), (11, 30, 2), (11, 29, 2), (11, 21, 2), (11, 22, 2)], detector [(11, 7, 1 / 2)],
    detector [(7, 3, 1)], detector [(11, 20, 2)], detector [(10, 10, 1)], detector [(8, 3, 1)], detector [(9, 8, 1)],
    detector [(10, 13, 1)], detector []],
   [some 0, some 1, some 2, some 3, some 4, none, none, some 5, none, none, none, some 6, some 7, none, none].map fun o =>
     ⟨(match o with | some i => (List.replicate 9 (0, 0)).set i (1, 0) | none => List.replicate 9 (0, 0)), (0, 0)⟩]

/-- C81: the samples can be learned: a network of the trained shape gives the answer of each of them. -/
theorem C81_samples_learnable : ∃ seqs nn, trainingSeqs = .ok seqs ∧ NetShape nn 408 9 15 ∧ Unmarked nn ∧
    ∀ s ∈ seqs, Chosen (plainNet nn (inputsOf s.seq)) s.out := by
  have key : ∀ o : R (List NlpSeq), (o.map fun l => decide (∀ s ∈ l,
      calcMaxOnehot ((plainNet learnedNet (inputsOf s.seq)).map fun x => ((x, 0) : Dual)) = s.out)) = .ok true →
      ∃ l, o = .ok l ∧ ∀ s ∈ l, calcMaxOnehot ((plainNet learnedNet (inputsOf s.seq)).map fun x => ((x, 0) : Dual)) = s.out := by
    intro o h
    cases o with
    | error e => simp [Except.map] at h
    | ok l => exact ⟨l, rfl, by simpa [Except.map] using h⟩
  obtain ⟨l, h1, h2⟩ := key trainingSeqs (by decide +kernel)
  refine ⟨l, learnedNet, h1, ⟨rfl, rfl, rfl, by decide +kernel, by decide +kernel⟩, by unfold Unmarked; decide +kernel, fun s hs => ?_⟩
  have := calcMaxOnehot_chosen ((plainNet learnedNet (inputsOf s.seq)).map fun x => ((x, 0) : Dual))
  rw [h2 s hs, List.map_map] at this
  simpa [Function.comp_def] using this

/-! ## C82: storing and loading -/

/-- C82: a network in which each layer has a neuron is loaded as it was stored, up to derivatives, which are not stored. -/
theorem C82_round_trip (nn : NlpNet) (hne : nn ≠ []) (hl : ∀ l ∈ nn, l ≠ []) :
    nnLoad (nnStore nn) = .ok (clearNet nn) := nnLoad_nnStore hne hl

example : nnLoad (nnStore [[⟨[(1, 1), (2, 0)], (3, 0)⟩, ⟨[(4, 0), (5, 0)], (6, 0)⟩], [⟨[(7, 0), (8, 0)], (9, 1)⟩]]) =
    .ok [[⟨[(1, 0), (2, 0)], (3, 0)⟩, ⟨[(4, 0), (5, 0)], (6, 0)⟩], [⟨[(7, 0), (8, 0)], (9, 0)⟩]] := by decide +kernel

/-- C82: the network of the training is loaded exactly as it was when the training ended. -/
theorem C82_trained (sn : Int → Rat) (hs : SineLike sn) (epochs : Nat) (nn : NlpNet) (rows : List NlpRow)
    (h : train sn epochs = .ok (nn, rows)) : nnLoad rows = .ok nn := by
  obtain ⟨nn', h1, h2, h3⟩ := C81_training sn hs epochs
  rw [h1] at h
  cases h
  rw [nnLoad_nnStore, clearNet_unmarked h3]
  · intro h; have := h2.layers; rw [h] at this; simp at this
  · intro l hl hc
    rw [h2.getD0] at hl
    rcases List.mem_cons.1 hl with rfl | hl
    · have := h2.first; rw [hc] at this; simp at this
    · rw [List.mem_singleton.1 hl] at hc
      have := h2.second; rw [hc] at this; simp at this

/-- C82: in whatever order the database returns the rows, each neuron gets its own bias and its own weights; only the order of
the weights of a neuron depends on the order of the rows. -/
theorem C82_any_order (nn : NlpNet) (rows : List NlpRow) (hp : rows.Perm (nnStore nn)) (hne : nn ≠ []) (hl : ∀ l ∈ nn, l ≠ []) :
    ∃ nn', nnLoad rows = .ok nn' ∧ List.Forall₂ (List.Forall₂ fun n n' => n'.bias = (n.bias.1, 0) ∧
      n'.weights.Perm (n.weights.map fun w => (w.1, 0))) nn nn' := nnLoad_perm hp hne hl

example : nnLoad (nnStore [[⟨[(1, 0), (2, 0)], (3, 0)⟩], [⟨[(7, 0)], (9, 0)⟩]]).reverse =
    .ok [[⟨[(2, 0), (1, 0)], (3, 0)⟩], [⟨[(7, 0)], (9, 0)⟩]] := by decide +kernel

/-- C82: a network without layers, or one whose layer before the last has no neurons, cannot be loaded. -/
theorem C82_empty_crash (n : WeightBias) : nnLoad (nnStore []) = .error .unwrapNone ∧
    nnLoad (nnStore [[], [n]]) = .error .unwrapNone := by
  refine ⟨rfl, ?_⟩
  have h : ∀ r ∈ nnStore [[], [n]], r.layer = 1 := by
    intro r hr
    obtain ⟨i, ns, h1, h2⟩ := mem_flatten_mapIdx.1 hr
    have hr := layerRows_key h2
    match i, h1 with
    | 0, h1 => simp only [List.getElem?_cons_zero, Option.some.injEq] at h1; subst h1; simp at h2
    | 1, _ => exact hr
    | i + 2, h1 => simp at h1
  have hm : (⟨1, 0, -1, n.bias.1⟩ : NlpRow) ∈ nnStore [[], [n]] :=
    mem_flatten_mapIdx.2 ⟨1, [n], rfl, mem_flatten_mapIdx.2 ⟨0, n, rfl, List.mem_cons_self⟩⟩
  unfold nnLoad
  rw [selectMax_ok (m := 1) (List.mem_map.2 ⟨_, hm, rfl⟩) (by
    intro x hx
    obtain ⟨r, hr, rfl⟩ := List.mem_map.1 hx
    rw [h r hr])]
  have h0 : loadLayer (nnStore [[], [n]]) 0 = .error .unwrapNone := by
    unfold loadLayer
    rw [show (nnStore [[], [n]]).filter (fun r => r.layer == 0) = [] by
      rw [List.filter_eq_nil_iff]; intro r hr; simp [h r hr]]
    rfl
  show (List.range 2).mapM (loadLayer (nnStore [[], [n]])) = _
  rw [show List.range 2 = [0, 1] from rfl, List.mapM_cons, h0]
  rfl

/-! ## C83: sentences -/

/-- C83: a text is cut into its words; a question mark is a word of its own. -/
theorem C83_words (ws : List (List Char)) (hw : ∀ w ∈ ws, w ≠ [] ∧ ∀ c ∈ w, c ≠ '?' ∧ isUnicodeSpace c = false) :
    nlpTokens (ws.intersperse [' ']).flatten = ws ∧ nlpTokens ((ws.intersperse [' ']).flatten ++ ['?']) = ws ++ [['?']] := by
  have pre : ∀ (l cur rest : List Char), (∀ c ∈ l, isUnicodeSpace c = false) →
      splitWhitespace (l ++ rest) cur = splitWhitespace rest (cur ++ l) := by
    intro l
    induction l with
    | nil => intro cur rest _; simp
    | cons c l ih =>
      intro cur rest h
      rw [List.cons_append, splitWhitespace, h c List.mem_cons_self]
      simp only [Bool.false_eq_true, if_false]
      rw [ih _ _ fun d hd => h d (List.mem_cons_of_mem _ hd)]
      simp
  have fm : ∀ l : List Char, (∀ c ∈ l, c ≠ '?') → l.flatMap (fun c => if c = '?' then [' ', '?', ' '] else [c]) = l := by
    intro l
    induction l with
    | nil => intro _; rfl
    | cons c l ih =>
      intro h
      rw [List.flatMap_cons, if_neg (h c List.mem_cons_self), ih fun d hd => h d (List.mem_cons_of_mem _ hd)]
      rfl
  have sp : isUnicodeSpace ' ' = true := by decide
  have gen : ∀ (tail : List Char) (end' : List (List Char)), splitWhitespace tail [] = end' →
      (∀ w : List Char, w ≠ [] → splitWhitespace tail w = w :: end') →
      ∀ ws : List (List Char), (∀ w ∈ ws, w ≠ [] ∧ ∀ c ∈ w, c ≠ '?' ∧ isUnicodeSpace c = false) →
        splitWhitespace ((ws.intersperse [' ']).flatten.flatMap (fun c => if c = '?' then [' ', '?', ' '] else [c]) ++ tail) [] =
          ws ++ end' := by
    intro tail end' h1 h2 ws
    induction ws with
    | nil => intro _; simpa using h1
    | cons w ws ih =>
      intro hw
      obtain ⟨hne, hc⟩ := hw w List.mem_cons_self
      have ih' := ih fun v hv => hw v (List.mem_cons_of_mem _ hv)
      cases ws with
      | nil =>
        simp only [List.intersperse_singleton, List.flatten_cons, List.flatten_nil, List.append_nil]
        rw [fm w fun c hc' => (hc c hc').1, pre w [] tail fun c hc' => (hc c hc').2, List.nil_append, h2 w hne]
        rfl
      | cons v vs =>
        rw [List.intersperse_cons_cons, List.flatten_cons, List.flatten_cons, List.flatMap_append, List.flatMap_append,
          fm w fun c hc' => (hc c hc').1, fm [' '] (by decide), List.append_assoc, List.append_assoc,
          pre w [] _ fun c hc' => (hc c hc').2, List.nil_append, List.singleton_append, splitWhitespace, sp]
        simp only [if_true]
        rw [if_neg (by simpa using hne), ih']
        rfl
  constructor
  · unfold nlpTokens
    have := gen [] [] rfl (by
      intro w hne
      rw [splitWhitespace, if_neg (by simpa using hne)]) ws hw
    simpa using this
  · unfold nlpTokens
    rw [List.flatMap_append]
    have := gen [' ', '?', ' '] [['?']] (by decide) (by
      intro w hne
      rw [splitWhitespace, sp]
      simp only [if_true]
      rw [if_neg (by simpa using hne)]
      rfl) ws hw
    exact this

example : nlpTokens "can Tom dance?".toList = ["can".toList, "Tom".toList, "dance".toList, "?".toList] := by decide

/-- C83: different things seen, sentences of known words with the actions so far, are different inputs for the network. -/
theorem C83_encoding_injective (ws vs : List (List Char)) (as bs : List Nat) (hw : ∀ w ∈ ws, Known w) (hv : ∀ w ∈ vs, Known w)
    (ha : ∀ a ∈ as, a < 15) (hb : ∀ a ∈ bs, a < 15) (hl : ws.length + as.length < 12) (hl' : vs.length + bs.length < 12)
    (h : convSeq (seen ws as) = convSeq (seen vs bs)) : ws.map classOf = vs.map classOf ∧ as = bs := by
  have l1 : (seen ws as).length ≤ 12 := by rw [seen_length]; omega
  have l2 : (seen vs bs).length ≤ 12 := by rw [seen_length]; omega
  have c1 := seen_codes hw ha
  have c2 := seen_codes hv hb
  rw [convSeq_ok l1 fun c hc => by have := c1 c hc; omega, convSeq_ok l2 fun c hc => by have := c2 c hc; omega] at h
  have h2 := congrArg (List.map Prod.fst) (Except.ok.inj h)
  simp only [List.map_map, Function.comp_def, List.map_id'] at h2
  have h3 := inputsOf_inj l1 l2 c1 c2 h2
  unfold seen at h3
  have cls : ∀ w, Known w → classOf w ≠ 7 := by
    intro w ⟨p, hp, e⟩
    have key : ∀ p ∈ vocabulary, classOf p.1 ≠ 7 := by decide +kernel
    rw [← e]; exact key p hp
  have split : ∀ (x y : List Int) (p q : List Int), 7 ∉ x → 7 ∉ y → x ++ 7 :: p = y ++ 7 :: q → x = y ∧ p = q := by
    intro x
    induction x with
    | nil =>
      intro y p q _ hy h
      cases y with
      | nil => exact ⟨rfl, by simpa using h⟩
      | cons b y => simp at h; exact absurd (h.1 ▸ List.mem_cons_self) hy
    | cons a x ih =>
      intro y p q hx hy h
      cases y with
      | nil => simp at h; exact absurd (h.1 ▸ List.mem_cons_self) hx
      | cons b y =>
        simp only [List.cons_append, List.cons.injEq] at h
        obtain ⟨e1, e2⟩ := ih y p q (fun hc => hx (List.mem_cons_of_mem _ hc)) (fun hc => hy (List.mem_cons_of_mem _ hc)) h.2
        exact ⟨by rw [h.1, e1], e2⟩
  have nin : ∀ us : List (List Char), (∀ w ∈ us, Known w) → (7 : Int) ∉ us.map classOf := by
    intro us hu hc
    obtain ⟨w, hw', e⟩ := List.mem_map.1 hc
    exact cls w (hu w hw') e
  obtain ⟨e1, e2⟩ := split _ _ _ _ (nin ws hw) (nin vs hv) h3
  refine ⟨e1, ?_⟩
  have : ∀ l m : List Nat, (l.map fun (a : Nat) => 18 + (a : Int)) = (m.map fun (a : Nat) => 18 + (a : Int)) → l = m := by
    intro l m
    apply List.map_injective_iff.2
    intro a b hab
    simp only at hab
    omega
  exact this _ _ e2

/-- C83: the action taken is the first of the largest outputs, where values above one count as one; if no output is positive,
the sentence is finished. -/
theorem C83_choice (v : List Dual) : Chosen (v.map (·.1)) (calcMaxOnehot v) := calcMaxOnehot_chosen v

example : calcMaxOnehot [(1 / 2, 0), (-1, 0), (2, 0), (3, 0)] = 2 ∧ calcMaxOnehot [(-1, 0), (-2, 0)] = 0 := by decide +kernel

/-- C83: the exact result for a sentence of known words: the actions are the run of the network, the relations are those of the
actions in order. There is no result, but a crash, if words and actions together are more than 12 or an action needs a word at a
place behind the end of the sentence. -/
theorem C83_result_iff (nn : NlpNet) (n0 n1 : Nat) (hs : NetShape nn 408 n0 n1) (h1 : n1 ≤ 15) (hu : Unmarked nn)
    (words : List (List Char)) (hw : ∀ w ∈ words, Known w) (control : List Nat) (rels : List Relation) :
    runNet nn words = .ok (control, rels) ↔ RunOf nn words control ∧ words.length + control.length ≤ 12 ∧
      (∀ a ∈ control, wordsNeeded a ≤ words.length) ∧ rels = control.filterMap (relOf words) :=
  runNet_iff hs h1 hu hw

/-- C83: with a network which has learned the samples, a sentence of known words with the classes of a taught sentence gives the
relations of the actions meant for it. -/
theorem C83_taught_sentences (nn : NlpNet) (n0 n1 : Nat) (hs : NetShape nn 408 n0 n1) (h1 : n1 ≤ 15) (hu : Unmarked nn)
    (seqs : List NlpSeq) (hq : trainingSeqs = .ok seqs) (hn : ∀ s ∈ seqs, Chosen (plainNet nn (inputsOf s.seq)) s.out)
    (words : List (List Char)) (hw : ∀ w ∈ words, Known w) (p : List (List Char) × List Nat) (hp : p ∈ taughtSentences)
    (hc : words.map classOf = p.1.map classOf) : runNet nn words = .ok (p.2, p.2.filterMap (relOf words)) := by
  obtain ⟨seqs', e1, e2⟩ := C81_samples_teach_sentences
  rw [hq] at e1
  cases e1
  have hlen : words.length = p.1.length := by simpa using congrArg List.length hc
  have hfix : ∀ p ∈ taughtSentences, p.1.length + p.2.length ≤ 12 ∧ ∀ a ∈ p.2, wordsNeeded a ≤ p.1.length := by decide
  obtain ⟨f1, f2⟩ := hfix p hp
  exact (runNet_iff hs h1 hu hw).2 ⟨e2 nn hn p hp words hc, by omega, fun a ha => by rw [hlen]; exact f2 a ha, rfl⟩

/-- the relations of the taught sentences -/
example : taughtSentences.map (fun p => (p.2.filterMap (relOf p.1)).map fun r => (r.head, r.args)) =
    [[("is".toList, ["Tom".toList, "fast".toList]), ("is".toList, ["Tom".toList, "fat".toList])],
     [],
     [],
     [("is".toList, ["Tom".toList, "fast".toList])],
     [("is".toList, ["Cat".toList, "food".toList])],
     [("are".toList, ["Tom".toList, "fast".toList]), ("are".toList, ["Tim".toList, "fast".toList])],
     [("want_to".toList, ["Cat".toList, "dance".toList])],
     [("are".toList, ["Cat".toList, "food".toList])]] := by decide +kernel

/-- C83, violated: sentences like "hunting is the purpose" and questions like "can Tom dance?" are taught, but a network which has
learned them gives no relation for them: nothing is done for their actions. -/
theorem C83_taught_but_ignored (nn : NlpNet) (n0 n1 : Nat) (hs : NetShape nn 408 n0 n1) (h1 : n1 ≤ 15) (hu : Unmarked nn)
    (seqs : List NlpSeq) (hq : trainingSeqs = .ok seqs) (hn : ∀ s ∈ seqs, Chosen (plainNet nn (inputsOf s.seq)) s.out)
    (words : List (List Char)) (hw : ∀ w ∈ words, Known w) :
    (words.map classOf = ["hunting".toList, "is".toList, "the".toList, "purpose".toList].map classOf →
      runNet nn words = .ok ([11, 0], [])) ∧
    (words.map classOf = ["can".toList, "Tom".toList, "dance".toList, "?".toList].map classOf →
      runNet nn words = .ok ([12, 0], [])) := by
  constructor
  · intro hc
    exact C83_taught_sentences nn n0 n1 hs h1 hu seqs hq hn words hw
      (["hunting".toList, "is".toList, "the".toList, "purpose".toList], [11, 0]) (by decide) hc
  · intro hc
    exact C83_taught_sentences nn n0 n1 hs h1 hu seqs hq hn words hw
      (["can".toList, "Tom".toList, "dance".toList, "?".toList], [12, 0]) (by decide) hc

/-- the words of a sentence -/
def tomIsFast : List (List Char) := ["Tom".toList, "is".toList, "fast".toList]

example : runNet smallNet tomIsFast = .ok ([1, 0], [⟨"is".toList, ["Tom".toList, "fast".toList], false, 998 / 1000⟩]) ∧
    (∀ w ∈ tomIsFast, Known w) := by decide +kernel

/-- C83: whatever the network: each relation found holds between words of the sentence, and its head is a word of the sentence or
"want_to"; there are at most ten. -/
theorem C83_words_only (nn : NlpNet) (n0 n1 : Nat) (hs : NetShape nn 408 n0 n1) (h1 : n1 ≤ 15) (hu : Unmarked nn)
    (words : List (List Char)) (hw : ∀ w ∈ words, Known w) (control : List Nat) (rels : List Relation)
    (h : runNet nn words = .ok (control, rels)) : rels.length ≤ 10 ∧ ∀ rel ∈ rels, ∃ a ∈ words, ∃ b ∈ words,
      (rel.head ∈ words ∨ rel.head = "want_to".toList) ∧ rel.args = [a, b] ∧ rel.isNegated = false ∧ rel.conf = 998 / 1000 := by
  obtain ⟨k1, k2, k3, rfl⟩ := (runNet_iff hs h1 hu hw).1 h
  refine ⟨(List.length_filterMap_le _ _).trans k1.le, fun rel hrel => ?_⟩
  obtain ⟨a, ha, hr⟩ := List.mem_filterMap.1 hrel
  unfold relOf at hr
  obtain ⟨⟨hd, x, y⟩, hp, rfl⟩ := Option.map_eq_some_iff.1 hr
  have hn := k3 a ha
  unfold wordsNeeded at hn
  rw [hp] at hn
  simp only at hn
  have mem : ∀ i, i < words.length → words.getD i [] ∈ words := by
    intro i hi
    rw [List.getD_eq_getElem?_getD, List.getElem?_eq_getElem hi]
    exact List.getElem_mem hi
  refine ⟨_, mem x (by omega), _, mem y (by omega), ?_, rfl, rfl, rfl⟩
  cases hd with
  | none => exact .inr rfl
  | some i => exact .inl (mem i (by simp only [Option.getD_some] at hn; omega))

/-- C83: sentences with an unknown word crash, and so do sentences of twelve or more words. -/
theorem C83_crashes (nn : NlpNet) (words : List (List Char)) :
    ((∃ w ∈ words, ¬ Known w) → runNet nn words = .error .explicit) ∧
    ((∀ w ∈ words, Known w) → 12 ≤ words.length → runNet nn words = .error .index) := by
  constructor
  · intro h
    unfold runNet
    rw [unknown_word h]
    rfl
  · intro h hl
    obtain ⟨pos, p1, p2⟩ := stimulus_ok h
    unfold runNet
    rw [p1]
    simp only [bind, Except.bind, p2]
    unfold runLoop convSeq
    rw [placeCodes_err (by rw [seen_length]; simp only [List.length_nil]; omega)]
    rfl

example : runNet smallNet ["Tom".toList, "is".toList, "a".toList, "Cat".toList] = .error .explicit := by decide +kernel

/-- a network which always says 5 -/
def stubbornNet : NlpNet :=
  [[⟨List.replicate 408 (0, 0), (0, 0)⟩], (List.replicate 15 ⟨[(0, 0)], (0, 0)⟩).set 5 ⟨[(0, 0)], (1, 0)⟩]

/-- a network which always says 2 -/
def hastyNet : NlpNet :=
  [[⟨List.replicate 408 (0, 0), (0, 0)⟩], (List.replicate 15 ⟨[(0, 0)], (0, 0)⟩).set 2 ⟨[(0, 0)], (1, 0)⟩]

/-- C83, violated: that a sentence of known words which is short enough is processed depends on the network. One which does not
finish makes each sentence of three or more words crash although only ten actions are taken at most; one which takes an action for
longer sentences crashes too. -/
theorem C83_crash_by_network : runNet stubbornNet tomIsFast = .error .index ∧ runNet hastyNet tomIsFast = .error .index ∧
    NetShape stubbornNet 408 1 15 ∧ NetShape hastyNet 408 1 15 := by
  refine ⟨by decide +kernel, by decide +kernel, ?_, ?_⟩ <;> exact ⟨rfl, rfl, rfl, by decide +kernel, by decide +kernel⟩

/-- C83, violated: after one sentence, whatever its result, every further sentence crashes, because the log file of the first one
exists. -/
theorem C83_second_sentence_crashes (files : NlpFiles) (words words' : List (List Char)) (c : List Nat) (rels : List Relation)
    (h : (networkRun files words).2 = .ok (c, rels)) :
    (networkRun (networkRun files words).1 words').2 = .error .unwrapNone := by
  unfold networkRun at h
  cases hl : (do let rows ← unwrap files.db
                 let nn ← nnLoad rows
                 let l0 ← indexAt nn 0
                 let _ ← indexAt l0 0
                 .ok nn : R NlpNet) with
  | error e => rw [hl] at h; cases h
  | ok nn =>
    rw [hl] at h
    simp only at h
    cases hlog : files.log with
    | true => rw [hlog, if_pos rfl] at h; cases h
    | false =>
      have e : (networkRun files words).1 = { files with log := true } := by
        unfold networkRun
        rw [hl]
        simp only [hlog]
        rfl
      rw [e]
      unfold networkRun
      simp only
      rw [hl]
      simp

example : (networkRun ⟨some (nnStore smallNet), false⟩ tomIsFast).2 =
      .ok ([1, 0], [⟨"is".toList, ["Tom".toList, "fast".toList], false, 998 / 1000⟩]) ∧
    (networkRun (networkRun ⟨some (nnStore smallNet), false⟩ tomIsFast).1 tomIsFast).2 = .error .unwrapNone := by
  have e : nnLoad (nnStore smallNet) = .ok smallNet := by
    rw [nnLoad_nnStore (by decide +kernel) (by decide +kernel), clearNet_unmarked smallNet_unmarked]
  have h : (networkRun ⟨some (nnStore smallNet), false⟩ tomIsFast).2 =
      .ok ([1, 0], [⟨"is".toList, ["Tom".toList, "fast".toList], false, 998 / 1000⟩]) := by
    unfold networkRun
    simp only [unwrap, bind, Except.bind, e]
    decide +kernel
  exact ⟨h, C83_second_sentence_crashes _ _ _ _ _ h⟩

/-- C83: without a stored network every sentence crashes. -/
theorem C83_no_network (log : Bool) (words : List (List Char)) :
    (networkRun ⟨none, log⟩ words).2 = .error .unwrapNone ∧ (networkRun ⟨some [], log⟩ words).2 = .error .unwrapNone :=
  ⟨rfl, rfl⟩

/-- C83, violated: the training ends with a test of the new network, which leaves the log file. So it stores the network, but
after it every sentence crashes until the log file is removed; and if the log file exists, the training itself crashes at its end. -/
theorem C83_training_blocks_sentences (sn : Int → Rat) (hs : SineLike sn) (epochs : Nat) (files : NlpFiles) :
    ∃ nn rows, train sn epochs = .ok (nn, rows) ∧ (trainProgram sn epochs files).1 = ⟨some rows, true⟩ ∧
      (∀ words, (networkRun (trainProgram sn epochs files).1 words).2 = .error .unwrapNone) ∧
      (files.log = true → (trainProgram sn epochs files).2 = .error .unwrapNone) := by
  obtain ⟨nn, h1, h2, h3⟩ := C81_training sn hs epochs
  have e := C82_trained sn hs epochs nn _ h1
  obtain ⟨n, hn⟩ : ∃ n, indexAt (nn.getD 0 []) 0 = .ok n := by
    have := h2.first
    cases hl : nn.getD 0 [] with
    | nil => rw [hl] at this; simp at this
    | cons n l => exact ⟨n, rfl⟩
  have h0 : indexAt nn 0 = .ok (nn.getD 0 []) := by rw [h2.getD0]; rfl
  have run : ∀ log words, networkRun ⟨some (nnStore nn), log⟩ words =
      (⟨some (nnStore nn), true⟩, if log then .error .unwrapNone else runNet nn words) := by
    intro log words
    unfold networkRun
    simp only [unwrap, bind, Except.bind, e, h0, hn]
    cases log <;> rfl
  have hf : (trainProgram sn epochs files).1 = ⟨some (nnStore nn), true⟩ := by
    unfold trainProgram
    rw [h1]
    simp only [run]
  refine ⟨nn, _, h1, hf, fun words => by rw [hf, run]; rfl, fun hlog => ?_⟩
  unfold trainProgram
  rw [h1]
  simp only [run, hlog]
  rfl

example : ∀ words, (networkRun (trainProgram zigzag 450000000 ⟨none, false⟩).1 words).2 = .error .unwrapNone := by
  obtain ⟨_, _, _, _, h, _⟩ := C83_training_blocks_sentences zigzag zigzag_sine 450000000 ⟨none, false⟩
  exact h

/-- C83: after a training, the first sentence is processed by the trained network. -/
theorem C83_after_training (sn : Int → Rat) (hs : SineLike sn) (epochs : Nat) (nn : NlpNet) (rows : List NlpRow)
    (h : train sn epochs = .ok (nn, rows)) (words : List (List Char)) :
    networkRun ⟨some rows, false⟩ words = (⟨some rows, true⟩, runNet nn words) ∧ NetShape nn 408 9 15 ∧ Unmarked nn := by
  have e := C82_trained sn hs epochs nn rows h
  obtain ⟨nn', h1, h2, h3⟩ := C81_training sn hs epochs
  rw [h1] at h
  obtain ⟨rfl, rfl⟩ := Prod.mk.inj (Except.ok.inj h)
  refine ⟨?_, h2, h3⟩
  have hf : ∃ n, indexAt (nn'.getD 0 []) 0 = .ok n := by
    have := h2.first
    cases hl : nn'.getD 0 [] with
    | nil => rw [hl] at this; simp at this
    | cons n l => exact ⟨n, rfl⟩
  obtain ⟨n, hn⟩ := hf
  have h0 : indexAt nn' 0 = .ok (nn'.getD 0 []) := by rw [h2.getD0]; rfl
  unfold networkRun
  simp only [unwrap, bind, Except.bind, e, h0, hn]
  rfl

/-- C83: what a sentence of known words makes the reasoner believe: for each relation found, one judgement is entered, that the
product of the two words inherits from the head, with frequency 1 and confidence 0.998. -/
theorem C83_beliefs (env : Env) (files : NlpFiles) (r r' : Reasoner) (text : List Char) (rng : List Nat)
    (hnum : ∀ x : Rat, x = 1 ∨ x = 998 / 1000 → NumText (env.sf x) ∧ env.pf (env.sf x) = some x)
    (h : (nlpSentence env files r text rng).2 = .ok r') :
    ∃ control rels, (networkRun files (nlpTokens text)).2 = .ok (control, rels) ∧
      ((∀ rel ∈ rels, ∃ hd a b : String, Word hd ∧ Word a ∧ Word b ∧ rel = ⟨hd.toList, [a.toList, b.toList], false, 998 / 1000⟩) →
        rels.foldlM (fun r rel => inputT2 env r (.Stmt .INH (.Prod (rel.args.map fun w => .Name (String.ofList w)))
          (.Name (String.ofList rel.head))) .JUGEMENT ⟨1, 998 / 1000⟩ false rng) r = .ok r') := by
  unfold nlpSentence at h
  generalize hn : networkRun files (nlpTokens text) = p at h
  obtain ⟨files', res⟩ := p
  cases res with
  | error e => cases h
  | ok cr =>
    obtain ⟨control, rels⟩ := cr
    simp only at h
    refine ⟨control, rels, rfl, fun hr => ?_⟩
    unfold nlpProcess at h
    rw [← h]
    clear h hn
    induction rels generalizing r with
    | nil => rfl
    | cons rel rels ih =>
      obtain ⟨hd, a, b, w1, w2, w3, rfl⟩ := hr rel List.mem_cons_self
      rw [List.foldlM_cons, List.foldlM_cons]
      obtain ⟨line, l1, l2⟩ := C51_relations env.pf env.sf hd a b false (998 / 1000) hnum w1 w2 w3
      rw [l1]
      simp only [bind, Except.bind]
      unfold inputN
      rw [l2]
      simp only [bind, Except.bind, List.map_cons, List.map_nil, String.ofList_toList]
      cases inputT2 env r (Term.Stmt .INH (.Prod [.Name a, .Name b]) (.Name hd)) .JUGEMENT ⟨1, 998 / 1000⟩ false rng with
      | error e => rfl
      | ok r2 => exact ih r2 fun rel hrel => hr rel (List.mem_cons_of_mem _ hrel)

/-- numbers as the example needs them -/
def env998 : Env := ⟨fun s => if s = "0.998".toList then some (998 / 1000) else if s = "1".toList then some 1 else none,
  fun x => if x = 1 then "1".toList else "0.998".toList, fun _ => 1, fun _ => 1⟩

example : ∀ x : Rat, x = 1 ∨ x = 998 / 1000 → NumText (env998.sf x) ∧ env998.pf (env998.sf x) = some x := by
  rintro x (rfl | rfl) <;> (unfold NumText Ascii; decide +kernel)

example : ((nlpSentence env998 ⟨some (nnStore smallNet), false⟩ createNar "Tom is fast".toList []).2.map
    fun r => r.sh.heap.map fun t => (t.sentence.term, retTv t.sentence)) =
    .ok [(.Stmt .INH (.Prod [.Name "Tom", .Name "fast"]) (.Name "is"), .ok (some ⟨1, 998 / 1000⟩))] := by
  have e : nnLoad (nnStore smallNet) = .ok smallNet := by
    rw [nnLoad_nnStore (by decide +kernel) (by decide +kernel), clearNet_unmarked smallNet_unmarked]
  unfold nlpSentence networkRun
  simp only [unwrap, bind, Except.bind, e]
  decide +kernel

/-- C83: each known word except the question mark is a word of Narsese. -/
theorem C83_known_are_words (w : List Char) (h : Known w) (hq : w ≠ "?".toList) : Word (String.ofList w) := by
  have key : ∀ p ∈ vocabulary, p.1 ≠ "?".toList → Word (String.ofList p.1) := by decide +kernel
  obtain ⟨p, hp, rfl⟩ := h
  exact key p hp hq

/-- C83: together: after a training, an assertion of known words which does not crash enters exactly the judgements of the
relations which the run of the trained network gives. -/
theorem C83_assertion (env : Env) (sn : Int → Rat) (hs : SineLike sn) (epochs : Nat) (nn : NlpNet) (rows : List NlpRow)
    (ht : train sn epochs = .ok (nn, rows)) (r r' : Reasoner) (text : List Char) (rng : List Nat)
    (hnum : ∀ x : Rat, x = 1 ∨ x = 998 / 1000 → NumText (env.sf x) ∧ env.pf (env.sf x) = some x)
    (hk : ∀ w ∈ nlpTokens text, Known w ∧ w ≠ "?".toList)
    (h : (nlpSentence env ⟨some rows, false⟩ r text rng).2 = .ok r') :
    ∃ control, RunOf nn (nlpTokens text) control ∧
      (control.filterMap (relOf (nlpTokens text))).foldlM (fun r rel => inputT2 env r (.Stmt .INH
        (.Prod (rel.args.map fun w => .Name (String.ofList w))) (.Name (String.ofList rel.head))) .JUGEMENT ⟨1, 998 / 1000⟩ false rng) r =
        .ok r' := by
  obtain ⟨e, s1, s2⟩ := C83_after_training sn hs epochs nn rows ht (nlpTokens text)
  obtain ⟨control, rels, c1, c2⟩ := C83_beliefs env _ r r' text rng hnum h
  rw [e] at c1
  have hw : ∀ w ∈ nlpTokens text, Known w := fun w hw => (hk w hw).1
  have c3 := C83_words_only nn 9 15 s1 (by decide) s2 _ hw control rels c1
  obtain ⟨k1, _, _, rfl⟩ := (runNet_iff s1 (by decide) s2 hw).1 c1
  refine ⟨control, k1, c2 fun rel hrel => ?_⟩
  obtain ⟨a, ha, b, hb, hh, ea, en, ec⟩ := c3.2 rel hrel
  have word : ∀ w ∈ nlpTokens text, Word (String.ofList w) := fun w hw => C83_known_are_words w (hk w hw).1 (hk w hw).2
  refine ⟨String.ofList rel.head, String.ofList a, String.ofList b, ?_, word a ha, word b hb, ?_⟩
  · rcases hh with hh | hh
    · exact word _ hh
    · rw [hh]; decide
  · simp only [String.toList_ofList]
    obtain ⟨hd, args, neg, conf⟩ := rel
    simp only at ea en ec
    rw [ea, en, ec]

end Nar.Props
