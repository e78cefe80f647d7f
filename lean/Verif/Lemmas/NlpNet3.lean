import Verif.Lemmas.NlpNet2
/-! # Lemmas about storing and loading the network, and about the run on a sentence -/
namespace Nar

/-! ## Storing and loading -/

theorem mapIdx_filter {α β} (key : β → Nat) (g : Nat → α → List β) (hk : ∀ i a b, b ∈ g i a → key b = i) (l : List α)
    (i : Nat) : ((l.mapIdx g).flatten.filter fun b => key b == i) = ((l[i]?).map (g i)).getD [] := by
  induction l using List.reverseRecOn with
  | nil => rfl
  | append_singleton l a ih =>
    rw [List.mapIdx_concat, List.flatten_append, List.filter_append, ih]
    simp only [List.flatten_cons, List.flatten_nil, List.append_nil]
    rcases lt_trichotomy i l.length with h | h | h
    · rw [List.getElem?_append_left h, List.filter_eq_nil_iff.2, List.append_nil]
      intro b hb
      have := hk _ _ _ hb
      simp; omega
    · subst h
      rw [List.getElem?_eq_none (Nat.le_refl l.length), List.filter_eq_self.2]
      · simp
      · intro b hb; simp [hk _ _ _ hb]
    · rw [List.getElem?_eq_none (Nat.le_of_lt h), List.getElem?_eq_none (l := l ++ [a]) (by simp; omega),
        List.filter_eq_nil_iff.2]
      · rfl
      · intro b hb
        have := hk _ _ _ hb
        simp; omega

theorem mem_flatten_mapIdx {α β} {g : Nat → α → List β} {l : List α} {b : β} :
    b ∈ (l.mapIdx g).flatten ↔ ∃ i a, l[i]? = some a ∧ b ∈ g i a := by
  rw [List.mem_flatten]
  constructor
  · rintro ⟨x, hx, hb⟩
    obtain ⟨i, hi, rfl⟩ := List.mem_mapIdx.1 hx
    exact ⟨i, l[i], List.getElem?_eq_getElem hi, hb⟩
  · rintro ⟨i, a, ha, hb⟩
    obtain ⟨hi, rfl⟩ := List.getElem?_eq_some_iff.1 ha
    exact ⟨_, List.mem_mapIdx.2 ⟨i, hi, rfl⟩, hb⟩

theorem selectMax_ok {l : List Nat} {m : Nat} (h1 : m ∈ l) (h2 : ∀ x ∈ l, x ≤ m) : selectMax l = .ok m := by
  cases l with
  | nil => exact absurd h1 List.not_mem_nil
  | cons a l =>
    show (.ok (l.foldl max a) : R Nat) = .ok m
    congr 1
    have key : ∀ (l : List Nat) (a : Nat), (l.foldl max a = a ∨ l.foldl max a ∈ l) ∧ a ≤ l.foldl max a ∧
        ∀ x ∈ l, x ≤ l.foldl max a := by
      intro l
      induction l with
      | nil => intro a; simp
      | cons b l ih =>
        intro a
        obtain ⟨i1, i2, i3⟩ := ih (max a b)
        rw [List.foldl_cons]
        refine ⟨?_, by omega, ?_⟩
        · rcases i1 with h | h
          · rw [h]
            rcases Nat.le_total a b with hab | hab
            · right; simp [Nat.max_eq_right hab]
            · left; exact Nat.max_eq_left hab
          · exact .inr (List.mem_cons_of_mem _ h)
        · intro x hx
          rcases List.mem_cons.1 hx with rfl | hx
          · omega
          · exact i3 x hx
    obtain ⟨k1, k2, k3⟩ := key l a
    apply Nat.le_antisymm
    · rcases k1 with h | h
      · rw [h]; exact h2 a List.mem_cons_self
      · exact h2 _ (List.mem_cons_of_mem _ h)
    · rcases List.mem_cons.1 h1 with rfl | h
      · exact k2
      · exact k3 m h

theorem neuronRows_key {l i : Nat} {n : WeightBias} {r : NlpRow} (h : r ∈ neuronRows l i n) : r.layer = l ∧ r.neuron = i := by
  unfold neuronRows at h
  rcases List.mem_cons.1 h with rfl | h
  · exact ⟨rfl, rfl⟩
  · obtain ⟨k, hk, rfl⟩ := List.mem_mapIdx.1 h
    exact ⟨rfl, rfl⟩

theorem layerRows_key {l : Nat} {ns : List WeightBias} {r : NlpRow}
    (h : r ∈ (ns.mapIdx fun i n => neuronRows l i n).flatten) : r.layer = l := by
  obtain ⟨i, n, _, hr⟩ := mem_flatten_mapIdx.1 h
  exact (neuronRows_key hr).1

theorem store_layer (nn : NlpNet) (l : Nat) : ((nnStore nn).filter fun r => r.layer == l) =
    ((nn[l]?).map fun ns => (ns.mapIdx fun i n => neuronRows l i n).flatten).getD [] :=
  mapIdx_filter NlpRow.layer (fun (l : Nat) (ns : List WeightBias) => (ns.mapIdx fun i n => neuronRows l i n).flatten)
    (fun _ _ _ hb => layerRows_key hb) nn l

theorem store_neuron {nn : NlpNet} {l i : Nat} {ns : List WeightBias} {n : WeightBias} (h1 : nn[l]? = some ns)
    (h2 : ns[i]? = some n) : ((nnStore nn).filter fun r => r.layer == l && r.neuron == i) = neuronRows l i n := by
  rw [show (fun r : NlpRow => r.layer == l && r.neuron == i) = fun r => (r.neuron == i) && (r.layer == l) by
    funext r; exact Bool.and_comm _ _]
  rw [← List.filter_filter, store_layer, h1]
  simp only [Option.map_some, Option.getD_some]
  rw [mapIdx_filter NlpRow.neuron (fun i n => neuronRows l i n) (fun _ _ _ hb => (neuronRows_key hb).2), h2]
  rfl

/-- what the loop over the rows of a neuron makes of them -/
theorem foldl_loadRow (rows : List NlpRow) (n : WeightBias) : rows.foldl loadRow n =
    ⟨n.weights ++ (rows.filter fun r => r.valueid != -1).map (fun r => (r.value, 0)),
      (((rows.filter fun r => r.valueid == -1).getLast?).map fun r => ((r.value, 0) : Dual)).getD n.bias⟩ := by
  induction rows using List.reverseRecOn generalizing n with
  | nil => simp
  | append_singleton l a ih =>
    rw [List.foldl_append, ih, List.foldl_cons, List.foldl_nil]
    unfold loadRow
    by_cases h : a.valueid = -1
    · rw [if_pos h]
      simp [List.filter_append, h]
    · rw [if_neg h]
      simp [List.filter_append, h]

theorem filter_mapIdx_ne (l i : Nat) (ws : List Dual) :
    ((ws.mapIdx fun k w => (⟨l, i, (k : Int), w.1⟩ : NlpRow)).filter fun r => r.valueid != -1) =
      ws.mapIdx fun k w => ⟨l, i, (k : Int), w.1⟩ := by
  rw [List.filter_eq_self]
  intro r hr
  obtain ⟨k, hk, rfl⟩ := List.mem_mapIdx.1 hr
  simp

theorem filter_mapIdx_eq (l i : Nat) (ws : List Dual) :
    ((ws.mapIdx fun k w => (⟨l, i, (k : Int), w.1⟩ : NlpRow)).filter fun r => r.valueid == -1) = [] := by
  rw [List.filter_eq_nil_iff]
  intro r hr
  obtain ⟨k, hk, rfl⟩ := List.mem_mapIdx.1 hr
  simp

theorem rows_weights (l i : Nat) (n : WeightBias) :
    ((neuronRows l i n).filter fun r => r.valueid != -1).map (fun r => ((r.value, 0) : Dual)) = n.weights.map fun w => (w.1, 0) := by
  unfold neuronRows
  rw [List.filter_cons_of_neg (by simp), filter_mapIdx_ne]
  apply List.ext_getElem?
  intro k
  simp only [List.getElem?_map, List.getElem?_mapIdx, Option.map_map]
  cases n.weights[k]? <;> rfl

theorem rows_bias (l i : Nat) (n : WeightBias) :
    ((neuronRows l i n).filter fun r => r.valueid == -1) = [⟨l, i, -1, n.bias.1⟩] := by
  unfold neuronRows
  rw [List.filter_cons_of_pos (by simp), filter_mapIdx_eq]

/-- the neuron without derivatives -/
def clearNeuron (n : WeightBias) : WeightBias := ⟨n.weights.map fun w => (w.1, 0), (n.bias.1, 0)⟩

theorem load_rows (l i : Nat) (n : WeightBias) : (neuronRows l i n).foldl loadRow ⟨[], (0, 0)⟩ = clearNeuron n := by
  rw [foldl_loadRow, rows_weights, rows_bias]
  simp [clearNeuron]

theorem load_rows_perm {l i : Nat} {n : WeightBias} {rows : List NlpRow} (h : rows.Perm (neuronRows l i n)) :
    (rows.foldl loadRow ⟨[], (0, 0)⟩).bias = (n.bias.1, 0) ∧
      (rows.foldl loadRow ⟨[], (0, 0)⟩).weights.Perm (n.weights.map fun w => (w.1, 0)) := by
  rw [foldl_loadRow]
  have h1 := h.filter fun r => r.valueid == -1
  rw [rows_bias] at h1
  have h2 := (h.filter fun r => r.valueid != -1).map fun r => ((r.value, 0) : Dual)
  rw [rows_weights] at h2
  rw [List.perm_singleton.1 h1]
  exact ⟨rfl, by simpa using h2⟩

theorem layer_max {nn : NlpNet} {rows : List NlpRow} (hp : ∀ r, r ∈ rows ↔ r ∈ nnStore nn) (hne : nn ≠ [])
    (hl : ∀ l ∈ nn, l ≠ []) : selectMax (rows.map (·.layer)) = .ok (nn.length - 1) := by
  have hpos : 0 < nn.length := List.length_pos_iff.2 hne
  apply selectMax_ok
  · have hlt : nn.length - 1 < nn.length := by omega
    have hn := hl _ (List.getElem_mem hlt)
    obtain ⟨n, ns, hns⟩ := List.exists_cons_of_ne_nil hn
    refine List.mem_map.2 ⟨⟨nn.length - 1, 0, -1, n.bias.1⟩, (hp _).2 ?_, rfl⟩
    refine mem_flatten_mapIdx.2 ⟨nn.length - 1, _, List.getElem?_eq_getElem hlt, ?_⟩
    rw [hns]
    exact mem_flatten_mapIdx.2 ⟨0, n, rfl, List.mem_cons_self⟩
  · intro x hx
    obtain ⟨r, hr, rfl⟩ := List.mem_map.1 hx
    obtain ⟨i, ns, hi, hr⟩ := mem_flatten_mapIdx.1 ((hp r).1 hr)
    rw [layerRows_key hr]
    have := (List.getElem?_eq_some_iff.1 hi).1
    omega

theorem neuron_max {nn : NlpNet} {rows : List NlpRow} (hp : ∀ r, r ∈ rows ↔ r ∈ nnStore nn) {l : Nat} {ns : List WeightBias}
    (h : nn[l]? = some ns) (hne : ns ≠ []) :
    selectMax ((rows.filter fun r => r.layer == l).map (·.neuron)) = .ok (ns.length - 1) := by
  have hpos : 0 < ns.length := List.length_pos_iff.2 hne
  have hmem : ∀ r, r ∈ rows.filter (fun r => r.layer == l) ↔ r ∈ (ns.mapIdx fun i n => neuronRows l i n).flatten := by
    intro r
    rw [List.mem_filter, hp, ← List.mem_filter (p := fun r : NlpRow => r.layer == l), store_layer, h]
    rfl
  apply selectMax_ok
  · have hlt : ns.length - 1 < ns.length := by omega
    refine List.mem_map.2 ⟨⟨l, ns.length - 1, -1, ns[ns.length - 1].bias.1⟩, (hmem _).2 ?_, rfl⟩
    exact mem_flatten_mapIdx.2 ⟨ns.length - 1, _, List.getElem?_eq_getElem hlt, List.mem_cons_self⟩
  · intro x hx
    obtain ⟨r, hr, rfl⟩ := List.mem_map.1 hx
    obtain ⟨i, n, hi, hr⟩ := mem_flatten_mapIdx.1 ((hmem r).1 hr)
    rw [(neuronRows_key hr).2]
    have := (List.getElem?_eq_some_iff.1 hi).1
    omega

theorem forall₂_map_range {α β} {P : α → β → Prop} {l : List α} {f : Nat → β} (h : ∀ i a, l[i]? = some a → P a (f i)) :
    List.Forall₂ P l ((List.range l.length).map f) := by
  rw [List.forall₂_iff_get]
  refine ⟨by simp, fun i h1 h2 => ?_⟩
  have := h i l[i] (List.getElem?_eq_getElem h1)
  simpa using this

/-- loading the rows of a network, in any order -/
theorem nnLoad_gen {nn : NlpNet} {rows : List NlpRow} (hp : ∀ r, r ∈ rows ↔ r ∈ nnStore nn) (hne : nn ≠ [])
    (hl : ∀ l ∈ nn, l ≠ []) (P : WeightBias → WeightBias → Prop)
    (hP : ∀ l i ns n, nn[l]? = some ns → ns[i]? = some n → P n (loadNeuron rows l i)) :
    ∃ nn', nnLoad rows = .ok nn' ∧ List.Forall₂ (List.Forall₂ P) nn nn' := by
  refine ⟨(List.range nn.length).map fun l => (List.range (nn.getD l []).length).map (loadNeuron rows l), ?_, ?_⟩
  · unfold nnLoad
    rw [layer_max hp hne hl]
    simp only [bind, Except.bind]
    have hpos : 0 < nn.length := List.length_pos_iff.2 hne
    rw [show nn.length - 1 + 1 = nn.length by omega]
    apply mapM_ok_of
    intro l hl'
    have hlt := List.mem_range.1 hl'
    have hg := List.getElem?_eq_getElem hlt
    have hn := hl _ (List.getElem_mem hlt)
    unfold loadLayer
    rw [neuron_max hp hg hn]
    simp only [bind, Except.bind]
    have hpos2 : 0 < nn[l].length := List.length_pos_iff.2 hn
    rw [List.getD_eq_getElem?_getD, hg, Option.getD_some, show nn[l].length - 1 + 1 = nn[l].length by omega]
  · apply forall₂_map_range
    intro l ns hns
    have e : nn.getD l [] = ns := by rw [List.getD_eq_getElem?_getD, hns]; rfl
    rw [e]
    exact forall₂_map_range fun i n hn => hP l i ns n hns hn

theorem nnLoad_nnStore {nn : NlpNet} (hne : nn ≠ []) (hl : ∀ l ∈ nn, l ≠ []) : nnLoad (nnStore nn) = .ok (clearNet nn) := by
  obtain ⟨nn', h1, h2⟩ := nnLoad_gen (rows := nnStore nn) (fun _ => Iff.rfl) hne hl (fun n n' => clearNeuron n = n')
    (fun l i ns n hl hn => by unfold loadNeuron; rw [store_neuron hl hn, load_rows])
  rw [h1]
  congr 1
  unfold clearNet
  symm
  have e : ∀ (l m : List WeightBias), List.Forall₂ (fun n n' => clearNeuron n = n') l m → l.map clearNeuron = m := by
    intro l m h
    induction h with
    | nil => rfl
    | cons h _ ih => rw [List.map_cons, h, ih]
  clear h1 hne hl
  induction h2 with
  | nil => rfl
  | cons h _ ih => exact List.cons_eq_cons.2 ⟨e _ _ h, ih⟩

theorem nnLoad_perm {nn : NlpNet} {rows : List NlpRow} (hp : rows.Perm (nnStore nn)) (hne : nn ≠ []) (hl : ∀ l ∈ nn, l ≠ []) :
    ∃ nn', nnLoad rows = .ok nn' ∧ List.Forall₂ (List.Forall₂ fun n n' => n'.bias = (n.bias.1, 0) ∧
      n'.weights.Perm (n.weights.map fun w => (w.1, 0))) nn nn' := by
  refine nnLoad_gen (fun r => hp.mem_iff) hne hl _ fun l i ns n h1 h2 => ?_
  have := hp.filter fun r => r.layer == l && r.neuron == i
  rw [store_neuron h1 h2] at this
  exact load_rows_perm this

theorem clearNet_unmarked {nn : NlpNet} (h : Unmarked nn) : clearNet nn = nn := by
  have := atNet_unmarked 0 h
  unfold atNet at this
  unfold clearNet
  rw [show (fun n : WeightBias => (⟨n.weights.map fun w => (w.1, 0), (n.bias.1, 0)⟩ : WeightBias)) = WeightBias.at 0 by
    funext n; simp [WeightBias.at, at_zero]]
  exact this

/-! ## The run on a sentence -/

theorem vocabulary_classes : ∀ p ∈ vocabulary, ∃ c, List.lookup p.1 wordTable = some c ∧ List.lookup c posTable = some (classOf p.1) ∧
    0 ≤ classOf p.1 ∧ classOf p.1 < 18 := by
  have key : ∀ p ∈ vocabulary, ((List.lookup p.1 wordTable).bind (List.lookup · posTable)) = some (classOf p.1) ∧
      0 ≤ classOf p.1 ∧ classOf p.1 < 18 := by decide +kernel
  intro p hp
  obtain ⟨h1, h2⟩ := key p hp
  obtain ⟨c, hc, hc'⟩ := Option.bind_eq_some_iff.1 h1
  exact ⟨c, hc, hc', h2⟩

theorem known_class {w : List Char} (h : Known w) : ∃ c, List.lookup w wordTable = some c ∧
    List.lookup c posTable = some (classOf w) ∧ 0 ≤ classOf w ∧ classOf w < 18 := by
  obtain ⟨p, hp, rfl⟩ := h
  exact vocabulary_classes p hp

theorem lookup_mem {α β} [BEq α] [LawfulBEq α] {l : List (α × β)} {a : α} {b : β} (h : List.lookup a l = some b) :
    ∃ p ∈ l, p.1 = a := by
  induction l with
  | nil => simp at h
  | cons p l ih =>
    obtain ⟨k, v⟩ := p
    rw [List.lookup_cons] at h
    cases hk : (a == k) with
    | true => exact ⟨(k, v), List.mem_cons_self, (eq_of_beq hk).symm⟩
    | false =>
      rw [hk] at h
      obtain ⟨q, hq, e⟩ := ih h
      exact ⟨q, List.mem_cons_of_mem _ hq, e⟩

theorem unknown_lookup {w : List Char} (h : ¬ Known w) : List.lookup w wordTable = none := by
  cases hl : List.lookup w wordTable with
  | none => rfl
  | some c =>
    obtain ⟨p, hp, rfl⟩ := lookup_mem hl
    have key : ∀ p ∈ wordTable, Known p.1 := by decide +kernel
    exact absurd (key p hp) h

theorem stimulus_ok {words : List (List Char)} (h : ∀ w ∈ words, Known w) :
    ∃ pos, convTokens words = .ok pos ∧ protPos0 pos = .ok (seen words []) := by
  have h1 : convTokens words = .ok (words.map fun w => (List.lookup w wordTable).getD "") := by
    apply mapM_ok_of
    intro w hw
    obtain ⟨c, hc, _⟩ := known_class (h w hw)
    simp only [hc]; rfl
  refine ⟨_, h1, ?_⟩
  unfold protPos0
  have h2 : (words.map fun w => (List.lookup w wordTable).getD "").mapM (fun c => orPanic (List.lookup c posTable)) =
      (.ok (words.map classOf) : R (List Int)) := by
    rw [mapM_ok_iff, List.forall₂_map_right_iff, List.forall₂_map_left_iff, List.forall₂_same]
    intro w hw
    obtain ⟨c, hc, hc', _⟩ := known_class (h w hw)
    simp only [hc, Option.getD_some, hc']; rfl
  rw [h2]
  rfl

theorem unknown_word {words : List (List Char)} (h : ∃ w ∈ words, ¬ Known w) : convTokens words = .error .explicit := by
  unfold convTokens
  induction words with
  | nil => obtain ⟨_, h, _⟩ := h; exact absurd h List.not_mem_nil
  | cons w ws ih =>
    rw [List.mapM_cons]
    by_cases hw : Known w
    · obtain ⟨c, hc, _⟩ := known_class hw
      rw [hc]
      simp only [orPanic, bind, Except.bind]
      have := ih (by
        obtain ⟨v, hv, hv'⟩ := h
        rcases List.mem_cons.1 hv with rfl | hv
        · exact absurd hw hv'
        · exact ⟨v, hv, hv'⟩)
      simp only [orPanic] at this
      rw [this]
    · rw [unknown_lookup hw]; rfl

theorem seen_append (words : List (List Char)) (acts : List Nat) (a : Nat) :
    seen words (acts ++ [a]) = seen words acts ++ [posRetCodes + (a : Int)] := by
  simp [seen, posRetCodes]

theorem seen_length (words : List (List Char)) (acts : List Nat) : (seen words acts).length = words.length + 1 + acts.length := by
  simp [seen]; omega

theorem seen_codes {words : List (List Char)} {acts : List Nat} (h : ∀ w ∈ words, Known w) (ha : ∀ a ∈ acts, a < 15) :
    ∀ c ∈ seen words acts, 0 ≤ c ∧ c < 33 := by
  intro c hc
  unfold seen at hc
  rcases List.mem_append.1 hc with h1 | h1
  · obtain ⟨w, hw, rfl⟩ := List.mem_map.1 h1
    obtain ⟨_, _, _, h2, h3⟩ := known_class (h w hw)
    omega
  · rcases List.mem_cons.1 h1 with rfl | h1
    · decide
    · obtain ⟨a, ha', rfl⟩ := List.mem_map.1 h1
      have := ha a ha'
      omega

theorem relAt_eq (words : List (List Char)) (h a b : Nat) : relAt words h a b =
    if max h (max a b) + 1 ≤ words.length then
      .ok { head := words.getD h [], args := [words.getD a [], words.getD b []], isNegated := false, conf := 998 / 1000 }
    else .error .index := by
  unfold relAt
  have hi : ∀ i, indexAt words i = if i < words.length then .ok (words.getD i []) else .error .index := by
    intro i
    unfold indexAt
    by_cases hi : i < words.length
    · rw [if_pos hi, List.getElem?_eq_getElem hi, List.getD_eq_getElem?_getD, List.getElem?_eq_getElem hi]; rfl
    · rw [if_neg hi, List.getElem?_eq_none (by omega)]
  simp only [hi, bind, Except.bind]
  by_cases h1 : h < words.length
  · rw [if_pos h1]
    by_cases h2 : a < words.length
    · simp only [if_pos h2]
      by_cases h3 : b < words.length
      · simp only [if_pos h3]; rw [if_pos (by omega)]
      · simp only [if_neg h3]; rw [if_neg (by omega)]
    · simp only [if_neg h2]; rw [if_neg (by omega)]
  · simp only [if_neg h1]; rw [if_neg (by omega)]

theorem actionRel_eq (words : List (List Char)) (a : Nat) : actionRel words a =
    if wordsNeeded a ≤ words.length then .ok (relOf words a) else .error .index := by
  unfold actionRel
  by_cases h1 : a = 1
  · subst h1
    rw [if_pos rfl, relAt_eq]
    change _ = if 3 ≤ words.length then _ else _
    by_cases h : 3 ≤ words.length
    · rw [if_pos (by omega), if_pos h]; rfl
    · rw [if_neg (by omega), if_neg h]; rfl
  rw [if_neg h1]
  by_cases h2 : a = 2
  · subst h2
    rw [if_pos rfl, relAt_eq]
    change _ = if 5 ≤ words.length then _ else _
    by_cases h : 5 ≤ words.length
    · rw [if_pos (by omega), if_pos h]; rfl
    · rw [if_neg (by omega), if_neg h]; rfl
  rw [if_neg h2]
  by_cases h3 : a = 3
  · subst h3
    rw [if_pos rfl, relAt_eq]
    change _ = if 5 ≤ words.length then _ else _
    by_cases h : 5 ≤ words.length
    · rw [if_pos (by omega), if_pos h]; rfl
    · rw [if_neg (by omega), if_neg h]; rfl
  rw [if_neg h3]
  by_cases h4 : a = 4
  · subst h4
    rw [if_pos rfl]
    change _ = if 4 ≤ words.length then _ else _
    by_cases h : 4 ≤ words.length
    · rw [if_pos h]
      match words, h with
      | w0 :: w1 :: w2 :: w3 :: ws, _ => rfl
    · rw [if_neg h]
      match words, h with
      | [], _ => rfl
      | [w0], _ => rfl
      | [w0, w1], _ => rfl
      | [w0, w1, w2], _ => rfl
      | w0 :: w1 :: w2 :: w3 :: ws, h => exact absurd (by simp) h
  rw [if_neg h4]
  by_cases h7 : a = 7
  · subst h7
    rw [if_pos rfl, relAt_eq]
    change _ = if 5 ≤ words.length then _ else _
    by_cases h : 5 ≤ words.length
    · rw [if_pos (by omega), if_pos h]; rfl
    · rw [if_neg (by omega), if_neg h]; rfl
  rw [if_neg h7]
  have e : placesOf a = none := by
    unfold placesOf
    split <;> first | rfl | contradiction
  unfold wordsNeeded relOf
  rw [e]
  simp

/-- one round of the loop -/
theorem round_ok {nn : NlpNet} {n0 n1 : Nat} (hs : NetShape nn 408 n0 n1) (h1 : n1 ≤ 15) (hu : Unmarked nn)
    {words : List (List Char)} (hw : ∀ w ∈ words, Known w) {acts : List Nat} (ha : ∀ a ∈ acts, a < 15)
    (hl : words.length + 1 + acts.length ≤ 12) :
    ∃ input outs, convSeq (seen words acts) = .ok input ∧ forward nn input = .ok outs ∧
      Chosen (plainNet nn (inputsOf (seen words acts))) (calcMaxOnehot outs) ∧ calcMaxOnehot outs < 15 := by
  have hlen : (seen words acts).length ≤ 12 := by rw [seen_length]; exact hl
  have hin := convSeq_ok hlen fun c hc => by have := seen_codes hw ha c hc; omega
  obtain ⟨outs, f1, f2, f3⟩ := forward_plain hs hu (x := (inputsOf (seen words acts)).map fun v => (v, 0))
    (by rw [List.length_map, inputsOf_length hlen]) (by
      intro d hd
      obtain ⟨v, _, rfl⟩ := List.mem_map.1 hd
      rfl)
  have hx : ((inputsOf (seen words acts)).map fun v => ((v, 0) : Dual)).map (·.1) = inputsOf (seen words acts) := by
    simp [List.map_map, Function.comp_def]
  rw [hx] at f3
  have hch := calcMaxOnehot_chosen outs
  refine ⟨_, outs, hin, f1, by rw [← f3]; exact hch, ?_⟩
  by_cases h : ∀ x ∈ outs.map (·.1), x ≤ 0
  · rw [hch.none h]; decide
  · obtain ⟨x, hx, _⟩ := hch.some (by
      by_contra hn
      exact h fun x hx => not_lt.1 fun hp => hn ⟨x, hx, hp⟩)
    have := (List.getElem?_eq_some_iff.1 hx).1
    rw [List.length_map] at this
    omega

/-- the rest of a run -/
def RunTail (nn : NlpNet) (words : List (List Char)) (n : Nat) (acts more : List Nat) : Prop :=
  more.length ≤ n ∧ (more.length = n ∨ more.getLast? = some 0) ∧ 0 ∉ more.dropLast ∧
  ∀ i a, more[i]? = some a → Chosen (plainNet nn (inputsOf (seen words (acts ++ more.take i)))) a ∧
    words.length + 1 + acts.length + i ≤ 12 ∧ wordsNeeded a ≤ words.length

theorem runTail_cons {nn : NlpNet} {words : List (List Char)} {n : Nat} {acts more : List Nat} {a : Nat} (ha : a ≠ 0)
    (hl : words.length + 1 + acts.length ≤ 12) (hc : Chosen (plainNet nn (inputsOf (seen words acts))) a) :
    RunTail nn words (n + 1) acts (a :: more) ↔ wordsNeeded a ≤ words.length ∧ RunTail nn words n (acts ++ [a]) more := by
  have hlast : (a :: more).getLast? = some 0 ↔ more.getLast? = some 0 := by
    cases more with
    | nil => simp [ha]
    | cons b m => simp [List.getLast?_cons_cons]
  have hdrop : 0 ∉ (a :: more).dropLast ↔ 0 ∉ more.dropLast := by
    cases more with
    | nil => simp
    | cons b m => simp [Ne.symm ha]
  unfold RunTail
  rw [hlast, hdrop, List.length_cons, Nat.succ_le_succ_iff, Nat.succ_inj]
  constructor
  · rintro ⟨h1, h2, h3, h4⟩
    refine ⟨(h4 0 a rfl).2.2, h1, h2, h3, fun i b hb => ?_⟩
    obtain ⟨k1, k2, k3⟩ := h4 (i + 1) b hb
    refine ⟨by simpa using k1, ?_, k3⟩
    rw [List.length_append, List.length_singleton]; omega
  · rintro ⟨h0, h1, h2, h3, h4⟩
    refine ⟨h1, h2, h3, fun i b hb => ?_⟩
    cases i with
    | zero =>
      simp only [List.getElem?_cons_zero, Option.some.injEq] at hb
      subst hb
      exact ⟨by simpa using hc, by omega, h0⟩
    | succ i =>
      obtain ⟨k1, k2, k3⟩ := h4 i b hb
      refine ⟨by simpa using k1, ?_, k3⟩
      rw [List.length_append, List.length_singleton] at k2; omega

theorem runLoop_iff {nn : NlpNet} {n0 n1 : Nat} (hs : NetShape nn 408 n0 n1) (h1 : n1 ≤ 15) (hu : Unmarked nn)
    {words : List (List Char)} (hw : ∀ w ∈ words, Known w) {control : List Nat} {rels' : List Relation} :
    ∀ (n : Nat) (acts : List Nat) (rels : List Relation), (∀ a ∈ acts, a < 15) →
      (runLoop nn words n (seen words acts) acts rels = .ok (control, rels') ↔
        ∃ more, control = acts ++ more ∧ rels' = rels ++ more.filterMap (relOf words) ∧ RunTail nn words n acts more)
  | 0, acts, rels, _ => by
    unfold runLoop
    constructor
    · intro h
      cases h
      exact ⟨[], by simp, by simp, by simp [RunTail]⟩
    · rintro ⟨more, rfl, rfl, h, _⟩
      rw [List.length_eq_zero_iff.1 (Nat.le_zero.1 h)]
      simp
  | n + 1, acts, rels, ha => by
    unfold runLoop
    by_cases hl : words.length + 1 + acts.length ≤ 12
    · obtain ⟨input, outs, r1, r2, r3, r4⟩ := round_ok hs h1 hu hw ha hl
      rw [r1]
      simp only [bind, Except.bind, r2]
      by_cases h0 : calcMaxOnehot outs = 0
      · rw [if_pos h0]
        rw [h0] at r3 ⊢
        constructor
        · intro h
          cases h
          refine ⟨[0], rfl, by simp [relOf, placesOf], by simp, .inr rfl, by simp, fun i a hi => ?_⟩
          cases i with
          | zero =>
            simp only [List.getElem?_cons_zero, Option.some.injEq] at hi
            subst hi
            exact ⟨by simpa using r3, by omega, Nat.zero_le _⟩
          | succ i => simp at hi
        · rintro ⟨more, rfl, rfl, k1, k2, k3, k4⟩
          cases more with
          | nil =>
            exfalso
            rcases k2 with h | h
            · simp at h
            · simp at h
          | cons b m =>
            have hb := (k4 0 b rfl).1
            simp only [List.take_zero, List.append_nil] at hb
            have := chosen_unique hb r3
            subst this
            cases m with
            | nil => simp [relOf, placesOf]
            | cons c m => simp at k3
      · rw [if_neg h0, actionRel_eq]
        by_cases hn : wordsNeeded (calcMaxOnehot outs) ≤ words.length
        · rw [if_pos hn]
          simp only
          rw [← seen_append, runLoop_iff hs h1 hu hw n (acts ++ [calcMaxOnehot outs]) _ (by
            intro a ha'
            rcases List.mem_append.1 ha' with h | h
            · exact ha a h
            · rw [List.mem_singleton.1 h]; exact r4)]
          constructor
          · rintro ⟨more, rfl, rfl, ht⟩
            refine ⟨calcMaxOnehot outs :: more, by simp, ?_, (runTail_cons h0 hl r3).2 ⟨hn, ht⟩⟩
            rw [List.filterMap_cons, List.append_assoc]
            cases relOf words (calcMaxOnehot outs) <;> rfl
          · rintro ⟨more, rfl, rfl, ht⟩
            cases more with
            | nil =>
              exfalso
              rcases ht.2.1 with h | h
              · simp at h
              · simp at h
            | cons b m =>
              have hb := (ht.2.2.2 0 b rfl).1
              simp only [List.take_zero, List.append_nil] at hb
              have := chosen_unique hb r3
              subst this
              refine ⟨m, by simp, ?_, ((runTail_cons h0 hl r3).1 ht).2⟩
              rw [List.filterMap_cons, List.append_assoc]
              cases relOf words (calcMaxOnehot outs) <;> rfl
        · rw [if_neg hn]
          constructor
          · intro h; cases h
          · rintro ⟨more, rfl, rfl, ht⟩
            exfalso
            cases more with
            | nil =>
              rcases ht.2.1 with h | h
              · simp at h
              · simp at h
            | cons b m =>
              obtain ⟨hb, _, hb'⟩ := ht.2.2.2 0 b rfl
              simp only [List.take_zero, List.append_nil] at hb
              have := chosen_unique hb r3
              subst this
              exact hn hb'
    · have e : convSeq (seen words acts) = .error .index := by
        unfold convSeq
        rw [placeCodes_err (by rw [seen_length]; omega)]
        rfl
      rw [e]
      constructor
      · intro h; cases h
      · rintro ⟨more, rfl, rfl, k1, k2, k3, k4⟩
        exfalso
        cases more with
        | nil =>
          rcases k2 with h | h
          · simp at h
          · simp at h
        | cons b m => exact hl (by have := (k4 0 b rfl).2.1; omega)

theorem runNet_iff {nn : NlpNet} {n0 n1 : Nat} (hs : NetShape nn 408 n0 n1) (h1 : n1 ≤ 15) (hu : Unmarked nn)
    {words : List (List Char)} (hw : ∀ w ∈ words, Known w) {control : List Nat} {rels : List Relation} :
    runNet nn words = .ok (control, rels) ↔ RunOf nn words control ∧ words.length + control.length ≤ 12 ∧
      (∀ a ∈ control, wordsNeeded a ≤ words.length) ∧ rels = control.filterMap (relOf words) := by
  obtain ⟨pos, p1, p2⟩ := stimulus_ok hw
  unfold runNet
  rw [p1]
  simp only [bind, Except.bind, p2]
  rw [runLoop_iff hs h1 hu hw 10 [] [] (by simp)]
  constructor
  · rintro ⟨more, e1, e2, k1, k2, k3, k4⟩
    rw [List.nil_append] at e1 e2
    subst e1 e2
    refine ⟨⟨fun i a ha => by simpa using (k4 i a ha).1, k2, k1, k3⟩, ?_, ?_, rfl⟩
    · cases control with
      | nil => rcases k2 with h | h <;> simp at h
      | cons b m =>
        have := (k4 m.length _ (List.getElem?_eq_getElem (by simp))).2.1
        simp only [List.length_nil, List.length_cons] at this ⊢
        omega
    · intro a ha
      obtain ⟨i, hi⟩ := List.mem_iff_getElem?.1 ha
      exact (k4 i a hi).2.2
  · rintro ⟨⟨r1, r2, r3, r4⟩, h2, h3, rfl⟩
    refine ⟨control, rfl, rfl, r3, r2, r4, fun i a ha => ⟨by simpa using r1 i a ha, ?_, h3 a (List.mem_of_getElem? ha)⟩⟩
    have := (List.getElem?_eq_some_iff.1 ha).1
    simp only [List.length_nil]
    omega

end Nar
