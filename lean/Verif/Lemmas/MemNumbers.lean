import Verif.Spec.MemNumbers
import Verif.Lemmas.Term
import Verif.Lemmas.Mem
import Verif.Model.Task
import Mathlib.Tactic.Linarith
import Mathlib.Tactic.Ring
import Mathlib.Tactic.FieldSimp
import Mathlib.Tactic.Positivity
/-! # Lemmas about memory with all numbers of `f64` -/
namespace Nar
open Term

theorem FMem.set_same (m : FMem) (x : Term) (c : FConcept) : m.set x c x = some c := by
  unfold FMem.set; rw [if_pos ((checkEqTerm_iff x x).2 rfl)]

theorem FMem.set_other (m : FMem) {x y : Term} (c : FConcept) (h : y ≠ x) : m.set x c y = m y := by
  unfold FMem.set; rw [if_neg (fun hc => h ((checkEqTerm_iff y x).1 hc))]

/-! ## ordinary numbers -/

theorem exp_ordinary {tv : TvF} (h : tv.Ordinary) : ∃ e, calcExpF tv = .fin e := by
  obtain ⟨⟨f, hf⟩, c, hc, _⟩ := h
  obtain ⟨f', c'⟩ := tv
  simp only at hf hc
  subst hf hc
  exact ⟨_, rfl⟩

theorem c2w_ordinary {c : Rat} (h0 : 0 ≤ c) (h1 : c < 1) : ∃ w, 0 ≤ w ∧ c2wF (.fin c) = .fin w := by
  refine ⟨c / (1 - c), div_nonneg h0 (by linarith), ?_⟩
  have h : (1 + -c : Rat) ≠ 0 := by intro e; linarith
  have : c2wF (.fin c) = if (1 + -c : Rat) = 0 then (if 1 * c = 0 then .nan else .inf (decide (1 * c < 0))) else .fin (1 * c / (1 + -c)) := rfl
  rw [this, if_neg h]
  congr 1
  ring_nf

theorem w2c_ordinary {w : Rat} (h : 0 ≤ w) : ∃ c, w2cF (.fin w) = .fin c ∧ 0 ≤ c ∧ c < 1 := by
  have hn : (w + 1 : Rat) ≠ 0 := by intro e; linarith
  have : w2cF (.fin w) = if (w + 1 : Rat) = 0 then (if w = 0 then .nan else .inf (decide (w < 0))) else .fin (w / (w + 1)) := rfl
  refine ⟨w / (w + 1), by rw [this, if_neg hn], div_nonneg h (by linarith), ?_⟩
  rw [div_lt_one (by linarith)]
  linarith

theorem rev_ordinary {a b : TvF} (ha : a.Ordinary) (hb : b.Ordinary) : (revF a b).Ordinary := by
  obtain ⟨⟨fa, hfa⟩, ca, hca, a0, a1⟩ := ha
  obtain ⟨⟨fb, hfb⟩, cb, hcb, b0, b1⟩ := hb
  obtain ⟨w1, p1, e1⟩ := c2w_ordinary a0 a1
  obtain ⟨w2, p2, e2⟩ := c2w_ordinary b0 b1
  obtain ⟨c, hc⟩ := w2c_ordinary (add_nonneg p1 p2)
  unfold revF
  simp only [hca, hcb, e1, e2, hfa, hfb]
  refine ⟨?_, c, hc⟩
  show ∃ f, (if (Fl.fin (w1 + w2)).pos = true then _ else _) = Fl.fin f
  by_cases h : 0 < w1 + w2
  · refine ⟨(w1 * fa + w2 * fb) / (w1 + w2), ?_⟩
    have hp : (Fl.fin (w1 + w2)).pos = true := decide_eq_true h
    rw [if_pos hp]
    show (if w1 + w2 = 0 then _ else Fl.fin ((w1 * fa + w2 * fb) / (w1 + w2))) = _
    rw [if_neg (ne_of_gt h)]
  · refine ⟨0, ?_⟩
    have hp : ¬ (Fl.fin (w1 + w2)).pos = true := fun hc => h (of_decide_eq_true hc)
    rw [if_neg hp]

/-! ## nothing ordinary harms -/

/-- all beliefs are ordinary -/
def AllOrdinary (m : FMem) : Prop := ∀ x c, m x = some c → (∀ b ∈ c.byExp, b.tv.Ordinary) ∧ ∀ b ∈ c.byUsage, b.tv.Ordinary

theorem mem_insertF {a b : FSent} : ∀ {l : List FSent}, b ∈ insertF a l ↔ b = a ∨ b ∈ l
  | [] => by simp [insertF]
  | c :: l => by
    unfold insertF
    split
    · simp
    · simp only [List.mem_cons, mem_insertF (l := l)]; tauto

theorem mem_sortedF {b : FSent} : ∀ {l : List FSent}, b ∈ sortedF l ↔ b ∈ l
  | [] => Iff.rfl
  | a :: l => by unfold sortedF; rw [mem_insertF, mem_sortedF, List.mem_cons]

theorem sortF_ordinary {l : List FSent} (h : ∀ b ∈ l, b.tv.Ordinary) : sortF l = .ok (sortedF l) := by
  unfold sortF
  rw [if_neg]
  rintro ⟨_, hc⟩
  obtain ⟨b, hb, hn⟩ := List.any_eq_true.1 hc
  obtain ⟨e, he⟩ := exp_ordinary (h b hb)
  rw [he] at hn
  cases hn

theorem storeExpF_ordinary {l : List FSent} {s : FSent} {n : Nat} (h : ∀ b ∈ l, b.tv.Ordinary) (hs : s.tv.Ordinary) :
    ∃ l', storeExpF l s n = .ok l' ∧ ∀ b ∈ l', b.tv.Ordinary := by
  unfold storeExpF
  by_cases hd : dependentF l s = true
  · exact ⟨l, by rw [if_pos hd], h⟩
  · have ho : ∀ b ∈ l ++ [s], b.tv.Ordinary := by
      intro b hb
      rcases List.mem_append.1 hb with k | k
      · exact h b k
      · rw [List.mem_singleton.1 k]; exact hs
    refine ⟨(sortedF (l ++ [s])).take (min (sortedF (l ++ [s])).length n), ?_, ?_⟩
    · rw [if_neg hd, sortF_ordinary ho]; rfl
    · intro b hb
      exact ho b (mem_sortedF.1 (List.mem_of_mem_take hb))

theorem storeUsageF_ordinary {l : List FSent} {s : FSent} {n : Nat} (h : ∀ b ∈ l, b.tv.Ordinary) (hs : s.tv.Ordinary) :
    ∀ b ∈ storeUsageF l s n, b.tv.Ordinary := by
  intro b hb
  unfold storeUsageF at hb
  split at hb
  · exact h b hb
  · rcases List.mem_append.1 (List.mem_of_mem_take hb) with k | k
    · exact h b k
    · rw [List.mem_singleton.1 k]; exact hs

theorem AllOrdinary.set {m : FMem} (h : AllOrdinary m) (x : Term) {c : FConcept} (h1 : ∀ b ∈ c.byExp, b.tv.Ordinary)
    (h2 : ∀ b ∈ c.byUsage, b.tv.Ordinary) : AllOrdinary (m.set x c) := by
  intro y c' hy
  by_cases e : y = x
  · subst e
    rw [FMem.set_same] at hy
    cases hy
    exact ⟨h1, h2⟩
  · rw [FMem.set_other m c e] at hy
    exact h y c' hy

theorem storeAtF_ordinary {m : FMem} {s : FSent} {n : Nat} (x : Term) (h : AllOrdinary m) (hs : s.tv.Ordinary) :
    ∃ m', storeAtF s n m x = .ok m' ∧ AllOrdinary m' := by
  unfold storeAtF
  cases hx : m x with
  | none =>
    refine ⟨_, rfl, h.set x ?_ ?_⟩ <;> intro b hb <;> rw [List.mem_singleton.1 hb] <;> exact hs
  | some c =>
    obtain ⟨l', k1, k2⟩ := storeExpF_ordinary (n := n) (h x c hx).1 hs
    refine ⟨m.set x ⟨l', storeUsageF c.byUsage s n⟩, R.bind_ok.2 ⟨l', k1, rfl⟩, h.set x k2 ?_⟩
    exact storeUsageF_ordinary (h x c hx).2 hs

theorem storeF_ordinary {s : FSent} {n : Nat} (hs : s.tv.Ordinary) : ∀ (l : List Term) {m : FMem}, AllOrdinary m →
    ∃ m', l.foldlM (storeAtF s n) m = .ok m' ∧ AllOrdinary m'
  | [], m, h => ⟨m, rfl, h⟩
  | x :: l, m, h => by
    obtain ⟨m1, h1, h2⟩ := storeAtF_ordinary (n := n) x h hs
    obtain ⟨m', h3, h4⟩ := storeF_ordinary hs l h2
    exact ⟨m', foldlM_cons_ok.2 ⟨m1, h1, h3⟩, h4⟩

theorem reviseTableF_ordinary {l : List FSent} {s : FSent} (h : ∀ b ∈ l, b.tv.Ordinary) (hs : s.tv.Ordinary) :
    ∀ b ∈ (reviseTableF l s).1, b.tv.Ordinary := by
  intro b hb
  unfold reviseTableF at hb
  split at hb
  · exact h b hb
  · split at hb
    · exact h b hb
    · rename_i b' hb'
      rcases List.mem_append.1 hb with k | k
      · exact h b (List.mem_of_mem_eraseIdx k)
      · rw [List.mem_singleton.1 k]
        exact rev_ordinary (h b' (List.mem_of_getElem? hb')) hs

theorem reviseF_ordinary {s : FSent} (hs : s.tv.Ordinary) : ∀ (l : List Term) {st : FMem × Bool}, AllOrdinary st.1 →
    AllOrdinary (l.foldl (reviseAtF s) st).1
  | [], _, h => h
  | x :: l, st, h => by
    refine reviseF_ordinary hs l ?_
    unfold reviseAtF
    cases hx : st.1 x with
    | none => exact h
    | some c => exact h.set x (reviseTableF_ordinary (h x c hx).1 hs) (reviseTableF_ordinary (h x c hx).2 hs)

theorem tellF_ordinary {st : FMem × Int} {x : Term × TvF} (h : AllOrdinary st.1) (hs : x.2.Ordinary) :
    ∃ st', tellF st x = .ok st' ∧ AllOrdinary st'.1 := by
  unfold tellF
  by_cases h1 : 64 < calcComplexity x.1
  · exact ⟨(st.1, st.2 + 1), by rw [if_pos h1], h⟩
  rw [if_neg h1]
  have hr : AllOrdinary (reviseF ⟨x.1, ⟨[st.2]⟩, x.2⟩ st.1).1 := reviseF_ordinary (s := ⟨x.1, ⟨[st.2]⟩, x.2⟩) hs _ h
  by_cases h2 : (reviseF ⟨x.1, ⟨[st.2]⟩, x.2⟩ st.1).2 = true
  · exact ⟨_, by rw [if_pos h2], hr⟩
  rw [if_neg h2]
  obtain ⟨m', k1, k2⟩ := storeF_ordinary (s := ⟨x.1, ⟨[st.2]⟩, x.2⟩) (n := 20) hs (retSubterms x.1) hr
  exact ⟨(m', st.2 + 1), R.bind_ok.2 ⟨m', k1, rfl⟩, k2⟩

theorem tellAllF_ordinary : ∀ (xs : List (Term × TvF)) {st : FMem × Int}, AllOrdinary st.1 → (∀ x ∈ xs, x.2.Ordinary) →
    ∃ st', xs.foldlM tellF st = .ok st' ∧ AllOrdinary st'.1
  | [], st, h, _ => ⟨st, rfl, h⟩
  | x :: xs, st, h, hx => by
    obtain ⟨st1, h1, h2⟩ := tellF_ordinary h (hx x List.mem_cons_self)
    obtain ⟨st', h3, h4⟩ := tellAllF_ordinary xs h2 (fun y hy => hx y (List.mem_cons_of_mem _ hy))
    exact ⟨st', foldlM_cons_ok.2 ⟨st1, h1, h3⟩, h4⟩

/-! ## what is not a number harms -/

theorem sortF_cases (l : List FSent) : sortF l = .error .unwrapNone ∨ sortF l = .ok (sortedF l) := by
  unfold sortF
  split
  · exact .inl rfl
  · exact .inr rfl

theorem storeExpF_cases (l : List FSent) (s : FSent) (n : Nat) :
    storeExpF l s n = .error .unwrapNone ∨ ∃ l', storeExpF l s n = .ok l' := by
  unfold storeExpF
  split
  · exact .inr ⟨_, rfl⟩
  · rcases sortF_cases (l ++ [s]) with h | h
    · rw [h]; exact .inl rfl
    · rw [h]; exact .inr ⟨_, rfl⟩

theorem storeAtF_cases (s : FSent) (n : Nat) (m : FMem) (x : Term) :
    storeAtF s n m x = .error .unwrapNone ∨ ∃ m', storeAtF s n m x = .ok m' ∧ ∀ y, y ≠ x → m' y = m y := by
  unfold storeAtF
  cases m x with
  | none => exact .inr ⟨_, rfl, fun y hy => FMem.set_other m _ hy⟩
  | some c =>
    rcases storeExpF_cases c.byExp s n with h | ⟨l', h⟩
    · left; simp only; rw [h]; rfl
    · right
      exact ⟨m.set x ⟨l', storeUsageF c.byUsage s n⟩, R.bind_ok.2 ⟨l', h, rfl⟩, fun y hy => FMem.set_other m _ hy⟩

/-- a statement which memory does not hold at a place cannot be stored there if there is a belief which is not a number -/
theorem storeAtF_poisoned {s : FSent} {n : Nat} {m : FMem} {x : Term} (hp : m.Poisoned x)
    (hn : ∀ b, m.Lists x b → b.term ≠ s.term) : storeAtF s n m x = .error .unwrapNone := by
  obtain ⟨c, hc, b, hb, he⟩ := hp
  have hd : ¬ dependentF c.byExp s = true := by
    intro h
    obtain ⟨b', hb', h⟩ := List.any_eq_true.1 h
    rw [Bool.and_eq_true] at h
    exact hn b' ⟨c, hc, .inl hb'⟩ ((checkEqTerm_iff _ _).1 h.1)
  have hs : sortF (c.byExp ++ [s]) = .error .unwrapNone := by
    unfold sortF
    rw [if_pos]
    refine ⟨?_, List.any_eq_true.2 ⟨b, by simp [hb], by rw [he]; rfl⟩⟩
    have := List.length_pos_of_mem hb
    simp only [List.length_append, List.length_cons, List.length_nil]
    omega
  unfold storeAtF storeExpF
  rw [hc]
  simp only
  rw [if_neg hd, hs]
  rfl

theorem storeF_poisoned {s : FSent} {n : Nat} {x : Term} : ∀ (l : List Term) {m : FMem}, x ∈ l → m.Poisoned x →
    (∀ b, m.Lists x b → b.term ≠ s.term) → l.foldlM (storeAtF s n) m = .error .unwrapNone
  | [], _, h, _, _ => by cases h
  | y :: l, m, h, hp, hn => by
    rw [List.foldlM_cons]
    by_cases e : x = y
    · subst e
      rw [storeAtF_poisoned hp hn]; rfl
    · rcases storeAtF_cases s n m y with k | ⟨m', k, k'⟩
      · rw [k]; rfl
      · rw [k]
        have hxl : x ∈ l := by
          rcases List.mem_cons.1 h with h | h
          · exact absurd h e
          · exact h
        show l.foldlM (storeAtF s n) m' = _
        have same := k' x e
        refine storeF_poisoned l hxl ?_ ?_
        · unfold FMem.Poisoned; rw [same]; exact hp
        · intro b hb
          refine hn b ?_
          unfold FMem.Lists at hb ⊢
          rw [same] at hb
          exact hb

/-- a table without a belief about the statement is not revised -/
theorem reviseTableF_other {l : List FSent} {s : FSent} (h : ∀ b ∈ l, b.term ≠ s.term) : reviseTableF l s = (l, false) := by
  unfold reviseTableF
  have : l.findIdx? (fun b => checkEqTerm b.term s.term && !Stamp.checkOverlap b.stamp s.stamp) = none := by
    rw [List.findIdx?_eq_none_iff]
    intro b hb
    have : checkEqTerm b.term s.term = false := by
      rw [Bool.eq_false_iff]
      exact fun hc => h b hb ((checkEqTerm_iff _ _).1 hc)
    rw [this]; rfl
  rw [this]

/-- memory does not know the statement -/
def Unheard (m : FMem) (t : Term) : Prop := ∀ x b, m.Lists x b → b.term ≠ t

theorem reviseF_unheard {s : FSent} : ∀ (l : List Term) {m : FMem}, Unheard m s.term → l.foldl (reviseAtF s) (m, false) = (m, false)
  | [], _, _ => rfl
  | x :: l, m, h => by
    rw [List.foldl_cons]
    have : reviseAtF s (m, false) x = (m, false) := by
      unfold reviseAtF
      cases hx : m x with
      | none => simp only [hx]
      | some c =>
        have h1 := reviseTableF_other (s := s) (l := c.byExp) (fun b hb => h x b ⟨c, hx, .inl hb⟩)
        have h2 := reviseTableF_other (s := s) (l := c.byUsage) (fun b hb => h x b ⟨c, hx, .inr hb⟩)
        simp only [hx, h1, h2, Bool.or_false]
        refine Prod.ext ?_ rfl
        funext y
        by_cases e : y = x
        · subst e; simp only; rw [FMem.set_same, hx]
        · exact FMem.set_other m _ e
    rw [this]
    exact reviseF_unheard l h

theorem tellF_poisoned {st : FMem × Int} {x : Term × TvF} (hc : calcComplexity x.1 ≤ 64) (hu : Unheard st.1 x.1) {y : Term}
    (hy : IsSubterm y x.1) (hp : st.1.Poisoned y) : tellF st x = .error .unwrapNone := by
  have hr : reviseF ⟨x.1, ⟨[st.2]⟩, x.2⟩ st.1 = (st.1, false) := reviseF_unheard (s := ⟨x.1, ⟨[st.2]⟩, x.2⟩) _ hu
  unfold tellF
  rw [if_neg (by omega), hr]
  simp only [Bool.false_eq_true, if_false]
  have : storeF ⟨x.1, ⟨[st.2]⟩, x.2⟩ 20 st.1 = .error .unwrapNone :=
    storeF_poisoned (s := ⟨x.1, ⟨[st.2]⟩, x.2⟩) _ ((mem_retSubterms _ _).2 hy) hp (fun b hb => hu y b hb)
  rw [this]; rfl

/-! ## the first statement -/

/-- under each sub-term of the statement the belief is all there is, elsewhere there is nothing -/
def Alone (m : FMem) (s : FSent) : Prop := (∀ x, IsSubterm x s.term → m x = some ⟨[s], [s]⟩) ∧ ∀ x, ¬ IsSubterm x s.term → m x = none

theorem overlap_self (k : Int) : Stamp.checkOverlap ⟨[k]⟩ ⟨[k]⟩ = true := by
  simp [Stamp.checkOverlap]

theorem storeF_first {s : FSent} {k : Int} (hk : s.stamp = ⟨[k]⟩) : ∀ (l : List Term) {m : FMem},
    (∀ x, m x = some ⟨[s], [s]⟩ ∨ m x = none) → ∃ m', l.foldlM (storeAtF s 20) m = .ok m' ∧
      ∀ x, m' x = if x ∈ l ∨ m x ≠ none then some ⟨[s], [s]⟩ else none
  | [], m, h => ⟨m, rfl, fun x => by
      rcases h x with k | k <;> simp [k]⟩
  | y :: l, m, h => by
    have h1 : ∃ m1, storeAtF s 20 m y = .ok m1 ∧ m1 y = some ⟨[s], [s]⟩ ∧ ∀ x, x ≠ y → m1 x = m x := by
      unfold storeAtF
      rcases h y with e | e
      · rw [e]
        have hd : dependentF [s] s = true := by
          simp [dependentF, (checkEqTerm_iff s.term s.term).2 rfl, hk, overlap_self]
        refine ⟨m.set y ⟨[s], [s]⟩, ?_, FMem.set_same _ _ _, fun x hx => FMem.set_other _ _ hx⟩
        simp only [storeExpF, storeUsageF, hd, if_true]
        rfl
      · rw [e]
        exact ⟨_, rfl, FMem.set_same _ _ _, fun x hx => FMem.set_other _ _ hx⟩
    obtain ⟨m1, k1, k2, k3⟩ := h1
    obtain ⟨m', k4, k5⟩ := storeF_first hk l (m := m1) (fun x => by
      by_cases e : x = y
      · subst e; exact .inl k2
      · rw [k3 x e]; exact h x)
    refine ⟨m', foldlM_cons_ok.2 ⟨m1, k1, k4⟩, fun x => ?_⟩
    rw [k5 x]
    by_cases e : x = y
    · subst e; simp [k2]
    · rw [k3 x e]; simp [e]

theorem tellF_first {x : Term × TvF} (hc : calcComplexity x.1 ≤ 64) (k : Int) :
    ∃ m, tellF (fun _ => none, k) x = .ok (m, k + 1) ∧ Alone m ⟨x.1, ⟨[k]⟩, x.2⟩ := by
  have hr : reviseF ⟨x.1, ⟨[k]⟩, x.2⟩ (fun _ => none) = (fun _ => none, false) :=
    reviseF_unheard (s := ⟨x.1, ⟨[k]⟩, x.2⟩) _ (fun y b hb => by obtain ⟨c, hc, _⟩ := hb; cases hc)
  obtain ⟨m, h1, h2⟩ := storeF_first (s := ⟨x.1, ⟨[k]⟩, x.2⟩) (k := k) rfl (retSubterms x.1) (m := fun _ => none) (fun _ => .inr rfl)
  refine ⟨m, ?_, ?_, ?_⟩
  · unfold tellF
    rw [if_neg (by omega)]
    simp only [hr, Bool.false_eq_true, if_false]
    exact R.bind_ok.2 ⟨m, h1, rfl⟩
  · intro y hy
    rw [h2 y, if_pos (.inl ((mem_retSubterms _ _).2 hy))]
  · intro y hy
    rw [h2 y, if_neg]
    rintro (h | h)
    · exact hy ((mem_retSubterms _ _).1 h)
    · exact h rfl

theorem Alone.unheard {m : FMem} {s : FSent} (h : Alone m s) {t : Term} (ht : s.term ≠ t) : Unheard m t := by
  rintro x b ⟨c, hc, hb⟩
  by_cases hx : IsSubterm x s.term
  · rw [h.1 x hx] at hc
    cases hc
    rcases hb with hb | hb <;> rw [List.mem_singleton.1 hb] <;> exact ht
  · rw [h.2 x hx] at hc; cases hc

theorem Alone.poisoned {m : FMem} {s : FSent} (h : Alone m s) (hn : calcExpF s.tv = .nan) {x : Term} (hx : IsSubterm x s.term) :
    m.Poisoned x := ⟨_, h.1 x hx, s, by simp, hn⟩

/-- what is pooled with the only belief -/
def pooledF (b s : FSent) : FSent := ⟨b.term, Stamp.merge b.stamp s.stamp, revF b.tv s.tv⟩

theorem reviseTableF_one {b s : FSent} (ht : b.term = s.term) (ho : Stamp.checkOverlap b.stamp s.stamp = false) :
    reviseTableF [b] s = ([pooledF b s], true) := by
  have h : (checkEqTerm b.term s.term && !Stamp.checkOverlap b.stamp s.stamp) = true := by
    rw [ho, (checkEqTerm_iff _ _).2 ht]; rfl
  unfold reviseTableF
  rw [List.findIdx?_cons, h]
  rfl

theorem reviseTableF_dep {b s : FSent} (ho : Stamp.checkOverlap b.stamp s.stamp = true) : reviseTableF [b] s = ([b], false) := by
  have h : (checkEqTerm b.term s.term && !Stamp.checkOverlap b.stamp s.stamp) = false := by rw [ho]; simp
  unfold reviseTableF
  rw [List.findIdx?_cons, h]
  rfl

theorem reviseF_second {b s : FSent} (ht : b.term = s.term) (ho : Stamp.checkOverlap b.stamp s.stamp = false)
    (ho' : Stamp.checkOverlap (pooledF b s).stamp s.stamp = true) : ∀ (l : List Term) {st : FMem × Bool},
    (∀ x ∈ l, st.1 x = some ⟨[b], [b]⟩ ∨ (st.1 x = some ⟨[pooledF b s], [pooledF b s]⟩ ∧ st.2 = true)) →
    (∀ x ∈ l, (l.foldl (reviseAtF s) st).1 x = some ⟨[pooledF b s], [pooledF b s]⟩) ∧
    (∀ x, x ∉ l → (l.foldl (reviseAtF s) st).1 x = st.1 x) ∧ (l ≠ [] ∨ st.2 = true → (l.foldl (reviseAtF s) st).2 = true)
  | [], st, _ => ⟨by simp, by simp, by simp⟩
  | y :: l, st, h => by
    have h1 : (reviseAtF s st y).1 y = some ⟨[pooledF b s], [pooledF b s]⟩ ∧ (∀ x, x ≠ y → (reviseAtF s st y).1 x = st.1 x) ∧
        (reviseAtF s st y).2 = true := by
      unfold reviseAtF
      rcases h y List.mem_cons_self with e | ⟨e, e2⟩
      · rw [e]
        simp only [reviseTableF_one ht ho, Bool.or_true]
        exact ⟨FMem.set_same _ _ _, (fun x hx => FMem.set_other _ _ hx), trivial⟩
      · rw [e]
        simp only [reviseTableF_dep ho', e2, Bool.true_or]
        exact ⟨FMem.set_same _ _ _, (fun x hx => FMem.set_other _ _ hx), trivial⟩
    obtain ⟨k1, k2, k3⟩ := h1
    obtain ⟨i1, i2, i3⟩ := reviseF_second ht ho ho' l (st := reviseAtF s st y) (fun x hx => by
      by_cases e : x = y
      · subst e; exact .inr ⟨k1, k3⟩
      · rw [k2 x e]
        rcases h x (List.mem_cons_of_mem _ hx) with q | q
        · exact .inl q
        · exact .inr ⟨q.1, k3⟩)
    rw [List.foldl_cons]
    refine ⟨fun x hx => ?_, fun x hx => ?_, fun _ => i3 (.inr k3)⟩
    · by_cases hl : x ∈ l
      · exact i1 x hl
      · rw [i2 x hl]
        rcases List.mem_cons.1 hx with rfl | hx
        · exact k1
        · exact absurd hx hl
    · rw [i2 x (fun hl => hx (List.mem_cons_of_mem _ hl)), k2 x (fun e => hx (e ▸ List.mem_cons_self))]

theorem merge_two (a b : Int) : Stamp.merge ⟨[a]⟩ ⟨[b]⟩ = ⟨[a, b]⟩ := rfl

theorem tellF_second {m : FMem} {t : Term} {u v : TvF} (hc : calcComplexity t ≤ 64) {k : Int} (h : Alone m ⟨t, ⟨[k]⟩, u⟩) :
    ∃ m', tellF (m, k + 1) (t, v) = .ok (m', k + 2) ∧ Alone m' ⟨t, ⟨[k, k + 1]⟩, revF u v⟩ := by
  have ho : Stamp.checkOverlap ⟨[k]⟩ ⟨[k + 1]⟩ = false := by simp [Stamp.checkOverlap]
  have ho' : Stamp.checkOverlap (pooledF ⟨t, ⟨[k]⟩, u⟩ ⟨t, ⟨[k + 1]⟩, v⟩).stamp ⟨[k + 1]⟩ = true := by
    show Stamp.checkOverlap (Stamp.merge ⟨[k]⟩ ⟨[k + 1]⟩) ⟨[k + 1]⟩ = true
    rw [merge_two]
    simp [Stamp.checkOverlap]
  obtain ⟨h1, h2, h3⟩ := reviseF_second (b := ⟨t, ⟨[k]⟩, u⟩) (s := ⟨t, ⟨[k + 1]⟩, v⟩) rfl ho ho' (retSubterms t) (st := (m, false))
    (fun x hx => .inl (h.1 x ((mem_retSubterms _ _).1 hx)))
  have hne : retSubterms t ≠ [] := fun e => by have := self_mem_retSubterms t; rw [e] at this; cases this
  refine ⟨(reviseF ⟨t, ⟨[k + 1]⟩, v⟩ m).1, ?_, ?_, ?_⟩
  · unfold tellF
    have hr : (reviseF ⟨t, ⟨[k + 1]⟩, v⟩ m).2 = true := h3 (.inl hne)
    have : k + 1 + 1 = k + 2 := by ring
    rw [if_neg (by simp only; omega)]
    simp only [this, hr, if_true]
  · intro x hx
    exact h1 x ((mem_retSubterms _ _).2 hx)
  · intro x hx
    have := h2 x (fun hm => hx ((mem_retSubterms _ _).1 hm))
    exact this.trans (h.2 x hx)

/-! ## priorities -/

theorem Fl.add_nan (x : Fl) : Fl.add x .nan = .nan := by cases x <;> rfl

theorem Fl.mul_nan (x : Fl) : Fl.mul x .nan = .nan := by cases x <;> rfl

theorem Fl.le_nan (x : Fl) : Fl.le x .nan = false := by rcases x with _ | (_ | _) | _ <;> rfl

theorem sumF_nan_start : ∀ ws : List Fl, ws.foldl Fl.add .nan = .nan
  | [] => rfl
  | w :: ws => by
    rw [List.foldl_cons]
    have : Fl.add .nan w = .nan := rfl
    rw [this]; exact sumF_nan_start ws

theorem sumF_nan : ∀ (ws : List Fl) (a : Fl), Fl.nan ∈ ws → ws.foldl Fl.add a = .nan
  | w :: ws, a, h => by
    rw [List.foldl_cons]
    rcases List.mem_cons.1 h with rfl | h
    · rw [Fl.add_nan]; exact sumF_nan_start ws
    · exact sumF_nan ws _ h

theorem selLoopF_nan : ∀ (ws : List Fl) (acc : Fl) (i : Nat), selLoopF ws .nan acc i = none
  | [], _, _ => rfl
  | w :: ws, acc, i => by
    unfold selLoopF
    have : Fl.le .nan (acc.add w) = false := rfl
    rw [this]
    exact selLoopF_nan ws _ _

theorem selF_nan (v : Rat) (ws : List Fl) (h : Fl.nan ∈ ws) : selF v ws = .ok (ws.length - 1) := by
  unfold selF
  rw [sumF_nan ws _ h, Fl.mul_nan, selLoopF_nan]
  have : ws.length ≠ 0 := by have := List.length_pos_of_mem h; omega
  simp only [this, if_false]

theorem sumF_fin : ∀ (ws : List Rat) (a : Rat), (ws.map Fl.fin).foldl Fl.add (.fin a) = .fin (a + ws.sum)
  | [], a => by simp
  | w :: ws, a => by
    rw [List.map_cons, List.foldl_cons]
    have : Fl.add (.fin a) (.fin w) = .fin (a + w) := rfl
    rw [this, sumF_fin ws, List.sum_cons, add_assoc]

theorem selLoopF_fin (g : Rat) : ∀ (ws : List Rat) (acc : Rat) (i : Nat),
    selLoopF (ws.map Fl.fin) (.fin g) (.fin acc) i = selLoop ws g acc i
  | [], _, _ => rfl
  | w :: ws, acc, i => by
    rw [List.map_cons]
    unfold selLoopF selLoop
    have h1 : Fl.add (.fin acc) (.fin w) = .fin (acc + w) := rfl
    have h2 : Fl.le (.fin g) (.fin (acc + w)) = decide (g ≤ acc + w) := rfl
    rw [h1, h2, selLoopF_fin g ws]
    by_cases h : g ≤ acc + w
    · rw [if_pos (decide_eq_true h), if_pos h]
    · rw [if_neg (by simpa using h), if_neg h]

theorem selF_fin (v : Rat) (ws : List Rat) : selF v (ws.map Fl.fin) = selByWeight v ws := by
  unfold selF selByWeight
  have : (Fl.fin v).mul ((ws.map Fl.fin).foldl Fl.add (.fin 0)) = .fin (v * ws.sum) := by
    rw [sumF_fin, zero_add]; rfl
  rw [this, selLoopF_fin, List.length_map]
  cases selLoop ws (v * ws.sum) 0 0 <;> rfl

theorem any_nan (ws : List Fl) : ws.any Fl.isNan = true ↔ Fl.nan ∈ ws := by
  rw [List.any_eq_true]
  constructor
  · rintro ⟨w, hw, hn⟩
    cases w with
    | nan => exact hw
    | inf _ => cases hn
    | fin _ => cases hn
  · exact fun h => ⟨_, h, rfl⟩

theorem insertCredit_fin (a : Rat) : ∀ l : List Rat, l.Pairwise (fun a b => b ≤ a) →
    ∃ l' : List Rat, insertCreditF (.fin a) (l.map Fl.fin) = l'.map Fl.fin ∧ l'.Perm (a :: l) ∧ l'.Pairwise (fun a b => b ≤ a)
  | [], _ => ⟨[a], rfl, .refl _, by simp⟩
  | b :: l, h => by
    rw [List.map_cons]
    unfold insertCreditF
    have e : Fl.le (.fin b) (.fin a) = decide (b ≤ a) := rfl
    rw [e]
    obtain ⟨hb, hl⟩ := List.pairwise_cons.1 h
    by_cases hc : b ≤ a
    · rw [if_pos (decide_eq_true hc)]
      refine ⟨a :: b :: l, rfl, .refl _, List.pairwise_cons.2 ⟨?_, h⟩⟩
      intro x hx
      rcases List.mem_cons.1 hx with rfl | hx
      · exact hc
      · exact le_trans (hb x hx) hc
    · rw [if_neg (by simpa using hc)]
      obtain ⟨l', h1, h2, h3⟩ := insertCredit_fin a l hl
      refine ⟨b :: l', by rw [h1]; rfl, (h2.cons b).trans (.swap a b l), List.pairwise_cons.2 ⟨?_, h3⟩⟩
      intro x hx
      rcases List.mem_cons.1 (h2.mem_iff.1 hx) with rfl | hx
      · exact le_of_lt (not_le.1 hc)
      · exact hb x hx

theorem sortCredit_fin : ∀ l : List Rat,
    ∃ l' : List Rat, (l.map Fl.fin).foldr insertCreditF [] = l'.map Fl.fin ∧ l'.Perm l ∧ l'.Pairwise (fun a b => b ≤ a)
  | [] => ⟨[], rfl, .refl _, .nil⟩
  | a :: l => by
    obtain ⟨l1, h1, h2, h3⟩ := sortCredit_fin l
    obtain ⟨l2, k1, k2, k3⟩ := insertCredit_fin a l1 h3
    exact ⟨l2, by rw [List.map_cons, List.foldr_cons, h1, k1], k2.trans (h2.cons a), k3⟩

end Nar
