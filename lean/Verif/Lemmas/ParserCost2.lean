import Verif.Lemmas.ParserCost
import Mathlib.Tactic.Ring
import Mathlib.Tactic.Linarith
/-! # Bounds of the work done by the parser -/
namespace Nar

/-! ## The bound on the depth does not matter -/

theorem Count.bind_congr {α β : Type} {x : Count α} {f g : α → Count β}
    (h : ∀ a, x.res = some a → f a = g a) : (x >>= f) = (x >>= g) := by
  rcases hx : x.res with _ | a
  · rw [Count.bind_none hx, Count.bind_none hx]
  · rw [Count.bind_some hx, Count.bind_some hx, h a hx]

section
variable {rc rc' : List Char → Count (Term × List Char)} {N : Nat}

/-- two readers agree on the texts shorter than `N`, and what they leave is an end of the text -/
structure RecAgree (rc rc' : List Char → Count (Term × List Char)) (N : Nat) : Prop where
  eq : ∀ j, j.length < N → rc j = rc' j
  suffix : ∀ j a r, (rc j).res = some (a, r) → r <:+ j

theorem RecAgree.call {α : Type} (h : RecAgree rc rc' N) {i : List Char} (hi : i.length < N)
    {f g : Term × List Char → Count α} (hf : ∀ a r, r.length ≤ N → f (a, r) = g (a, r)) :
    (rc i >>= f) = (rc' i >>= g) := by
  rw [← h.eq i hi]
  refine Count.bind_congr fun x hx => ?_
  obtain ⟨a, r⟩ := x
  have := (h.suffix i a r hx).length_le
  exact hf a r (by omega)

theorem RecAgree.tagCall {α : Type} (h : RecAgree rc rc' N) {c : Char} {w i : List Char}
    (hi : i.length ≤ N) {f g : Term × List Char → Count α}
    (hf : ∀ a r, r.length ≤ N → f (a, r) = g (a, r)) :
    (ofOpt (tag (c :: w) i) >>= fun j => rc j >>= f) =
      (ofOpt (tag (c :: w) i) >>= fun j => rc' j >>= g) := by
  refine Count.bind_congr fun j hj => ?_
  have hj := (tag_iff _ _ _).1 hj
  exact h.call (by rw [hj] at hi; simp at hi; omega) hf

theorem RecAgree.moreTerms (h : RecAgree rc rc' N) (c : Char) (w : List Char) (n : Nat)
    (i : List Char) (hi : i.length ≤ N) : moreTermsC rc (c :: w) n i = moreTermsC rc' (c :: w) n i := by
  induction n generalizing i with
  | zero => rfl
  | succ n ih =>
    unfold moreTermsC
    rcases hj : tag (c :: w) i with _ | j
    · rfl
    · have hj := (tag_iff _ _ _).1 hj
      refine h.call (by rw [hj] at hi; simp at hi; omega) fun a r hr => ?_
      show (moreTermsC rc (c :: w) n r >>= _) = _
      rw [ih r hr]

theorem RecAgree.alternatives (h : RecAgree rc rc' N) (i : List Char) (hi : i.length ≤ N) :
    firstOfC (termAlternativesC rc) i = firstOfC (termAlternativesC rc') i := by
  have e : List.Forall₂ (fun p q => p i = q i) (termAlternativesC rc) (termAlternativesC rc') := by
    unfold termAlternativesC
    refine List.Forall₂.cons ?_ (List.Forall₂.cons ?_ (List.Forall₂.cons ?_ (List.Forall₂.cons ?_
      (List.Forall₂.cons ?_ (List.Forall₂.cons ?_ (List.Forall₂.cons ?_ (List.Forall₂.cons ?_
      (List.Forall₂.cons ?_ (List.Forall₂.cons ?_ (List.Forall₂.cons ?_ (List.Forall₂.cons ?_
      (List.Forall₂.cons ?_ (List.Forall₂.cons rfl (List.Forall₂.cons rfl (List.Forall₂.cons rfl
      (List.Forall₂.cons rfl List.Forall₂.nil))))))))))))))))
    · exact h.tagCall hi fun a r hr => rfl
    · exact h.tagCall hi fun a r hr => h.tagCall hr fun a r hr => by
        show (moreTermsC rc _ _ r >>= _) = _
        rw [h.moreTerms _ _ _ _ hr]
    · exact h.tagCall hi fun a r hr => h.tagCall hr fun a r hr => rfl
    · exact h.tagCall hi fun a r hr => h.tagCall hr fun a r hr => rfl
    · exact h.tagCall hi fun a r hr => rfl
    · exact h.tagCall hi fun a r hr => rfl
    · exact h.tagCall hi fun a r hr => h.tagCall hr fun a r hr => by
        show (moreTermsC rc _ _ r >>= _) = _
        rw [h.moreTerms _ _ _ _ hr]
    · exact h.tagCall hi fun a r hr => h.tagCall hr fun a r hr => rfl
    · exact h.tagCall hi fun a r hr => h.tagCall hr fun a r hr => rfl
    · exact h.tagCall hi fun a r hr => h.tagCall hr fun a r hr => rfl
    · exact h.tagCall hi fun a r hr => h.tagCall hr fun a r hr => h.tagCall hr fun a r hr => rfl
    · exact h.tagCall hi fun a r hr => h.tagCall hr fun a r hr => h.tagCall hr fun a r hr =>
        h.tagCall hr fun a r hr => rfl
    · refine h.tagCall hi fun a r hr => Count.bind_congr fun x hx => ?_
      obtain ⟨cop, q⟩ := x
      have hx := (parseCopula_iff _ _ _).1 hx
      exact h.call (by rw [hx] at hr; simp at hr; omega) fun a r hr => rfl
  generalize termAlternativesC rc = ps at e ⊢
  generalize termAlternativesC rc' = qs at e ⊢
  induction e with
  | nil => rfl
  | @cons p q ps qs hp _ ih => simp only [firstOfC]; rw [hp, ih]

end

theorem parseSubjOrPredC_suffix (n : Nat) (j : List Char) (a : Term) (r : List Char)
    (h : (parseSubjOrPredC n j).res = some (a, r)) : r <:+ j := by
  rw [parseSubjOrPredC_res] at h
  have := (parseSubjOrPred_sound n j a r h).2.1
  rw [this]; exact List.suffix_append _ _

theorem parseSubjOrPredC_fuel (n m : Nat) (i : List Char) (hn : i.length < n) (hm : i.length < m) :
    parseSubjOrPredC n i = parseSubjOrPredC m i := by
  induction n generalizing m i with
  | zero => omega
  | succ n ih =>
    obtain ⟨m, rfl⟩ : ∃ k, m = k + 1 := ⟨m - 1, by omega⟩
    simp only [parseSubjOrPredC]
    rw [RecAgree.alternatives (N := i.length) ⟨fun j hj => ih m j (by omega) (by omega),
      parseSubjOrPredC_suffix n⟩ i (Nat.le_refl _)]

/-! ## No more calls than an exponential -/

theorem firstOfC_pot {Φ : Nat → Nat} {i : List Char} {ps : List (List Char → Count (Term × List Char))}
    {ks : List Nat} (h : List.Forall₂ (fun p k => Pot Φ 0 i k (p i)) ps ks) :
    Pot Φ 0 i ks.sum (firstOfC ps i) := by
  induction h with
  | nil => exact ⟨fun a r hr => (nomatch hr), fun _ => Nat.zero_le _⟩
  | @cons p k ps ks hp _ ih =>
    simp only [firstOfC, List.sum_cons]
    rcases hx : (p i).res with _ | ⟨a, r⟩
    · have h0 := hp.2 hx
      refine ⟨fun b q hq => ?_, fun hn => ?_⟩
      · have := ih.1 b q hq
        exact ⟨this.1, by show (p i).calls + _ + _ ≤ _; omega⟩
      · have := ih.2 hn
        show (p i).calls + _ ≤ _; omega
    · have := hp.1 a r hx
      refine ⟨fun b q hq => ?_, fun hn => (nomatch hn)⟩
      simp only [Option.some.injEq, Prod.mk.injEq] at hq
      obtain ⟨_, rfl⟩ := hq
      exact ⟨this.1, by show (p i).calls + _ ≤ _; omega⟩

/-- the budget: `1 + 11 + 121 + …` -/
def budget : Nat → Nat
  | 0 => 0
  | n + 1 => 11 * budget n + 1

theorem budget_mono : Monotone budget := monotone_nat_of_le_succ fun n => by
  show budget n ≤ 11 * budget n + 1; omega

theorem budget_eq (n : Nat) : 10 * budget n + 1 = 11 ^ n := by
  induction n with
  | zero => rfl
  | succ n ih => rw [pow_succ, ← ih, budget]; ring

theorem tag_head_ne {c : Char} {w : List Char} {d : Char} {i : List Char} (h : d ≠ c) :
    tag (c :: w) (d :: i) = none := by
  simp [tag, Ne.symm h]

theorem ofOpt_none_bind {α β : Type} {f : α → Count β} : (ofOpt (none : Option α) >>= f) = ⟨0, none⟩ := rfl

theorem pot_zero {α : Type} {Φ : Nat → Nat} {e : Nat} {i : List Char} {A : Nat} :
    Pot (α := α) Φ e i A ⟨0, none⟩ := ⟨fun a r hr => (nomatch hr), fun _ => Nat.zero_le _⟩

theorem alpha2_suffix {i : List Char} {w : String} {r : List Char} (h : alpha2 i = some (w, r)) :
    r <:+ i ∧ r.length < i.length := by
  obtain ⟨⟨h1, _, _⟩, rfl, _⟩ := (alpha2_iff _ _ _).1 h
  exact ⟨List.suffix_append _ _, by simp; omega⟩

/-- the alternatives that do not call the reader of terms -/
def simpleAlternatives : List (List Char → Option (Term × List Char)) :=
  [parseQVar, parseDepVar, parseIndepVar, parseName]

theorem simple_suffix {i : List Char} {p : List Char → Option (Term × List Char)}
    (hp : p ∈ simpleAlternatives) {a : Term} {r : List Char} (h : p i = some (a, r)) :
    r <:+ i ∧ r.length < i.length := by
  simp only [simpleAlternatives, List.mem_cons, List.not_mem_nil, or_false] at hp
  have key : ∀ (w : List Char) (f : String → Term), (do
      let i ← tag w i
      let (w, i) ← alpha2 i
      some (f w, i) : Option (Term × List Char)) = some (a, r) → r <:+ i ∧ r.length < i.length := by
    intro w f h
    rcases hj : tag w i with _ | j
    · rw [hj] at h; cases h
    · rw [hj] at h
      rcases hk : alpha2 j with _ | ⟨v, k⟩
      · simp [hk] at h
      · simp only [hk, Option.bind_eq_bind, Option.bind_some, Option.some.injEq, Prod.mk.injEq] at h
        obtain ⟨_, rfl⟩ := h
        obtain ⟨h1, h2⟩ := alpha2_suffix hk
        have hj := (tag_iff _ _ _).1 hj
        have hs : j <:+ i := by rw [hj]; exact List.suffix_append _ _
        exact ⟨h1.trans hs, by have := hs.length_le; omega⟩
  rcases hp with rfl | rfl | rfl | rfl
  · exact key ['?'] Term.QVar h
  · exact key ['#'] Term.DepVar h
  · exact key ['$'] Term.IndepVar h
  · exact key [] Term.Name h

theorem simple_pot {Φ : Nat → Nat} (hΦ : Monotone Φ) {e : Nat} {i : List Char}
    {p : List Char → Option (Term × List Char)} (hp : p ∈ simpleAlternatives) :
    Pot Φ e i (Φ i.length) (ofOpt (p i)) :=
  ⟨fun a r hr => ⟨(simple_suffix hp hr).1, by
    have := hΦ (Nat.le_of_lt (simple_suffix hp hr).2)
    simpa using this⟩, fun _ => Nat.zero_le _⟩

theorem parseSubjOrPredC_pot (n : Nat) (i : List Char) :
    Pot budget 0 i (budget (i.length + 1)) (parseSubjOrPredC n i) := by
  induction n generalizing i with
  | zero => exact pot_zero
  | succ n ih =>
    have h : RecPot budget 0 (fun l => budget (l + 1)) (fun _ => True) (parseSubjOrPredC n) :=
      ⟨budget_mono, fun l m hl => budget_mono hl, fun _ _ _ _ => trivial, fun j _ => ih j⟩
    have hc := h.compound (i := i) (A := budget i.length) trivial (fun l hl => budget_mono hl)
    have hs := fun p hp => simple_pot (e := 0) (i := i) budget_mono (p := p) hp
    have key : ∃ ks : List Nat, List.Forall₂ (fun p k => Pot budget 0 i k (p i))
        (termAlternativesC (parseSubjOrPredC n)) ks ∧ ks.sum ≤ 11 * budget i.length := by
      by_cases hp : ∃ j, i = '(' :: j
      · obtain ⟨j, rfl⟩ := hp
        generalize hS : budget ('(' :: j).length = S at hc hs ⊢
        refine ⟨[0, S, S, S, 0, S, S, S, S, S, S, S, 0, 0, 0, 0, S], ?_, by simp; omega⟩
        unfold termAlternativesC
        refine List.Forall₂.cons ?_ (List.Forall₂.cons ?_ (List.Forall₂.cons ?_ (List.Forall₂.cons ?_
          (List.Forall₂.cons ?_ (List.Forall₂.cons ?_ (List.Forall₂.cons ?_ (List.Forall₂.cons ?_
          (List.Forall₂.cons ?_ (List.Forall₂.cons ?_ (List.Forall₂.cons ?_ (List.Forall₂.cons ?_
          (List.Forall₂.cons ?_ (List.Forall₂.cons ?_ (List.Forall₂.cons ?_ (List.Forall₂.cons ?_
          (List.Forall₂.cons ?_ List.Forall₂.nil))))))))))))))))
        all_goals first
          | exact hc _ (by simp [compoundAlternatives])
          | exact hs _ (by simp [simpleAlternatives])
          | exact pot_zero
      · have hne : tag ['('] i = none := by
          rcases ht : tag ['('] i with _ | r
          · rfl
          · exact absurd ⟨r, (tag_iff _ _ _).1 ht⟩ hp
        have hne2 : tag ['(', '!'] i = none := by
          rcases ht : tag ['(', '!'] i with _ | r
          · rfl
          · exact absurd ⟨_, (tag_iff _ _ _).1 ht⟩ hp
        generalize hS : budget i.length = S at hc hs ⊢
        refine ⟨[S, 0, 0, 0, S, 0, 0, 0, 0, 0, 0, 0, S, S, S, S, S], ?_, by simp; omega⟩
        unfold termAlternativesC
        refine List.Forall₂.cons ?_ (List.Forall₂.cons ?_ (List.Forall₂.cons ?_ (List.Forall₂.cons ?_
          (List.Forall₂.cons ?_ (List.Forall₂.cons ?_ (List.Forall₂.cons ?_ (List.Forall₂.cons ?_
          (List.Forall₂.cons ?_ (List.Forall₂.cons ?_ (List.Forall₂.cons ?_ (List.Forall₂.cons ?_
          (List.Forall₂.cons ?_ (List.Forall₂.cons ?_ (List.Forall₂.cons ?_ (List.Forall₂.cons ?_
          (List.Forall₂.cons ?_ List.Forall₂.nil))))))))))))))))
        all_goals first
          | exact hc _ (by simp [compoundAlternatives])
          | exact hs _ (by simp [simpleAlternatives])
          | (simp only [parseSeqC, parseIntInt2C, parseExtInt2C, parseNegC, parseProdC, parseImg0C,
              parseImg1C, parseConj2C, parseConj3C, parseConj4C, hne, hne2, ofOpt_none_bind]
             exact pot_zero)
    obtain ⟨ks, hk, hsum⟩ := key
    have hf := firstOfC_pot hk
    refine ⟨fun a r hr => ?_, fun hn => ?_⟩
    · have := hf.1 a r hr
      exact ⟨this.1, by show _ + 1 + _ ≤ 11 * budget _ + 1; omega⟩
    · have := hf.2 hn
      show _ + 1 ≤ 11 * budget _ + 1 + 0; omega

theorem parseEntryC_calls_le (i : List Char) : 10 * (parseEntryC i).calls < 11 ^ (i.length + 1) := by
  have h := parseSubjOrPredC_pot (i.length + 1) i
  have hb : (parseEntryC i).calls ≤ budget (i.length + 1) := by
    unfold parseEntryC
    rcases hr : (parseSubjOrPredC (i.length + 1) i).res with _ | ⟨a, r⟩
    · exact h.2 hr
    · have := (h.1 a r hr).2; omega
  have := budget_eq (i.length + 1)
  omega

end Nar
