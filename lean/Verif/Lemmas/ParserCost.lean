import Verif.Model.ParserCost
import Verif.Lemmas.Parser
import Mathlib.Data.List.Forall2
import Mathlib.Order.Monotone.Basic
/-! # Lemmas about the work done by the parser -/
namespace Nar

theorem Count.bind_none {α β : Type} {x : Count α} {f : α → Count β} (h : x.res = none) :
    (x >>= f) = ⟨x.calls, none⟩ := by
  show Count.bind x f = _
  simp [Count.bind, h]

theorem Count.bind_some {α β : Type} {x : Count α} {f : α → Count β} {a : α} (h : x.res = some a) :
    (x >>= f) = ⟨x.calls + (f a).calls, (f a).res⟩ := by
  show Count.bind x f = _
  simp [Count.bind, h]

theorem Count.bind_res {α β : Type} (x : Count α) (f : α → Count β) :
    (x >>= f).res = x.res >>= fun a => (f a).res := by
  rcases h : x.res with _ | a
  · rw [Count.bind_none h]; rfl
  · rw [Count.bind_some h]; rfl

@[simp] theorem Count.pure_res {α : Type} (a : α) : (pure a : Count α).res = some a := rfl
@[simp] theorem Count.pure_calls {α : Type} (a : α) : (pure a : Count α).calls = 0 := rfl
@[simp] theorem Count.ofOpt_res {α : Type} (a : Option α) : (ofOpt a).res = a := rfl
@[simp] theorem Count.ofOpt_calls {α : Type} (a : Option α) : (ofOpt a).calls = 0 := rfl

/-! ## The counting parser reads the same -/

section
variable {rc : List Char → Count (Term × List Char)} {r : List Char → Option (Term × List Char)}

theorem moreTermsC_res (h : ∀ i, (rc i).res = r i) (sep : List Char) (n : Nat) (i : List Char) :
    (moreTermsC rc sep n i).res = moreTerms r sep n i := by
  induction n generalizing i with
  | zero => rfl
  | succ n ih =>
    simp only [moreTermsC, moreTerms]
    rcases tag sep i with _ | j
    · rfl
    · simp only [Count.bind_res, h, ih, Count.pure_res]

theorem termAlternativesC_res (h : ∀ i, (rc i).res = r i) (i : List Char) :
    (firstOfC (termAlternativesC rc) i).res = firstOf (termAlternatives r) i := by
  have e : List.Forall₂ (fun p q => ∀ i, (p i : Count (Term × List Char)).res = q i)
      (termAlternativesC rc) (termAlternatives r) := by
    unfold termAlternativesC termAlternatives
    refine List.Forall₂.cons ?_ (List.Forall₂.cons ?_ (List.Forall₂.cons ?_ (List.Forall₂.cons ?_
      (List.Forall₂.cons ?_ (List.Forall₂.cons ?_ (List.Forall₂.cons ?_ (List.Forall₂.cons ?_
      (List.Forall₂.cons ?_ (List.Forall₂.cons ?_ (List.Forall₂.cons ?_ (List.Forall₂.cons ?_
      (List.Forall₂.cons ?_ (List.Forall₂.cons ?_ (List.Forall₂.cons ?_ (List.Forall₂.cons ?_
      (List.Forall₂.cons ?_ List.Forall₂.nil)))))))))))))))) <;> intro i <;>
      simp only [parseSetExtC, parseSeqC, parseIntInt2C, parseExtInt2C, parseSetIntC, parseNegC,
        parseProdC, parseImg0C, parseImg1C, parseConj2C, parseConj3C, parseConj4C, parseStatementC,
        parseSetExt, parseSeq, parseIntInt2, parseExtInt2, parseSetInt, parseNeg,
        parseProd, parseImg0, parseImg1, parseConj2, parseConj3, parseConj4, parseStatement,
        Count.bind_res, Count.ofOpt_res, Count.pure_res, h, moreTermsC_res h]
  generalize termAlternativesC rc = ps at e ⊢
  generalize termAlternatives r = qs at e ⊢
  induction e with
  | nil => rfl
  | @cons p q ps qs hp _ ih =>
    simp only [firstOfC, firstOf]
    rw [hp i]
    rcases q i with _ | x
    · exact ih
    · rfl

end

theorem parseSubjOrPredC_res (n : Nat) (i : List Char) :
    (parseSubjOrPredC n i).res = parseSubjOrPred n i := by
  induction n generalizing i with
  | zero => rfl
  | succ n ih => exact termAlternativesC_res ih i

/-! ## Potential -/

/-- the calls are paid by the text read: `Φ` is the budget of a text, `e` an extra allowance of a
failing step -/
def Pot {α : Type} (Φ : Nat → Nat) (e : Nat) (i : List Char) (A : Nat) (x : Count (α × List Char)) :
    Prop :=
  (∀ a r, x.res = some (a, r) → r <:+ i ∧ x.calls + Φ r.length ≤ A) ∧
    (x.res = none → x.calls ≤ A + e)

section
variable {Φ : Nat → Nat} {e : Nat}

theorem Pot.mono {α : Type} {i : List Char} {A B : Nat} {x : Count (α × List Char)}
    (h : Pot Φ e i A x) (hAB : A ≤ B) : Pot Φ e i B x :=
  ⟨fun a r hr => ⟨(h.1 a r hr).1, by have := (h.1 a r hr).2; omega⟩, fun hn => by have := h.2 hn; omega⟩

theorem Pot.bind {α β : Type} {i : List Char} {A : Nat} {x : Count (α × List Char)}
    {f : α × List Char → Count (β × List Char)} (h : Pot Φ e i A x)
    (hf : ∀ a r, x.res = some (a, r) → r <:+ i → Pot Φ e r (Φ r.length) (f (a, r))) :
    Pot Φ e i A (x >>= f) := by
  rcases hx : x.res with _ | ⟨a, r⟩
  · rw [Count.bind_none hx]
    exact ⟨fun a r hr => (nomatch hr), fun _ => h.2 hx⟩
  · rw [Count.bind_some hx]
    obtain ⟨h1, h2⟩ := h.1 a r hx
    have h3 := hf a r hx h1
    refine ⟨fun b q hq => ?_, fun hn => ?_⟩
    · obtain ⟨h4, h5⟩ := h3.1 b q hq
      exact ⟨h4.trans h1, by show x.calls + _ + _ ≤ A; omega⟩
    · have := h3.2 hn
      show x.calls + _ ≤ _; omega

theorem Pot.step {α β : Type} {i : List Char} {A : Nat} {o : Option β}
    {f : β → Count (α × List Char)} (hf : ∀ r, o = some r → Pot Φ e i A (f r)) :
    Pot Φ e i A (ofOpt o >>= f) := by
  rcases ho : o with _ | r
  · rw [Count.bind_none (by rfl)]
    exact ⟨fun a r hr => (nomatch hr), fun _ => Nat.zero_le _⟩
  · rw [Count.bind_some (a := r) (by rfl)]
    have := hf r ho
    simpa using this

theorem Pot.suffix {α : Type} {i j : List Char} {A : Nat} {x : Count (α × List Char)}
    (h : Pot Φ e j A x) (hj : j <:+ i) : Pot Φ e i A x :=
  ⟨fun a r hr => ⟨(h.1 a r hr).1.trans hj, (h.1 a r hr).2⟩, h.2⟩

theorem Pot.pure {α : Type} (a : α) (r : List Char) : Pot Φ e r (Φ r.length) (pure (a, r)) :=
  ⟨fun b q hq => by
    simp only [Count.pure_res, Option.some.injEq, Prod.mk.injEq] at hq
    obtain ⟨_, rfl⟩ := hq
    simp, fun hn => by simp at hn⟩

/-- the last step: a closing character, then the result -/
theorem Pot.close {α : Type} (hΦ : Monotone Φ) {w i : List Char} {f : List Char → α} :
    Pot Φ e i (Φ i.length) (ofOpt (tag w i) >>= fun j => Pure.pure (f j, j)) := by
  refine Pot.step fun r hr => ?_
  have hr := (tag_iff _ _ _).1 hr
  subst hr
  exact ((Pot.pure _ _).suffix (List.suffix_append _ _)).mono (hΦ (by simp))

variable {R : Nat → Nat} {G : List Char → Prop} {rc : List Char → Count (Term × List Char)}

/-- what is known of the recursive call -/
structure RecPot (Φ : Nat → Nat) (e : Nat) (R : Nat → Nat) (G : List Char → Prop)
    (rc : List Char → Count (Term × List Char)) : Prop where
  mono : Monotone Φ
  step : ∀ l m, l < m → R l ≤ Φ m
  suffix : ∀ i j, j <:+ i → G i → G j
  call : ∀ j, G j → Pot Φ e j (R j.length) (rc j)

theorem RecPot.tagCall {α : Type} (h : RecPot Φ e R G rc) {c : Char} {w i : List Char} {A : Nat}
    (hG : G i) (hA : ∀ l, l < i.length → R l ≤ A) {f : Term × List Char → Count (α × List Char)}
    (hf : ∀ a r, G r → Pot Φ e r (Φ r.length) (f (a, r))) :
    Pot Φ e i A (ofOpt (tag (c :: w) i) >>= fun j => rc j >>= f) := by
  refine Pot.step fun j hj => ?_
  have hj := (tag_iff _ _ _).1 hj
  have hs : j <:+ i := by rw [hj]; exact List.suffix_append _ _
  have hl : j.length < i.length := by rw [hj]; simp; omega
  exact (((h.call j (h.suffix _ _ hs hG)).mono (hA _ hl)).suffix hs).bind
    fun a r _ hr => hf a r (h.suffix _ _ hr hG)

theorem RecPot.tagCall' {α : Type} (h : RecPot Φ e R G rc) {c : Char} {w i : List Char}
    (hG : G i) {f : Term × List Char → Count (α × List Char)}
    (hf : ∀ a r, G r → Pot Φ e r (Φ r.length) (f (a, r))) :
    Pot Φ e i (Φ i.length) (ofOpt (tag (c :: w) i) >>= fun j => rc j >>= f) :=
  h.tagCall hG (fun l hl => h.step _ _ hl) hf

theorem RecPot.moreTerms (h : RecPot Φ e R G rc) (c : Char) (w : List Char) (n : Nat)
    (i : List Char) (hG : G i) : Pot Φ e i (Φ i.length) (moreTermsC rc (c :: w) n i) := by
  induction n generalizing i with
  | zero => exact ⟨fun a r hr => (nomatch hr), fun _ => Nat.zero_le _⟩
  | succ n ih =>
    unfold moreTermsC
    rcases hj : tag (c :: w) i with _ | j
    · exact Pot.pure _ _
    · have hj := (tag_iff _ _ _).1 hj
      have hs : j <:+ i := by rw [hj]; exact List.suffix_append _ _
      have hl : j.length < i.length := by rw [hj]; simp; omega
      refine (((h.call j (h.suffix _ _ hs hG)).mono (h.step _ _ hl)).suffix hs).bind
        fun a r _ hr => ?_
      exact (ih r (h.suffix _ _ hr hG)).bind fun b q _ _ => Pot.pure _ _

/-- the alternatives that call the reader of terms -/
def compoundAlternatives (rc : List Char → Count (Term × List Char)) :
    List (List Char → Count (Term × List Char)) :=
  [ parseSetExtC rc, parseSeqC rc, parseIntInt2C rc, parseExtInt2C rc, parseSetIntC rc,
    parseNegC rc, parseProdC rc, parseImg0C rc, parseImg1C rc, parseConj2C rc,
    parseConj3C rc, parseConj4C rc, parseStatementC rc ]

theorem RecPot.compound (h : RecPot Φ e R G rc) {i : List Char} {A : Nat} (hG : G i)
    (hA : ∀ l, l < i.length → R l ≤ A) :
    ∀ p ∈ compoundAlternatives rc, Pot Φ e i A (p i) := by
  intro p hp
  simp only [compoundAlternatives, List.mem_cons, List.not_mem_nil, or_false] at hp
  rcases hp with rfl | rfl | rfl | rfl | rfl | rfl | rfl | rfl | rfl | rfl | rfl | rfl | rfl
  · exact h.tagCall hG hA fun a r hr => Pot.close h.mono
  · exact h.tagCall hG hA fun a r hr => h.tagCall' hr fun a r hr =>
      (h.moreTerms _ _ _ _ hr).bind fun b q _ _ => Pot.close h.mono
  · exact h.tagCall hG hA fun a r hr => h.tagCall' hr fun a r hr => Pot.close h.mono
  · exact h.tagCall hG hA fun a r hr => h.tagCall' hr fun a r hr => Pot.close h.mono
  · exact h.tagCall hG hA fun a r hr => Pot.close h.mono
  · exact h.tagCall hG hA fun a r hr => Pot.close h.mono
  · exact h.tagCall hG hA fun a r hr => h.tagCall' hr fun a r hr =>
      (h.moreTerms _ _ _ _ hr).bind fun b q _ _ => Pot.close h.mono
  · exact h.tagCall hG hA fun a r hr => h.tagCall' hr fun a r hr => Pot.close h.mono
  · exact h.tagCall hG hA fun a r hr => h.tagCall' hr fun a r hr => Pot.close h.mono
  · exact h.tagCall hG hA fun a r hr => h.tagCall' hr fun a r hr => Pot.close h.mono
  · exact h.tagCall hG hA fun a r hr => h.tagCall' hr fun a r hr => h.tagCall' hr fun a r hr =>
      Pot.close h.mono
  · exact h.tagCall hG hA fun a r hr => h.tagCall' hr fun a r hr => h.tagCall' hr fun a r hr =>
      h.tagCall' hr fun a r hr => Pot.close h.mono
  · refine h.tagCall hG hA fun a r hr => Pot.step fun x hx => ?_
    obtain ⟨cop, q⟩ := x
    have hx := (parseCopula_iff _ _ _).1 hx
    have hs : q <:+ r := by rw [hx]; exact List.suffix_append _ _
    have hl : q.length < r.length := by rw [hx]; simp; omega
    exact (((h.call q (h.suffix _ _ hs hr)).mono (h.step _ _ hl)).suffix hs).bind
      fun a r _ hr => Pot.close h.mono

end

end Nar
