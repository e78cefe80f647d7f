import Verif.Spec.Term
/-! # Helper lemmas about terms -/
namespace Nar
namespace Term

/-- Induction over terms with `∀ t ∈ ts` hypotheses for compounds. -/
theorem ind {P : Term → Prop}
    (stmt : ∀ c s p, P s → P p → P (Stmt c s p))
    (name : ∀ n, P (Name n))
    (seq : ∀ ts, (∀ t ∈ ts, P t) → P (Seq ts))
    (setInt : ∀ ts, (∀ t ∈ ts, P t) → P (SetInt ts))
    (setExt : ∀ ts, (∀ t ∈ ts, P t) → P (SetExt ts))
    (qvar : ∀ n, P (QVar n)) (depvar : ∀ n, P (DepVar n)) (indepvar : ∀ n, P (IndepVar n))
    (conj : ∀ ts, (∀ t ∈ ts, P t) → P (Conj ts))
    (prod : ∀ ts, (∀ t ∈ ts, P t) → P (Prod ts))
    (img : ∀ r i ts, P r → (∀ t ∈ ts, P t) → P (Img r i ts))
    (intInt : ∀ ts, (∀ t ∈ ts, P t) → P (IntInt ts))
    (extInt : ∀ ts, (∀ t ∈ ts, P t) → P (ExtInt ts))
    (par : ∀ ts, (∀ t ∈ ts, P t) → P (Par ts))
    (neg : ∀ t, P t → P (Neg t)) (t : Term) : P t :=
  Term.rec (motive_1 := P) (motive_2 := fun ts => ∀ t ∈ ts, P t)
    stmt name seq setInt setExt qvar depvar indepvar conj prod img intInt extInt par neg
    (by simp) (by intro t ts h1 h2; simpa using ⟨h1, h2⟩) t

/-- One-case induction: the property follows from the property of all direct parts. -/
theorem indParts {P : Term → Prop} (h : ∀ t, (∀ c ∈ parts t, P c) → P t) (t : Term) : P t := by
  induction t using ind with
  | stmt c s p hs hp => exact h _ (by simp [parts, hs, hp])
  | img r i ts hr hts => exact h _ (by simpa [parts] using ⟨hr, hts⟩)
  | neg t ht => exact h _ (by simp [parts, ht])
  | name | qvar | depvar | indepvar => exact h _ (by simp [parts])
  | seq ts hts | setInt ts hts | setExt ts hts | conj ts hts | prod ts hts
  | intInt ts hts | extInt ts hts | par ts hts => exact h _ (by simpa [parts] using hts)

theorem checkEqTermL_iff (as : List Term)
    (ih : ∀ a ∈ as, ∀ b, checkEqTerm a b = true ↔ a = b) :
    ∀ bs, as.length = bs.length → (checkEqTermL as bs = true ↔ as = bs) := by
  induction as with
  | nil => intro bs hl; cases bs <;> simp_all [checkEqTermL]
  | cons a as ihas =>
    intro bs hl
    cases bs with
    | nil => simp at hl
    | cons b bs =>
      have h1 := ih a (by simp) b
      have h2 := ihas (fun a ha => ih a (by simp [ha])) bs (by simpa using hl)
      rw [checkEqTermL]
      by_cases hab : checkEqTerm a b = true
      · rw [hab, h1.1 hab]; simp [h2]
      · simp [hab]
        intro e; exact absurd (h1.2 e) hab

theorem lenEq_iff {as bs : List Term}
    (ih : ∀ a ∈ as, ∀ b, checkEqTerm a b = true ↔ a = b) :
    (as.length = bs.length ∧ checkEqTermL as bs = true) ↔ as = bs := by
  constructor
  · rintro ⟨h1, h2⟩; exact (checkEqTermL_iff as ih bs h1).1 h2
  · intro h; subst h; exact ⟨rfl, (checkEqTermL_iff as ih as rfl).2 rfl⟩

theorem checkEqTerm_iff (a b : Term) : checkEqTerm a b = true ↔ a = b := by
  induction a using ind generalizing b with
  | stmt c s p hs hp => cases b <;> simp [checkEqTerm, hs, hp, and_assoc]
  | name | qvar | depvar | indepvar => cases b <;> simp [checkEqTerm]
  | neg t ht => cases b <;> simp [checkEqTerm, ht]
  | img r i ts hr hts =>
    cases b <;> simp [checkEqTerm, hr]
    rw [lenEq_iff hts]
    constructor
    · rintro ⟨h1, h2, h3⟩; exact ⟨h2, h1, h3⟩
    · rintro ⟨h1, h2, h3⟩; exact ⟨h2, h1, h3⟩
  | seq ts hts | setInt ts hts | setExt ts hts | conj ts hts | prod ts hts
  | intInt ts hts | extInt ts hts | par ts hts => cases b <;> simp [checkEqTerm, lenEq_iff hts]

@[simp] theorem checkEqTerm_self (a : Term) : checkEqTerm a a = true := (checkEqTerm_iff a a).2 rfl

theorem checkEqTerm_false_iff (a b : Term) : checkEqTerm a b = false ↔ a ≠ b := by
  rw [← Bool.not_eq_true, checkEqTerm_iff]

instance : DecidableEq Term := fun a b =>
  if h : checkEqTerm a b = true then isTrue ((checkEqTerm_iff a b).1 h)
  else isFalse (fun e => h ((checkEqTerm_iff a b).2 e))

theorem checkEqTerm_eq_decide (a b : Term) : checkEqTerm a b = decide (a = b) := by
  by_cases h : a = b
  · simp [h]
  · simp [h, checkEqTerm_false_iff]

theorem checkEqTerm_comm (a b : Term) : checkEqTerm a b = checkEqTerm b a := by
  rw [checkEqTerm_eq_decide, checkEqTerm_eq_decide, decide_eq_decide, eq_comm]

/-! ## sub-terms -/

theorem mem_retSubtermsL (s : Term) (ts : List Term) :
    s ∈ retSubtermsL ts ↔ ∃ t ∈ ts, s ∈ retSubterms t := by
  induction ts with
  | nil => simp [retSubtermsL]
  | cons t ts ih => simp [retSubtermsL, ih]

theorem mem_retSubterms_parts (s t : Term) :
    s ∈ retSubterms t ↔ s = t ∨ ∃ c ∈ parts t, s ∈ retSubterms c := by
  cases t <;> simp [retSubterms, parts, mem_retSubtermsL, or_comm]

theorem isSubterm_iff (s t : Term) : IsSubterm s t ↔ s = t ∨ ∃ c ∈ parts t, IsSubterm s c := by
  constructor
  · intro h; cases h with
    | refl => simp
    | inside hc hs => exact Or.inr ⟨_, hc, hs⟩
  · rintro (rfl | ⟨c, hc, hs⟩)
    · exact .refl _
    · exact .inside hc hs

theorem mem_retSubterms (s t : Term) : s ∈ retSubterms t ↔ IsSubterm s t := by
  induction t using indParts with
  | h t ih =>
    rw [mem_retSubterms_parts, isSubterm_iff]
    constructor
    · rintro (h | ⟨c, hc, hs⟩)
      · exact Or.inl h
      · exact Or.inr ⟨c, hc, (ih c hc).1 hs⟩
    · rintro (h | ⟨c, hc, hs⟩)
      · exact Or.inl h
      · exact Or.inr ⟨c, hc, (ih c hc).2 hs⟩

theorem self_mem_retSubterms (t : Term) : t ∈ retSubterms t := (mem_retSubterms t t).2 (.refl t)

instance (s t : Term) : Decidable (IsSubterm s t) :=
  decidable_of_iff _ (mem_retSubterms s t)

theorem IsSubterm.trans {a b c : Term} (h1 : IsSubterm a b) (h2 : IsSubterm b c) :
    IsSubterm a c := by
  induction h2 with
  | refl => exact h1
  | inside hc _ ih => exact .inside hc ih

theorem isSubterm_of_part {c t : Term} (h : c ∈ parts t) : IsSubterm c t := .inside h (.refl c)

section unique
variable {l : List Term}

private def ustep (res : List Term) (x : Term) : List Term :=
  if res.any (fun y => checkEqTerm x y) then res else res ++ [x]

private theorem any_iff (res : List Term) (x : Term) :
    res.any (fun y => checkEqTerm x y) = true ↔ x ∈ res := by
  simp [checkEqTerm_iff]

private theorem fold_mem (l : List Term) : ∀ (acc : List Term) (s : Term),
    s ∈ l.foldl ustep acc ↔ s ∈ acc ∨ s ∈ l := by
  induction l with
  | nil => simp
  | cons x l ih =>
    intro acc s
    rw [List.foldl_cons, ih]
    unfold ustep
    split
    · rename_i h; rw [any_iff] at h
      constructor
      · rintro (h1 | h1) <;> simp [h1]
      · rintro (h1 | h1)
        · simp [h1]
        · rcases List.mem_cons.1 h1 with rfl | h2
          · exact Or.inl h
          · exact Or.inr h2
    · simp [or_assoc]

private theorem fold_nodup (l : List Term) : ∀ (acc : List Term), acc.Nodup →
    (l.foldl ustep acc).Nodup := by
  induction l with
  | nil => simp
  | cons x l ih =>
    intro acc h
    rw [List.foldl_cons]
    apply ih
    unfold ustep
    split
    · exact h
    · rename_i hx; rw [any_iff] at hx
      rw [List.nodup_append]
      refine ⟨h, by simp, ?_⟩
      intro a ha b hb; simp at hb; subst hb; intro e; subst e; exact hx ha

theorem mem_retUniqueSubterms (s t : Term) : s ∈ retUniqueSubterms t ↔ IsSubterm s t := by
  rw [← mem_retSubterms]
  have := fold_mem (retSubterms t) [] s
  simp only [List.not_mem_nil, false_or] at this
  exact this

theorem nodup_retUniqueSubterms (t : Term) : (retUniqueSubterms t).Nodup :=
  fold_nodup (retSubterms t) [] (by simp)

end unique

theorem countP_retSubtermsL (ts : List Term)
    (ih : ∀ t ∈ ts, calcComplexity t = (retSubterms t).countP Counted) :
    calcComplexityL ts = (retSubtermsL ts).countP Counted := by
  induction ts with
  | nil => simp [calcComplexityL, retSubtermsL]
  | cons t ts ihts =>
    simp only [calcComplexityL, retSubtermsL, List.countP_append]
    rw [ih t (by simp), ihts (fun t ht => ih t (by simp [ht]))]

theorem calcComplexity_eq (t : Term) : calcComplexity t = (retSubterms t).countP Counted := by
  induction t using ind with
  | stmt c s p hs hp => simp [calcComplexity, retSubterms, List.countP_cons, Counted, hs, hp]; omega
  | name | qvar | depvar | indepvar => simp [calcComplexity, retSubterms, Counted]
  | neg t ht => simp [calcComplexity, retSubterms, List.countP_cons, Counted, ht]; omega
  | img r i ts hr hts =>
    simp [calcComplexity, retSubterms, Counted, hr, countP_retSubtermsL ts hts]
  | seq ts hts | setInt ts hts | setExt ts hts | conj ts hts | prod ts hts
  | intInt ts hts | extInt ts hts | par ts hts =>
    simp [calcComplexity, retSubterms, Counted, countP_retSubtermsL ts hts]

end Term
end Nar
