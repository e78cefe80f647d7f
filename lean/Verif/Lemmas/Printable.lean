import Verif.Spec.Term
import Verif.Lemmas.Unify
import Verif.Lemmas.VarIntro
/-! # Lemmas about terms which can be printed -/
namespace Nar
open Term

/-- the compound has a part, if it needs one to be printed -/
def Filled : Term → Prop
  | .Seq ts | SetInt ts | SetExt ts | Conj ts | .Prod ts | Img _ _ ts | IntInt ts | ExtInt ts | Par ts => ts ≠ []
  | _ => True

theorem joinStr_some {sep : List Char} {ts : List Term} :
    (∃ s, joinStr sep ts = some s) ↔ ts ≠ [] ∧ ∀ t ∈ ts, Printable t := by
  induction ts with
  | nil => simp [joinStr]
  | cons a ts ih =>
    cases ts with
    | nil => simp [joinStr, Printable]
    | cons b ts =>
      have e : joinStr sep (a :: b :: ts) = (convTermToStr a).bind fun x => (joinStr sep (b :: ts)).bind fun y => some (x ++ sep ++ y) := by
        rw [joinStr]; rfl
      rw [e]
      constructor
      · rintro ⟨s, h⟩
        simp only [Option.bind_eq_some_iff] at h
        obtain ⟨x, hx, y, hy, -⟩ := h
        refine ⟨by simp, fun t ht => ?_⟩
        rcases List.mem_cons.1 ht with rfl | ht
        · exact ⟨x, hx⟩
        · exact (ih.1 ⟨y, hy⟩).2 t ht
      · rintro ⟨-, h⟩
        obtain ⟨x, hx⟩ := h a (by simp)
        obtain ⟨y, hy⟩ := ih.2 ⟨by simp, fun t ht => h t (by simp [ht])⟩
        exact ⟨_, by rw [hx, hy]; rfl⟩

theorem joined_some {sep : List Char} {ts : List Term} {f : List Char → List Char} :
    (∃ s, ((joinStr sep ts).bind fun i => some (f i)) = some s) ↔ ts ≠ [] ∧ ∀ t ∈ ts, Printable t := by
  rw [← joinStr_some (sep := sep)]
  cases joinStr sep ts <;> simp

theorem printable_iff {t : Term} : Printable t ↔ Filled t ∧ ∀ x ∈ parts t, Printable x := by
  cases t with
  | Stmt c s p =>
    simp only [Filled, parts, List.mem_cons, List.not_mem_nil, or_false, forall_eq_or_imp, forall_eq, true_and]
    unfold Printable
    simp only [convTermToStr]
    cases convTermToStr s <;> cases convTermToStr p <;> simp
  | Name n => simp [Printable, convTermToStr, Filled, parts]
  | QVar n => simp [Printable, convTermToStr, Filled, parts]
  | DepVar n => simp [Printable, convTermToStr, Filled, parts]
  | IndepVar n => simp [Printable, convTermToStr, Filled, parts]
  | Neg t =>
    simp only [Filled, parts, List.mem_cons, List.not_mem_nil, or_false, forall_eq, true_and]
    unfold Printable
    simp only [convTermToStr]
    cases convTermToStr t <;> simp
  | Img r i ts =>
    simp only [Filled, parts, List.forall_mem_cons]
    have e : Printable (Img r i ts) ↔ (∃ s, joinStr [' '] ts = some s) ∧ Printable r := by
      unfold Printable
      simp only [convTermToStr]
      cases joinStr [' '] ts <;> cases convTermToStr r <;> simp
    rw [e, joinStr_some, and_assoc, and_comm (b := Printable r)]
  | Seq ts => exact joined_some (f := fun i => '(' :: ' ' :: i ++ [' ', ')'])
  | SetInt ts => exact joined_some (f := fun i => '[' :: i ++ [']'])
  | SetExt ts => exact joined_some (f := fun i => '{' :: i ++ ['}'])
  | Conj ts => exact joined_some (f := fun i => '(' :: ' ' :: i ++ [' ', ')'])
  | Prod ts => exact joined_some (f := fun i => '(' :: ' ' :: i ++ [' ', ')'])
  | IntInt ts => exact joined_some (f := fun i => '(' :: ' ' :: i ++ [' ', ')'])
  | ExtInt ts => exact joined_some (f := fun i => '(' :: ' ' :: i ++ [' ', ')'])
  | Par ts => exact joined_some (f := fun i => '(' :: ' ' :: i ++ [' ', ')'])

theorem Term.Printable.part {t x : Term} (h : Printable t) (hx : x ∈ parts t) : Printable x := (printable_iff.1 h).2 x hx

theorem Term.Printable.sub {s t : Term} (h : Printable t) (hs : IsSubterm s t) : Printable s := by
  induction hs with
  | refl => exact h
  | inside hc _ ih => exact ih (h.part hc)

theorem printable_name (n : String) : Printable (.Name n) := ⟨_, rfl⟩

theorem printable_var {v : Term} (h : IsVar v) : Printable v := by
  cases v <;> first | exact ⟨_, rfl⟩ | exact h.elim

theorem printable_stmt {c : Copula} {s p : Term} : Printable (.Stmt c s p) ↔ Printable s ∧ Printable p := by
  rw [printable_iff]; simp [Filled, parts]

theorem printable_seq {ts : List Term} : Printable (.Seq ts) ↔ ts ≠ [] ∧ ∀ t ∈ ts, Printable t := by
  rw [printable_iff]; rfl

theorem printable_setExt {ts : List Term} : Printable (.SetExt ts) ↔ ts ≠ [] ∧ ∀ t ∈ ts, Printable t := by
  rw [printable_iff]; rfl

theorem printable_setInt {ts : List Term} : Printable (.SetInt ts) ↔ ts ≠ [] ∧ ∀ t ∈ ts, Printable t := by
  rw [printable_iff]; rfl

theorem printable_prod {ts : List Term} : Printable (.Prod ts) ↔ ts ≠ [] ∧ ∀ t ∈ ts, Printable t := by
  rw [printable_iff]; rfl

theorem part_size {x t : Term} (h : x ∈ parts t) : sizeOf x < sizeOf t := by
  cases t <;> simp only [parts, List.mem_cons, List.not_mem_nil, or_false] at h
  case Stmt => rcases h with rfl | rfl <;> simp <;> omega
  case Neg => subst h; simp
  case Img =>
    rcases h with rfl | h
    · simp; omega
    · have := List.sizeOf_lt_of_mem h; simp; omega
  all_goals (have := List.sizeOf_lt_of_mem h; simp; omega)

/-- induction over the parts of a term -/
theorem parts_ind {P : Term → Prop} (h : ∀ t, (∀ x ∈ parts t, P x) → P t) (t : Term) : P t := by
  have hrec : ∀ n t, sizeOf t ≤ n → P t := by
    intro n
    induction n with
    | zero => intro t hn; cases t <;> simp at hn
    | succ n ih => exact fun t hn => h t (fun x hx => ih x (by have := part_size hx; omega))
  exact hrec _ t (le_refl _)

/-- replacing the variables of a printable term by printable terms -/
theorem printable_inst {θ : Term → Term} (hθ : ∀ v, IsVar v → Printable (θ v)) (t : Term) : Printable t → Printable (inst θ t) := by
  refine parts_ind (P := fun t => Printable t → Printable (inst θ t)) (fun t ih h => ?_) t
  have hl : ∀ ts : List Term, ts ≠ [] → (∀ x ∈ ts, x ∈ parts t) → instL θ ts ≠ [] ∧ ∀ x ∈ instL θ ts, Printable x := by
    intro ts hn hts
    rw [instL_eq_map]
    refine ⟨by simpa using hn, fun x hx => ?_⟩
    obtain ⟨y, hy, rfl⟩ := List.mem_map.1 hx
    exact ih y (hts y hy) (h.part (hts y hy))
  have hf := (printable_iff.1 h).1
  cases t with
  | QVar n => exact hθ _ trivial
  | DepVar n => exact hθ _ trivial
  | IndepVar n => exact hθ _ trivial
  | Name n => exact h
  | Stmt c s p =>
    exact printable_stmt.2 ⟨ih s (by simp [parts]) (h.part (by simp [parts])), ih p (by simp [parts]) (h.part (by simp [parts]))⟩
  | Neg t =>
    refine printable_iff.2 ⟨trivial, ?_⟩
    intro x hx
    simp only [inst, parts, List.mem_singleton] at hx
    subst hx
    exact ih t (by simp [parts]) (h.part (by simp [parts]))
  | Img r i ts =>
    obtain ⟨h1, h2⟩ := hl ts hf (fun x hx => by simp [parts, hx])
    refine printable_iff.2 ⟨h1, ?_⟩
    intro x hx
    simp only [inst, parts, List.mem_cons] at hx
    rcases hx with rfl | hx
    · exact ih r (by simp [parts]) (h.part (by simp [parts]))
    · exact h2 x hx
  | Seq ts => exact printable_iff.2 (hl ts hf fun x hx => hx)
  | SetInt ts => exact printable_iff.2 (hl ts hf fun x hx => hx)
  | SetExt ts => exact printable_iff.2 (hl ts hf fun x hx => hx)
  | Conj ts => exact printable_iff.2 (hl ts hf fun x hx => hx)
  | Prod ts => exact printable_iff.2 (hl ts hf fun x hx => hx)
  | IntInt ts => exact printable_iff.2 (hl ts hf fun x hx => hx)
  | ExtInt ts => exact printable_iff.2 (hl ts hf fun x hx => hx)
  | Par ts => exact printable_iff.2 (hl ts hf fun x hx => hx)

/-- replacing a part of a printable term by a printable term -/
theorem printable_replace {repl w : Term} (hw : Printable w) (t : Term) : Printable t → Printable (replaceTerm t repl w) := by
  refine parts_ind (P := fun t => Printable t → Printable (replaceTerm t repl w)) (fun t ih h => ?_) t
  by_cases he : t = repl
  · rw [he, replaceTerm_self]; exact hw
  rw [replaceTerm_ne he]
  have hl : ∀ ts : List Term, ts ≠ [] → (∀ x ∈ ts, x ∈ parts t) →
      ts.map (replaceTerm · repl w) ≠ [] ∧ ∀ x ∈ ts.map (replaceTerm · repl w), Printable x := by
    intro ts hn hts
    refine ⟨by simpa using hn, fun x hx => ?_⟩
    obtain ⟨y, hy, rfl⟩ := List.mem_map.1 hx
    exact ih y (hts y hy) (h.part (hts y hy))
  have hf := (printable_iff.1 h).1
  cases t with
  | QVar n => exact h
  | DepVar n => exact h
  | IndepVar n => exact h
  | Name n => exact h
  | Stmt c s p =>
    exact printable_stmt.2 ⟨ih s (by simp [parts]) (h.part (by simp [parts])), ih p (by simp [parts]) (h.part (by simp [parts]))⟩
  | Neg t =>
    refine printable_iff.2 ⟨trivial, ?_⟩
    intro x hx
    simp only [parts, List.mem_singleton] at hx
    subst hx
    exact ih t (by simp [parts]) (h.part (by simp [parts]))
  | Img r i ts =>
    obtain ⟨h1, h2⟩ := hl ts hf (fun x hx => by simp [parts, hx])
    refine printable_iff.2 ⟨h1, ?_⟩
    intro x hx
    simp only [parts, List.mem_cons] at hx
    rcases hx with rfl | hx
    · exact h.part (by simp [parts])
    · exact h2 x hx
  | Seq ts => exact printable_iff.2 (hl ts hf fun x hx => hx)
  | SetInt ts => exact printable_iff.2 (hl ts hf fun x hx => hx)
  | SetExt ts => exact printable_iff.2 (hl ts hf fun x hx => hx)
  | Conj ts => exact printable_iff.2 (hl ts hf fun x hx => hx)
  | Prod ts => exact printable_iff.2 (hl ts hf fun x hx => hx)
  | IntInt ts => exact printable_iff.2 (hl ts hf fun x hx => hx)
  | ExtInt ts => exact printable_iff.2 (hl ts hf fun x hx => hx)
  | Par ts => exact printable_iff.2 (hl ts hf fun x hx => hx)

/-- the bindings of a match with a printable term, put into a printable term -/
theorem printable_subst {pat t u : Term} {a : List Asgnment} (h : unify pat t = some a) (ht : Printable t) (hu : Printable u) :
    Printable (unifySubst a u) := by
  rw [unifySubst_eq_inst]
  refine printable_inst (fun v hv => ?_) u hu
  by_cases hm : ∃ x ∈ a, x.var = v
  · obtain ⟨x, hx, -, e⟩ := substVar_mem v a hm
    show Printable (substVar v a)
    rw [e]
    obtain ⟨⟨⟨δ, e, hδ⟩, -⟩, -⟩ := unify2_sound pat t [] a h
    simp only [List.nil_append] at e
    subst e
    exact ht.sub (hδ x hx).2.2.2
  · show Printable (substVar v a)
    rw [substVar_not_mem v a (fun x hx e => hm ⟨x, hx, e⟩)]
    exact printable_var hv

end Nar
