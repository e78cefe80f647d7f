import Verif.Model.VarIntro
import Verif.Spec.VarIntro
import Verif.Lemmas.Unify
import Verif.Lemmas.Task
/-! # Lemmas about variable introduction -/
namespace Nar
open Term

theorem replaceTermL_eq (ts : List Term) (repl w : Term) : replaceTermL ts repl w = ts.map (replaceTerm · repl w) := by
  induction ts with
  | nil => rw [replaceTermL]; rfl
  | cons t ts ih => rw [replaceTermL, ih]; rfl

theorem countOccurenceL_eq (ts : List Term) (s : Term) : countOccurenceL ts s = (ts.map (countOccurence · s)).sum := by
  induction ts with
  | nil => rw [countOccurenceL]; rfl
  | cons t ts ih => rw [countOccurenceL, ih]; rfl

/-- how `replaceTerm` acts on a term different from the replaced one -/
theorem replaceTerm_ne {t repl w : Term} (h : t ≠ repl) : replaceTerm t repl w =
    match t with
    | Stmt c s p => Stmt c (replaceTerm s repl w) (replaceTerm p repl w)
    | Name n => Name n
    | .Seq ts => .Seq (ts.map (replaceTerm · repl w))
    | SetInt ts => SetInt (ts.map (replaceTerm · repl w))
    | SetExt ts => SetExt (ts.map (replaceTerm · repl w))
    | QVar n => QVar n
    | DepVar n => DepVar n
    | IndepVar n => IndepVar n
    | Conj ts => Conj (ts.map (replaceTerm · repl w))
    | .Prod ts => .Prod (ts.map (replaceTerm · repl w))
    | Img r i ts => Img r i (ts.map (replaceTerm · repl w))
    | IntInt ts => IntInt (ts.map (replaceTerm · repl w))
    | ExtInt ts => ExtInt (ts.map (replaceTerm · repl w))
    | Par ts => Par (ts.map (replaceTerm · repl w))
    | .Neg t => .Neg (replaceTerm t repl w) := by
  have : checkEqTerm t repl = false := by
    rw [Bool.eq_false_iff]; intro hc; exact h ((checkEqTerm_iff _ _).1 hc)
  cases t <;> (rw [replaceTerm]; simp only [this, replaceTermL_eq]; rfl)

theorem replaceTerm_self (repl w : Term) : replaceTerm repl repl w = w := by
  have : checkEqTerm repl repl = true := (checkEqTerm_iff _ _).2 rfl
  cases repl <;> (rw [replaceTerm]; rw [if_pos this])

theorem countOccurence_self (s : Term) : countOccurence s s = 1 := by
  have : checkEqTerm s s = true := (checkEqTerm_iff _ _).2 rfl
  cases s <;> (rw [countOccurence]; rw [if_pos this])

theorem countOccurence_ne {t s : Term} (h : t ≠ s) : countOccurence t s =
    match t with
    | Img _ _ ts => (ts.map (countOccurence · s)).sum
    | t => ((parts t).map (countOccurence · s)).sum := by
  have : checkEqTerm t s = false := by
    rw [Bool.eq_false_iff]; intro hc; exact h ((checkEqTerm_iff _ _).1 hc)
  cases t <;> (rw [countOccurence]; simp [this, countOccurenceL_eq, parts])

theorem inst_fresh {θ : Term → Term} {v : Term} (ho : ∀ x, x ≠ v → θ x = x) (t : Term) (h : ¬ IsSubterm v t) :
    inst θ t = t := by
  induction t using Term.ind with
  | stmt c s p hs hp =>
    rw [inst, hs (fun h' => h (.inside (by simp [parts]) h')), hp (fun h' => h (.inside (by simp [parts]) h'))]
  | name n => rw [inst]
  | qvar n => rw [inst]; exact ho _ (fun e => h (e ▸ .refl _))
  | depvar n => rw [inst]; exact ho _ (fun e => h (e ▸ .refl _))
  | indepvar n => rw [inst]; exact ho _ (fun e => h (e ▸ .refl _))
  | img r i ts hr hts =>
    rw [inst, instL_eq_map, hr (fun h' => h (.inside (by simp [parts]) h')),
      List.map_congr_left (fun x hx => hts x hx (fun h' => h (.inside (by simp [parts, hx]) h'))), List.map_id']
  | neg t ht => rw [inst, ht (fun h' => h (.inside (by simp [parts]) h'))]
  | seq ts hts | setInt ts hts | setExt ts hts | conj ts hts | prod ts hts
  | intInt ts hts | extInt ts hts | par ts hts =>
    rw [inst, instL_eq_map,
      List.map_congr_left (fun x hx => hts x hx (fun h' => h (.inside (by simp [parts, hx]) h'))), List.map_id']

/-- substituting the introduced variable gives the original back -/
theorem inst_replace {θ : Term → Term} {v repl : Term} (hvar : IsVar v) (hv : θ v = repl)
    (ho : ∀ x, x ≠ v → θ x = x) (t : Term) (h : ¬ IsSubterm v t) : inst θ (replaceTerm t repl v) = t := by
  have hself : inst θ v = repl := by
    cases v <;> simp only [IsVar] at hvar <;> (rw [inst]; exact hv)
  have key : ∀ (ts : List Term), (∀ x ∈ ts, ¬ IsSubterm v x → inst θ (replaceTerm x repl v) = x) →
      (∀ x ∈ ts, ¬ IsSubterm v x) → (ts.map (replaceTerm · repl v)).map (inst θ) = ts := by
    intro ts h1 h2
    rw [List.map_map]
    exact (List.map_congr_left (g := id) (fun x hx => h1 x hx (h2 x hx))).trans (List.map_id _)
  induction t using Term.ind with
  | stmt c s p hs hp =>
    by_cases he : Stmt c s p = repl
    · rw [he, replaceTerm_self, hself]
    · rw [replaceTerm_ne he, inst, hs (fun h' => h (.inside (by simp [parts]) h')),
        hp (fun h' => h (.inside (by simp [parts]) h'))]
  | name n =>
    by_cases he : Name n = repl
    · rw [he, replaceTerm_self, hself]
    · rw [replaceTerm_ne he, inst]
  | qvar n =>
    by_cases he : QVar n = repl
    · rw [he, replaceTerm_self, hself]
    · rw [replaceTerm_ne he]; exact inst_fresh ho _ h
  | depvar n =>
    by_cases he : DepVar n = repl
    · rw [he, replaceTerm_self, hself]
    · rw [replaceTerm_ne he]; exact inst_fresh ho _ h
  | indepvar n =>
    by_cases he : IndepVar n = repl
    · rw [he, replaceTerm_self, hself]
    · rw [replaceTerm_ne he]; exact inst_fresh ho _ h
  | img r i ts hr hts =>
    by_cases he : Img r i ts = repl
    · rw [he, replaceTerm_self, hself]
    · rw [replaceTerm_ne he, inst, instL_eq_map, inst_fresh ho r (fun h' => h (.inside (by simp [parts]) h')),
        key ts hts (fun x hx h' => h (.inside (by simp [parts, hx]) h'))]
  | neg t ht =>
    by_cases he : Term.Neg t = repl
    · rw [he, replaceTerm_self, hself]
    · rw [replaceTerm_ne he, inst, ht (fun h' => h (.inside (by simp [parts]) h'))]
  | seq ts hts =>
    by_cases he : Term.Seq ts = repl
    · rw [he, replaceTerm_self, hself]
    · rw [replaceTerm_ne he, inst, instL_eq_map, key ts hts (fun x hx h' => h (.inside (by simp [parts, hx]) h'))]
  | setInt ts hts =>
    by_cases he : SetInt ts = repl
    · rw [he, replaceTerm_self, hself]
    · rw [replaceTerm_ne he, inst, instL_eq_map, key ts hts (fun x hx h' => h (.inside (by simp [parts, hx]) h'))]
  | setExt ts hts =>
    by_cases he : SetExt ts = repl
    · rw [he, replaceTerm_self, hself]
    · rw [replaceTerm_ne he, inst, instL_eq_map, key ts hts (fun x hx h' => h (.inside (by simp [parts, hx]) h'))]
  | conj ts hts =>
    by_cases he : Conj ts = repl
    · rw [he, replaceTerm_self, hself]
    · rw [replaceTerm_ne he, inst, instL_eq_map, key ts hts (fun x hx h' => h (.inside (by simp [parts, hx]) h'))]
  | prod ts hts =>
    by_cases he : Term.Prod ts = repl
    · rw [he, replaceTerm_self, hself]
    · rw [replaceTerm_ne he, inst, instL_eq_map, key ts hts (fun x hx h' => h (.inside (by simp [parts, hx]) h'))]
  | intInt ts hts =>
    by_cases he : IntInt ts = repl
    · rw [he, replaceTerm_self, hself]
    · rw [replaceTerm_ne he, inst, instL_eq_map, key ts hts (fun x hx h' => h (.inside (by simp [parts, hx]) h'))]
  | extInt ts hts =>
    by_cases he : ExtInt ts = repl
    · rw [he, replaceTerm_self, hself]
    · rw [replaceTerm_ne he, inst, instL_eq_map, key ts hts (fun x hx h' => h (.inside (by simp [parts, hx]) h'))]
  | par ts hts =>
    by_cases he : Par ts = repl
    · rw [he, replaceTerm_self, hself]
    · rw [replaceTerm_ne he, inst, instL_eq_map, key ts hts (fun x hx h' => h (.inside (by simp [parts, hx]) h'))]

/-- every counted occurrence is replaced -/
theorem count_replace {s v repl : Term} (hs : ∀ t, ¬ IsSubterm v t → t ≠ repl → replaceTerm t repl v ≠ s)
    (t : Term) (h : ¬ IsSubterm v t) :
    countOccurence (replaceTerm t repl v) s = countOccurence t repl * countOccurence v s := by
  have key : ∀ (ts : List Term), (∀ x ∈ ts, ¬ IsSubterm v x → countOccurence (replaceTerm x repl v) s =
        countOccurence x repl * countOccurence v s) → (∀ x ∈ ts, ¬ IsSubterm v x) →
      ((ts.map (replaceTerm · repl v)).map (countOccurence · s)).sum =
        (ts.map (countOccurence · repl)).sum * countOccurence v s := by
    intro ts h1 h2
    induction ts with
    | nil => simp
    | cons a l ih =>
      have := h1 a (by simp) (h2 a (by simp))
      have := ih (fun x hx => h1 x (by simp [hx])) (fun x hx => h2 x (by simp [hx]))
      simp_all [Nat.add_mul]
  have hself : countOccurence (replaceTerm repl repl v) s = countOccurence repl repl * countOccurence v s := by
    rw [replaceTerm_self, countOccurence_self, Nat.one_mul]
  induction t using Term.ind with
  | stmt c a b ha hb =>
    by_cases he : Stmt c a b = repl
    · subst he; exact hself
    · have hx := hs _ h he
      rw [replaceTerm_ne he] at hx ⊢
      rw [countOccurence_ne hx, countOccurence_ne he]
      have := key [a, b] (by simpa using ⟨ha, hb⟩) (by
        intro x hx h'; exact h (.inside (by simpa [parts] using hx) h'))
      simpa [parts] using this
  | name n =>
    by_cases he : Name n = repl
    · subst he; exact hself
    · have hx := hs _ h he
      rw [replaceTerm_ne he] at hx ⊢
      rw [countOccurence_ne hx, countOccurence_ne he]; simp [parts]
  | qvar n =>
    by_cases he : QVar n = repl
    · subst he; exact hself
    · have hx := hs _ h he
      rw [replaceTerm_ne he] at hx ⊢
      rw [countOccurence_ne hx, countOccurence_ne he]; simp [parts]
  | depvar n =>
    by_cases he : DepVar n = repl
    · subst he; exact hself
    · have hx := hs _ h he
      rw [replaceTerm_ne he] at hx ⊢
      rw [countOccurence_ne hx, countOccurence_ne he]; simp [parts]
  | indepvar n =>
    by_cases he : IndepVar n = repl
    · subst he; exact hself
    · have hx := hs _ h he
      rw [replaceTerm_ne he] at hx ⊢
      rw [countOccurence_ne hx, countOccurence_ne he]; simp [parts]
  | img r i ts hr hts =>
    by_cases he : Img r i ts = repl
    · subst he; exact hself
    · have hx := hs _ h he
      rw [replaceTerm_ne he] at hx ⊢
      rw [countOccurence_ne hx, countOccurence_ne he]
      exact key ts hts (fun x hx h' => h (.inside (by simp [parts, hx]) h'))
  | neg a ha =>
    by_cases he : Term.Neg a = repl
    · subst he; exact hself
    · have hx := hs _ h he
      rw [replaceTerm_ne he] at hx ⊢
      rw [countOccurence_ne hx, countOccurence_ne he]
      have := key [a] (by simpa using ha) (by
        intro x hx h'; exact h (.inside (by simpa [parts] using hx) h'))
      simpa [parts] using this
  | seq ts hts =>
    by_cases he : Term.Seq ts = repl
    · subst he; exact hself
    · have hx := hs _ h he
      rw [replaceTerm_ne he] at hx ⊢
      rw [countOccurence_ne hx, countOccurence_ne he]
      exact key ts hts (fun x hx h' => h (.inside (by simp [parts, hx]) h'))
  | setInt ts hts =>
    by_cases he : SetInt ts = repl
    · subst he; exact hself
    · have hx := hs _ h he
      rw [replaceTerm_ne he] at hx ⊢
      rw [countOccurence_ne hx, countOccurence_ne he]
      exact key ts hts (fun x hx h' => h (.inside (by simp [parts, hx]) h'))
  | setExt ts hts =>
    by_cases he : SetExt ts = repl
    · subst he; exact hself
    · have hx := hs _ h he
      rw [replaceTerm_ne he] at hx ⊢
      rw [countOccurence_ne hx, countOccurence_ne he]
      exact key ts hts (fun x hx h' => h (.inside (by simp [parts, hx]) h'))
  | conj ts hts =>
    by_cases he : Conj ts = repl
    · subst he; exact hself
    · have hx := hs _ h he
      rw [replaceTerm_ne he] at hx ⊢
      rw [countOccurence_ne hx, countOccurence_ne he]
      exact key ts hts (fun x hx h' => h (.inside (by simp [parts, hx]) h'))
  | prod ts hts =>
    by_cases he : Term.Prod ts = repl
    · subst he; exact hself
    · have hx := hs _ h he
      rw [replaceTerm_ne he] at hx ⊢
      rw [countOccurence_ne hx, countOccurence_ne he]
      exact key ts hts (fun x hx h' => h (.inside (by simp [parts, hx]) h'))
  | intInt ts hts =>
    by_cases he : IntInt ts = repl
    · subst he; exact hself
    · have hx := hs _ h he
      rw [replaceTerm_ne he] at hx ⊢
      rw [countOccurence_ne hx, countOccurence_ne he]
      exact key ts hts (fun x hx h' => h (.inside (by simp [parts, hx]) h'))
  | extInt ts hts =>
    by_cases he : ExtInt ts = repl
    · subst he; exact hself
    · have hx := hs _ h he
      rw [replaceTerm_ne he] at hx ⊢
      rw [countOccurence_ne hx, countOccurence_ne he]
      exact key ts hts (fun x hx h' => h (.inside (by simp [parts, hx]) h'))
  | par ts hts =>
    by_cases he : Par ts = repl
    · subst he; exact hself
    · have hx := hs _ h he
      rw [replaceTerm_ne he] at hx ⊢
      rw [countOccurence_ne hx, countOccurence_ne he]
      exact key ts hts (fun x hx h' => h (.inside (by simp [parts, hx]) h'))

theorem replaceTerm_ne_var {v repl : Term} (hvar : IsVar v) (t : Term) (h : ¬ IsSubterm v t) (he : t ≠ repl) :
    replaceTerm t repl v ≠ v := by
  intro hc
  rw [replaceTerm_ne he] at hc
  cases t <;> simp only at hc <;> first | exact h (hc ▸ .refl _) | (rw [← hc] at hvar; simp [IsVar] at hvar)

theorem replaceTerm_ne_repl {v repl : Term} (hvar : IsVar v) (hf : ¬ IsSubterm v repl) (t : Term)
    (h : ¬ IsSubterm v t) (he : t ≠ repl) : replaceTerm t repl v ≠ repl := by
  intro hc
  classical
  have h1 := inst_replace (repl := repl) (θ := fun x => if x = v then repl else x) hvar (by simp) (fun x hx => by simp [hx]) t h
  rw [hc, inst_fresh (v := v) (θ := fun x => if x = v then repl else x) (fun x hx => by simp [hx]) repl hf] at h1
  exact he h1.symm

/-! ## occurrences -/

theorem occurrencesL_eq (ts : List Term) : occurrencesL ts = ts.flatMap occurrences := by
  induction ts with
  | nil => rw [occurrencesL]; rfl
  | cons t ts ih => rw [occurrencesL, ih]; rfl

theorem occurrences_sub {s t : Term} (h : s ∈ occurrences t) : IsSubterm s t := by
  induction t using Term.ind with
  | stmt c a b ha hb =>
    rw [occurrences, List.mem_cons, List.mem_append] at h
    rcases h with rfl | h | h
    · exact .refl _
    · exact .inside (by simp [parts]) (ha h)
    · exact .inside (by simp [parts]) (hb h)
  | name n => rw [occurrences, List.mem_singleton] at h; subst h; exact .refl _
  | qvar n => rw [occurrences, List.mem_singleton] at h; subst h; exact .refl _
  | depvar n => rw [occurrences, List.mem_singleton] at h; subst h; exact .refl _
  | indepvar n => rw [occurrences, List.mem_singleton] at h; subst h; exact .refl _
  | neg a ha =>
    rw [occurrences, List.mem_cons] at h
    rcases h with rfl | h
    · exact .refl _
    · exact .inside (by simp [parts]) (ha h)
  | img r i ts hr hts =>
    rw [occurrences, List.mem_cons, occurrencesL_eq, List.mem_flatMap] at h
    rcases h with rfl | ⟨x, hx, h⟩
    · exact .refl _
    · exact .inside (by simp [parts, hx]) (hts x hx h)
  | seq ts hts | setInt ts hts | setExt ts hts | conj ts hts | prod ts hts
  | intInt ts hts | extInt ts hts | par ts hts =>
    rw [occurrences, List.mem_cons, occurrencesL_eq, List.mem_flatMap] at h
    rcases h with rfl | ⟨x, hx, h⟩
    · exact .refl _
    · exact .inside (by simp [parts, hx]) (hts x hx h)

theorem sizeOf_le_of_mem {x : Term} {ts : List Term} (h : x ∈ ts) : sizeOf x < sizeOf ts := List.sizeOf_lt_of_mem h

theorem subterm_size {s t : Term} (h : IsSubterm s t) : sizeOf s ≤ sizeOf t := by
  induction h with
  | refl => exact Nat.le_refl _
  | @inside c t hc _ ih =>
    have : sizeOf c ≤ sizeOf t := by
      cases t <;> simp only [parts, List.mem_cons, List.not_mem_nil, or_false] at hc
      case Stmt => rcases hc with rfl | rfl <;> simp <;> omega
      case Img =>
        rcases hc with rfl | hc
        · simp; omega
        · have := List.sizeOf_lt_of_mem hc; simp; omega
      case Neg => subst hc; simp
      all_goals (have := List.sizeOf_lt_of_mem hc; simp; omega)
    omega

theorem count_eq_timesIn (t s : Term) : countOccurence t s = timesIn s t := by
  have key : ∀ (ts : List Term), (∀ x ∈ ts, countOccurence x s = timesIn s x) →
      (ts.map (countOccurence · s)).sum = (occurrencesL ts).count s := by
    intro ts h
    rw [occurrencesL_eq]
    induction ts with
    | nil => rfl
    | cons a l ih =>
      rw [List.map_cons, List.sum_cons, List.flatMap_cons, List.count_append, ih (fun x hx => h x (by simp [hx])),
        h a (by simp), timesIn]
  have big : ∀ (u : Term) (l : List Term), occurrences u = u :: l → (∀ x ∈ l, ∃ c ∈ parts u, IsSubterm x c) →
      countOccurence u u = (occurrences u).count u := by
    intro u l h1 h2
    rw [countOccurence_self, h1, List.count_cons_self]
    have : u ∉ l := by
      intro hu
      obtain ⟨c, hc, hs⟩ := h2 u hu
      have h3 := subterm_size hs
      have h4 : sizeOf c < sizeOf u := by
        cases u <;> simp only [parts, List.mem_cons, List.not_mem_nil, or_false] at hc
        case Stmt => rcases hc with rfl | rfl <;> simp <;> omega
        case Img =>
          rcases hc with rfl | hc
          · simp; omega
          · have := List.sizeOf_lt_of_mem hc; simp; omega
        case Neg => subst hc; simp
        all_goals (have := List.sizeOf_lt_of_mem hc; simp; omega)
      omega
    rw [List.count_eq_zero.2 this]
  have inL : ∀ (ts : List Term) (x : Term), x ∈ occurrencesL ts → ∃ c ∈ ts, IsSubterm x c := by
    intro ts x hx
    rw [occurrencesL_eq, List.mem_flatMap] at hx
    obtain ⟨c, hc, h⟩ := hx
    exact ⟨c, hc, occurrences_sub h⟩
  induction t using Term.ind with
  | stmt c a b ha hb =>
    by_cases he : Stmt c a b = s
    · subst he
      refine big _ _ (by rw [occurrences]) ?_
      intro x hx
      rw [List.mem_append] at hx
      rcases hx with h | h
      · exact ⟨a, by simp [parts], occurrences_sub h⟩
      · exact ⟨b, by simp [parts], occurrences_sub h⟩
    · rw [countOccurence_ne he, timesIn, occurrences, List.count_cons_of_ne he, List.count_append]
      simp only [parts, List.map_cons, List.map_nil, List.sum_cons, List.sum_nil, ha, hb, timesIn]
      omega
  | name n =>
    by_cases he : Name n = s
    · subst he; exact big _ [] (by rw [occurrences]) (by simp)
    · rw [countOccurence_ne he, timesIn, occurrences, List.count_cons_of_ne he]; rfl
  | qvar n =>
    by_cases he : QVar n = s
    · subst he; exact big _ [] (by rw [occurrences]) (by simp)
    · rw [countOccurence_ne he, timesIn, occurrences, List.count_cons_of_ne he]; rfl
  | depvar n =>
    by_cases he : DepVar n = s
    · subst he; exact big _ [] (by rw [occurrences]) (by simp)
    · rw [countOccurence_ne he, timesIn, occurrences, List.count_cons_of_ne he]; rfl
  | indepvar n =>
    by_cases he : IndepVar n = s
    · subst he; exact big _ [] (by rw [occurrences]) (by simp)
    · rw [countOccurence_ne he, timesIn, occurrences, List.count_cons_of_ne he]; rfl
  | neg a ha =>
    by_cases he : Term.Neg a = s
    · subst he
      exact big _ _ (by rw [occurrences]) (fun x hx => ⟨a, by simp [parts], occurrences_sub hx⟩)
    · rw [countOccurence_ne he, timesIn, occurrences, List.count_cons_of_ne he]
      simp only [parts, List.map_cons, List.map_nil, List.sum_cons, List.sum_nil, ha, timesIn]
      omega
  | img r i ts hr hts =>
    by_cases he : Img r i ts = s
    · subst he
      refine big _ _ (by rw [occurrences]) (fun x hx => ?_)
      obtain ⟨c, hc, h⟩ := inL ts x hx
      exact ⟨c, by simp [parts, hc], h⟩
    · rw [countOccurence_ne he, timesIn, occurrences, List.count_cons_of_ne he]
      exact key ts hts
  | seq ts hts =>
    by_cases he : Term.Seq ts = s
    · subst he
      refine big _ _ (by rw [occurrences]) (fun x hx => ?_)
      obtain ⟨c, hc, h⟩ := inL ts x hx
      exact ⟨c, by simp [parts, hc], h⟩
    · rw [countOccurence_ne he, timesIn, occurrences, List.count_cons_of_ne he]
      exact key ts hts
  | setInt ts hts =>
    by_cases he : SetInt ts = s
    · subst he
      refine big _ _ (by rw [occurrences]) (fun x hx => ?_)
      obtain ⟨c, hc, h⟩ := inL ts x hx
      exact ⟨c, by simp [parts, hc], h⟩
    · rw [countOccurence_ne he, timesIn, occurrences, List.count_cons_of_ne he]
      exact key ts hts
  | setExt ts hts =>
    by_cases he : SetExt ts = s
    · subst he
      refine big _ _ (by rw [occurrences]) (fun x hx => ?_)
      obtain ⟨c, hc, h⟩ := inL ts x hx
      exact ⟨c, by simp [parts, hc], h⟩
    · rw [countOccurence_ne he, timesIn, occurrences, List.count_cons_of_ne he]
      exact key ts hts
  | conj ts hts =>
    by_cases he : Conj ts = s
    · subst he
      refine big _ _ (by rw [occurrences]) (fun x hx => ?_)
      obtain ⟨c, hc, h⟩ := inL ts x hx
      exact ⟨c, by simp [parts, hc], h⟩
    · rw [countOccurence_ne he, timesIn, occurrences, List.count_cons_of_ne he]
      exact key ts hts
  | prod ts hts =>
    by_cases he : Term.Prod ts = s
    · subst he
      refine big _ _ (by rw [occurrences]) (fun x hx => ?_)
      obtain ⟨c, hc, h⟩ := inL ts x hx
      exact ⟨c, by simp [parts, hc], h⟩
    · rw [countOccurence_ne he, timesIn, occurrences, List.count_cons_of_ne he]
      exact key ts hts
  | intInt ts hts =>
    by_cases he : IntInt ts = s
    · subst he
      refine big _ _ (by rw [occurrences]) (fun x hx => ?_)
      obtain ⟨c, hc, h⟩ := inL ts x hx
      exact ⟨c, by simp [parts, hc], h⟩
    · rw [countOccurence_ne he, timesIn, occurrences, List.count_cons_of_ne he]
      exact key ts hts
  | extInt ts hts =>
    by_cases he : ExtInt ts = s
    · subst he
      refine big _ _ (by rw [occurrences]) (fun x hx => ?_)
      obtain ⟨c, hc, h⟩ := inL ts x hx
      exact ⟨c, by simp [parts, hc], h⟩
    · rw [countOccurence_ne he, timesIn, occurrences, List.count_cons_of_ne he]
      exact key ts hts
  | par ts hts =>
    by_cases he : Par ts = s
    · subst he
      refine big _ _ (by rw [occurrences]) (fun x hx => ?_)
      obtain ⟨c, hc, h⟩ := inL ts x hx
      exact ⟨c, by simp [parts, hc], h⟩
    · rw [countOccurence_ne he, timesIn, occurrences, List.count_cons_of_ne he]
      exact key ts hts

/-! ## variable names -/

theorem introVars_ok {t x t' : Term} {rng rng' : List Nat} (h : introVars t x rng = .ok ([t'], rng')) :
    2 ≤ timesIn x t ∧ ∃ w, createRandomVarname rng = .ok (w, rng') ∧ t' = replaceTerm t x w := by
  unfold introVars at h
  rw [count_eq_timesIn] at h
  split at h
  · cases h
  · rename_i h2
    obtain ⟨⟨w, rng1⟩, hw, h⟩ := R.bind_ok.1 h
    obtain ⟨h3, h4⟩ := Prod.mk.inj (Except.ok.inj h)
    cases h3
    subst h4
    exact ⟨by omega, w, hw, rfl⟩


theorem genRange_draw (d : Nat) (rest : List Nat) (n : Nat) (h : d < n) : genRange (d :: rest) n = .ok (d, rest) := by
  unfold genRange
  rw [if_neg (by omega)]
  simp [Nat.mod_eq_of_lt h]

theorem varNameLoop_ok (draws rest : List Nat) (h : ∀ d ∈ draws, d < 15) :
    ∃ cs, varNameLoop draws.length (draws ++ rest) = .ok (cs, rest) ∧
      List.Forall₂ (fun d c => varAlphabet[d]? = some c) draws cs := by
  induction draws with
  | nil => exact ⟨[], rfl, .nil⟩
  | cons d ds ih =>
    obtain ⟨cs, h1, h2⟩ := ih (fun x hx => h x (by simp [hx]))
    have hd := h d (by simp)
    obtain ⟨c, hc⟩ : ∃ c, varAlphabet[d]? = some c := ⟨_, List.getElem?_eq_getElem (by simpa [varAlphabet] using hd)⟩
    refine ⟨c :: cs, ?_, .cons hc h2⟩
    simp only [List.length_cons, List.cons_append, varNameLoop, genRange_draw d _ 16 (by omega), bind, Except.bind, hc,
      unwrap, h1]

theorem varNameLoop_crash (draws rest : List Nat) (hd : ∀ d ∈ draws, d < 16) (h : 15 ∈ draws) :
    varNameLoop draws.length (draws ++ rest) = .error .unwrapNone := by
  induction draws with
  | nil => simp at h
  | cons d ds ih =>
    have hd' := hd d (by simp)
    simp only [List.length_cons, List.cons_append, varNameLoop, genRange_draw d _ 16 hd', bind, Except.bind]
    by_cases h15 : d = 15
    · subst h15; rfl
    · have hc : varAlphabet[d]? = some (varAlphabet[d]'(by simp [varAlphabet]; omega)) :=
        List.getElem?_eq_getElem _
      rw [hc]
      simp only [unwrap]
      rw [ih (fun x hx => hd x (by simp [hx])) (by simpa [Ne.symm h15] using h)]

theorem varAlphabet_nodup : varAlphabet.Nodup := by decide

theorem forall₂_alphabet_inj {ds es : List Nat} {cs : List Char}
    (h1 : List.Forall₂ (fun d c => varAlphabet[d]? = some c) ds cs)
    (h2 : List.Forall₂ (fun d c => varAlphabet[d]? = some c) es cs) : ds = es := by
  induction h1 generalizing es with
  | nil => cases h2; rfl
  | cons hd _ ih =>
    cases h2 with
    | cons he h2 =>
      rw [ih h2]
      congr 1
      have a := List.getElem?_eq_some_iff.1 hd
      have b := List.getElem?_eq_some_iff.1 he
      obtain ⟨la, ha⟩ := a
      obtain ⟨lb, hb⟩ := b
      exact (List.Nodup.getElem_inj_iff varAlphabet_nodup).1 (ha.trans hb.symm)

end Nar
