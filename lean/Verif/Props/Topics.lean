import Verif.Lemmas.Topics
import Verif.Props.Meaning
/-! # The reasoner connects only what was connected by what it was told -/
namespace Nar.Props
open Nar Term

/-! ## C105 -/

/-- C105: nothing is made up: in every history every name and every variable which occurs in a sentence the reasoner holds
occurs in a statement it was told. -/
theorem C105_no_new_names (env : Env) (ops : List NarOp) (r : Reasoner) (h : runNar env ops = .ok r) (s : Sentence)
    (hs : Holds r s) (x : Term) (hx : IsAtom x) (ho : IsSubterm x s.term) : ∃ t, WasTold env ops t ∧ IsSubterm x t :=
  ((runNar_fromTold h).holds hs).2 x ⟨hx, ho⟩

/-- C105: the same for the answers given, except for those to questions about temporal rules. -/
theorem C105_no_new_names_in_answers (env : Env) (ops : List NarOp) (r : Reasoner) (h : runNar env ops = .ok r) (c : AnswerCall)
    (hc : c ∈ r.answers) (hnt : ¬ IsTemporal c.question) (x : Term) (hx : IsAtom x) (ho : IsSubterm x c.answer.term) :
    ∃ t, WasTold env ops t ∧ IsSubterm x t := by
  rcases (runNar_fromTold h).answers c hc with k | ⟨_, k, _⟩
  · exact k.2 x ⟨hx, ho⟩
  · exact absurd k hnt

/-- C105: topics do not mix: however the names are sorted into topics, if each fact and each general rule told stays within a
topic, so does each sentence the reasoner holds. -/
theorem C105_topics_do_not_mix_partial {α : Type} (topic : String → α) (env : Env) (ops : List NarOp) (r : Reasoner)
    (h : runNar env ops = .ok r) (hf : FactsAndRules env ops) (ht : ∀ t, WasTold env ops t → OneTopic topic t) (s : Sentence)
    (hs : Holds r s) : OneTopic topic s.term :=
  ((runNar_onTopic topic h hf ht).holds hs).2.2.2

/-- C105: the same for the answers given, except for those to questions about temporal rules. -/
theorem C105_answers_do_not_mix_partial {α : Type} (topic : String → α) (env : Env) (ops : List NarOp) (r : Reasoner)
    (h : runNar env ops = .ok r) (hf : FactsAndRules env ops) (ht : ∀ t, WasTold env ops t → OneTopic topic t) (c : AnswerCall)
    (hc : c ∈ r.answers) (hnt : ¬ IsTemporal c.question) : OneTopic topic c.answer.term := by
  rcases (runNar_onTopic topic h hf ht).answers c hc with k | ⟨_, k, _⟩
  · exact k.2.2.2
  · exact absurd k hnt

/-- C105: any two names which occur in a sentence the reasoner holds are connected by what it was told: there is a chain of
names from one to the other, each told together with the next. -/
theorem C105_connected_partial (env : Env) (ops : List NarOp) (r : Reasoner) (h : runNar env ops = .ok r)
    (hf : FactsAndRules env ops) (s : Sentence) (hs : Holds r s) (x y : String) (hx : Mentions s.term x) (hy : Mentions s.term y) :
    Connected env ops x y := by
  have symm : ∀ a b, ToldTogether env ops a b → ToldTogether env ops b a := fun a b ⟨t, h1, h2, h3⟩ => ⟨t, h1, h3, h2⟩
  have key := C105_topics_do_not_mix_partial (fun a => Quot.mk (ToldTogether env ops) a) env ops r h hf
    (fun t ht a b ha hb => Quot.sound ⟨t, ht, ha, hb⟩) s hs x y hx hy
  have gen := Quot.eqvGen_exact key
  clear key hx hy
  induction gen with
  | rel a b h => exact .single h
  | refl a => exact .refl
  | symm a b hab ih =>
    clear h hf hs hab
    induction ih with
    | refl => exact .refl
    | tail _ hbc ih => exact .head (symm _ _ hbc) ih
  | trans a b c _ _ ih1 ih2 => exact ih1.trans ih2

/-! ## a concrete history about two topics -/

/-- whoever has a key may enter -/
def keyRule : Term :=
  .Stmt .IMPL (.Stmt .INH (.IndepVar "x") (.Name "keyholder")) (.Stmt .INH (.IndepVar "x") (.Name "entrant"))

/-- tom has a key, who has a key may enter; whales are mammals, mammals are animals -/
def keysAndWhales : List (Term × Tv) :=
  [(isA "tom" "keyholder", ⟨1, 9/10⟩), (isA "whale" "mammal", ⟨1, 9/10⟩), (keyRule, ⟨1, 9/10⟩), (isA "mammal" "animal", ⟨1, 9/10⟩)]

theorem wasTold_history {env : Env} {sayings : List (Term × Tv)} {n : Nat} {t : Term} (h : WasTold env (history sayings n) t) :
    ∃ tv, (t, tv) ∈ sayings := by
  obtain ⟨pre, op, post, r, tv, he, _, ht⟩ := h
  exact ⟨tv, told_said (n := n) (show op ∈ history sayings n by rw [he]; simp) ht⟩

theorem isA_mentions {s p x : String} (h : Mentions (isA s p) x) : x = s ∨ x = p := by
  have h := (mem_retSubterms _ _).2 h
  simp only [isA, retSubterms, List.mem_append, List.mem_cons, List.not_mem_nil, or_false, reduceCtorEq, false_or,
    Term.Name.injEq] at h
  exact h

theorem keyRule_mentions {x : String} (h : Mentions keyRule x) : x = "keyholder" ∨ x = "entrant" := by
  have h := (mem_retSubterms _ _).2 h
  simp only [keyRule, retSubterms, List.mem_append, List.mem_cons, List.not_mem_nil, or_false, reduceCtorEq, false_or,
    Term.Name.injEq] at h
  exact h

theorem isA_fact (s p : String) : WellFormed (isA s p) ∧ FactOrRule (isA s p) := by
  refine ⟨wf_stmt.2 ⟨wf_iff.2 ⟨trivial, by simp [parts]⟩, wf_iff.2 ⟨trivial, by simp [parts]⟩⟩, .inl (ground_occ.2 ?_)⟩
  rintro v hv ⟨_, hs⟩
  have h := (mem_retSubterms _ _).2 hs
  simp only [isA, retSubterms, List.mem_append, List.mem_cons, List.not_mem_nil, or_false] at h
  rcases h with rfl | rfl | rfl <;> simp [IsVar] at hv

theorem keyRule_rule : WellFormed keyRule ∧ FactOrRule keyRule := by
  refine ⟨?_, .inr ⟨_, _, rfl, ?_, ?_⟩⟩
  · refine wf_stmt.2 ⟨wf_stmt.2 ⟨?_, ?_⟩, wf_stmt.2 ⟨?_, ?_⟩⟩ <;> exact wf_iff.2 ⟨trivial, by simp [parts]⟩
  · intro c hc
    simp only [conditionsOf, List.mem_singleton] at hc
    subst hc
    exact ⟨_, _, _, rfl, .inl rfl, "keyholder", (mem_retSubterms _ _).1 (by decide)⟩
  · intro v hv hs
    have h := (mem_retSubterms _ _).2 hs
    simp only [retSubterms, List.mem_append, List.mem_cons, List.not_mem_nil, or_false] at h
    rcases h with rfl | rfl | rfl
    · simp [IsVar] at hv
    · exact (mem_retSubterms _ _).1 (by decide)
    · simp [IsVar] at hv

/-- the people, and the sea animals -/
def aboutWhales (x : String) : Bool := x = "whale" ∨ x = "mammal" ∨ x = "animal"

theorem keysAndWhales_facts (n : Nat) : FactsAndRules env0 (history keysAndWhales n) := by
  intro t ht
  obtain ⟨tv, hm⟩ := wasTold_history ht
  simp only [keysAndWhales, List.mem_cons, List.not_mem_nil, or_false, Prod.mk.injEq] at hm
  rcases hm with ⟨rfl, _⟩ | ⟨rfl, _⟩ | ⟨rfl, _⟩ | ⟨rfl, _⟩
  · exact isA_fact _ _
  · exact isA_fact _ _
  · exact keyRule_rule
  · exact isA_fact _ _

/-- Tom is never brought together with whales, although the reasoner concludes that tom may enter. -/
example : ∃ r, runNar env0 (history keysAndWhales 4) = .ok r ∧ (∃ s, Holds r s ∧ s.term = isA "tom" "entrant") ∧
    ∀ s, Holds r s → ¬ (Mentions s.term "tom" ∧ Mentions s.term "whale") := by
  obtain ⟨r, s, hr, hs, e, _, _⟩ := holds_of_run (ops := history keysAndWhales 4) (t := isA "tom" "entrant") (tv := ⟨1, 81/100⟩)
    (n := 2) (by decide +kernel)
  refine ⟨r, hr, ⟨s, hs, e⟩, ?_⟩
  · rintro s hs ⟨h1, h2⟩
    have key := C105_topics_do_not_mix_partial aboutWhales env0 _ r hr (keysAndWhales_facts 4) ?_ s hs _ _ h1 h2
    · simp [aboutWhales] at key
    · intro t ht x y hx hy
      obtain ⟨tv, hm⟩ := wasTold_history ht
      simp only [keysAndWhales, List.mem_cons, List.not_mem_nil, or_false, Prod.mk.injEq] at hm
      rcases hm with ⟨rfl, _⟩ | ⟨rfl, _⟩ | ⟨rfl, _⟩ | ⟨rfl, _⟩
      · rcases isA_mentions hx with rfl | rfl <;> rcases isA_mentions hy with rfl | rfl <;> decide
      · rcases isA_mentions hx with rfl | rfl <;> rcases isA_mentions hy with rfl | rfl <;> decide
      · rcases keyRule_mentions hx with rfl | rfl <;> rcases keyRule_mentions hy with rfl | rfl <;> decide
      · rcases isA_mentions hx with rfl | rfl <;> rcases isA_mentions hy with rfl | rfl <;> decide

/-! ## what is missing -/

/-- C105, violation: a variable which two statements have in common is taken for a common thing, although the statements say
nothing about a common thing.  Told that something is a cat and that something is a ship, the reasoner believes that cats are
similar to ships. -/
theorem C105_variables_mix : ∃ (topic : String → Bool) (ops : List NarOp) (r : Reasoner) (s : Sentence),
    runNar env0 ops = .ok r ∧ (∀ t, WasTold env0 ops t → WellFormed t ∧ OneTopic topic t) ∧ Holds r s ∧ ¬ OneTopic topic s.term := by
  obtain ⟨r, s, hr, hs, e, _, _⟩ := holds_of_run (ops := history
      [(.Stmt .INH (.DepVar "x") (.Name "cat"), ⟨1, 9/10⟩), (.Stmt .INH (.DepVar "x") (.Name "ship"), ⟨1, 9/10⟩)] 2)
    (t := .Stmt .SIM (.Name "cat") (.Name "ship")) (tv := ⟨1, 81/181⟩) (n := 2) (by decide +kernel)
  refine ⟨fun x => x = "cat", _, r, s, hr, ?_, hs, ?_⟩
  · have m : ∀ p z, Mentions (.Stmt .INH (.DepVar "x") (.Name p)) z → z = p := by
      intro p z hz
      have h := (mem_retSubterms _ _).2 hz
      simp only [retSubterms, List.mem_append, List.mem_cons, List.not_mem_nil, or_false, reduceCtorEq, false_or,
        Term.Name.injEq] at h
      exact h
    have w : ∀ p, WellFormed (.Stmt .INH (.DepVar "x") (.Name p)) := by
      intro p
      refine wf_stmt.2 ⟨?_, ?_⟩ <;> exact wf_iff.2 ⟨trivial, by simp [parts]⟩
    intro t ht
    obtain ⟨tv, hm⟩ := wasTold_history ht
    simp only [List.mem_cons, List.not_mem_nil, or_false, Prod.mk.injEq] at hm
    rcases hm with ⟨rfl, _⟩ | ⟨rfl, _⟩
    · exact ⟨w _, fun x y hx hy => by rw [m _ x hx, m _ y hy]⟩
    · exact ⟨w _, fun x y hx hy => by rw [m _ x hx, m _ y hy]⟩
  · intro h
    rw [e] at h
    have := h "cat" "ship" ((mem_retSubterms _ _).1 (by decide)) ((mem_retSubterms _ _).1 (by decide))
    simp at this

end Nar.Props
