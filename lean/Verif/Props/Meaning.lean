import Verif.Lemmas.Meaning2
import Verif.Props.Nar
/-! # What the reasoner believes confidently is so -/
namespace Nar.Props
open Nar Term

/-! ## C102 -/

/-- C102: what follows from two judgements which fit the world, with confidence above one half, fits the world too, whatever
the world is.  (Conclusions by guessing, that is abduction, induction and comparison, have at most that confidence.) -/
theorem C102_two_premises_partial {D T : Type} [Preorder T] (M : World D T) (p s c : Sentence) (w : Rat) (tp ts tc : Tv)
    (hp : p.punct = .JUGEMENT) (hs : s.punct = .JUGEMENT) (hpu : OnlyUniversal p.term) (hsu : OnlyUniversal s.term)
    (htp : HasTruth p tp) (hts : HasTruth s ts) (sp : Tv.Sane tp) (ss : Tv.Sane ts)
    (fp : Fits M p.term tp) (fs : Fits M s.term ts) (h : Follows p s c w) (htc : HasTruth c tc) (hc : 1 / 2 < tc.c) :
    Fits M c.term tc := by
  obtain ⟨cs, w', h, hm⟩ := h
  obtain ⟨ta, tb, rs, h1, h2, hbin, rfl⟩ := inference_ok h
  unfold HasTruth at htp hts htc
  rw [htp] at h1; cases h1
  rw [hts] at h2; cases h2
  split at hm
  · simp at hm
  · obtain ⟨⟨t, tv, q⟩, hr, e⟩ := List.mem_map.1 hm
    cases e
    have : tv = tc := by
      simp only [conclSentence, retTv, Except.ok.injEq, Option.some.injEq] at htc
      exact htc
    subst this
    rw [hp, hs] at hbin
    have fin : Tenable M t tv (1 + 1) → Fits M t tv := by
      rintro (h | h)
      · exact h
      · unfold Weak at h; push_cast at h; linarith
    rcases ((infBinary_ok hbin).1 _).1 hr with hk | hk
    · obtain ⟨rfl, hrule⟩ := (binaryRules_iff t tv q).1 hk
      exact fin (rule2_tenable M hrule hpu hsu sp ss one_pos one_pos (.inl ⟨.inl fp, .inl fs⟩))
    · obtain ⟨rfl, hrule⟩ := (binaryRules_iff t tv q).1 hk
      exact fin (rule2_tenable M hrule hsu hpu sp ss one_pos one_pos (.inr ⟨.inl fs, .inl fp⟩))

/-- C102: what follows from a single judgement about usual terms fits every world which the premise fits. -/
theorem C102_one_premise_partial {D T : Type} [LT T] (M : World D T) (p c : Sentence) (w : Rat) (tp tc : Tv)
    (hpu : Usual p.term) (htp : HasTruth p tp) (fp : Fits M p.term tp) (h : FollowsAlone p c w) (htc : HasTruth c tc) :
    Fits M c.term tc := by
  obtain ⟨cs, h, hm⟩ := h
  obtain ⟨ta, rs, h1, hs, rfl⟩ := infSinglePremise2_ok h
  unfold HasTruth at htp htc
  rw [htp] at h1; cases h1
  obtain ⟨⟨t, tv, q, v⟩, hr, e⟩ := List.mem_map.1 hm
  cases e
  obtain ⟨ta', e, _, rfl, hrule⟩ := infSinglePremise_rule hs hr
  cases e
  have : tv = tc := by
    simp only [conclSentence, retTv, Except.ok.injEq, Option.some.injEq] at htc
    exact htc
  subst this
  exact rule1_meaning hrule hpu M fp

/-- C102: in every history, in every world which everything told so far fits, every belief resting on `n` observations which
has more confidence than `n / (n + 2)` fits the world too: what is believed that confidently follows logically from what was
told.  (Provided no trail of evidence was cut at its greatest length, 120.) -/
theorem C102_beliefs_fit_partial {D T : Type} [Preorder T] (M : World D T) (env : Env) (ops : List NarOp) (r : Reasoner)
    (h : runNar env ops = .ok r) (hu : UsualTelling env ops) (ht : TruthfulTelling M env ops) (s : Sentence) (tv : Tv)
    (hs : Holds r s) (htv : HasTruth s tv) (hn : s.stamp.ids.length < 120)
    (hc : (s.stamp.ids.length : Rat) / (s.stamp.ids.length + 2) < tv.c) : Fits M s.term tv :=
  trusty_fits ((runNar_trusty M h hu ht).holds hs) htv hn hc

/-- C102: the same for the answers given, except for those to questions about temporal rules. -/
theorem C102_answers_fit_partial {D T : Type} [Preorder T] (M : World D T) (env : Env) (ops : List NarOp) (r : Reasoner)
    (h : runNar env ops = .ok r) (hu : UsualTelling env ops) (ht : TruthfulTelling M env ops) (c : AnswerCall) (tv : Tv)
    (hq : c ∈ r.answers) (hnt : ¬ IsTemporal c.question) (htv : HasTruth c.answer tv) (hn : c.answer.stamp.ids.length < 120)
    (hc : (c.answer.stamp.ids.length : Rat) / (c.answer.stamp.ids.length + 2) < tv.c) : Fits M c.answer.term tv := by
  rcases (runNar_trusty M h hu ht).answers c hq with k | ⟨_, k, _⟩
  · exact trusty_fits k htv hn hc
  · exact absurd k hnt

/-- C102: no contradiction: if there is a world at all which everything told fits, no statement is believed that confidently
to be always so and to be never so. -/
theorem C102_no_contradiction_partial {D T : Type} [Preorder T] (M : World D T) (env : Env) (ops : List NarOp) (r : Reasoner)
    (h : runNar env ops = .ok r) (hu : UsualTelling env ops) (ht : TruthfulTelling M env ops) (s s' : Sentence) (tv tv' : Tv)
    (hs : Holds r s) (hs' : Holds r s') (hsame : s.term = s'.term) (htv : HasTruth s tv) (htv' : HasTruth s' tv')
    (hn : s.stamp.ids.length < 120) (hn' : s'.stamp.ids.length < 120)
    (hc : (s.stamp.ids.length : Rat) / (s.stamp.ids.length + 2) < tv.c)
    (hc' : (s'.stamp.ids.length : Rat) / (s'.stamp.ids.length + 2) < tv'.c) : ¬ (tv.f = 1 ∧ tv'.f = 0) := by
  rintro ⟨h1, h0⟩
  have k1 := (C102_beliefs_fit_partial M env ops r h hu ht s tv hs htv hn hc).1 h1
  have k0 := (C102_beliefs_fit_partial M env ops r h hu ht s' tv' hs' htv' hn' hc').2 h0
  rw [hsame] at k1
  let v : Term → Meaning D T := fun _ => ⟨∅, False, fun _ => False⟩
  exact k0 v (k1 v)

/-! ## concrete worlds and histories -/

/-- a world of numbers in which the names cover the given numbers, tuples are told apart by their length only -/
def world (f : String → Set Nat) : World Nat Nat where
  name n := ⟨f n, False, fun _ => False⟩
  tuple xs := xs.length
  property := id
  property_inj := Function.injective_id
  individual := id
  individual_inj := Function.injective_id
  other _ _ _ := ⟨∅, False, fun _ => False⟩

/-- tell a statement -/
def say (t : Term) (tv : Tv) : NarOp := .tell t .JUGEMENT tv false []

/-- `<s --> p>` for names -/
def isA (s p : String) : Term := .Stmt .INH (.Name s) (.Name p)

theorem told_said {env : Env} {r : Reasoner} {op : NarOp} {term : Term} {tv : Tv} {sayings : List (Term × Tv)} {n : Nat}
    (h : op ∈ sayings.map (fun x => say x.1 x.2) ++ .cycle 0 :: List.replicate n .declWork) (ht : Told env r op term tv) :
    (term, tv) ∈ sayings := by
  rcases List.mem_append.1 h with h | h
  · obtain ⟨⟨t, v⟩, hm, rfl⟩ := List.mem_map.1 h
    obtain ⟨_, _, rfl, rfl, _⟩ := ht
    exact hm
  · rcases List.mem_cons.1 h with rfl | h
    · exact ht.elim
    · rw [(List.mem_replicate.1 h).2] at ht
      exact ht.elim

/-- say something, think once, let the worker work -/
def history (sayings : List (Term × Tv)) (n : Nat) : List NarOp :=
  sayings.map (fun x => say x.1 x.2) ++ .cycle 0 :: List.replicate n .declWork

theorem history_truthful {env : Env} {M : World Nat Nat} {sayings : List (Term × Tv)} {n : Nat}
    (h : ∀ x ∈ sayings, Fits M x.1 x.2) : TruthfulTelling M env (history sayings n) := by
  intro pre op post r term tv he _ ht
  exact h _ (told_said (n := n) (show op ∈ history sayings n by rw [he]; simp) ht)

theorem history_usual {env : Env} {sayings : List (Term × Tv)} {n : Nat}
    (h : ∀ x ∈ sayings, Usual x.1 ∧ Tv.Sane x.2) : UsualTelling env (history sayings n) := by
  intro pre op post r term tv he _ ht
  exact h _ (told_said (n := n) (show op ∈ history sayings n by rw [he]; simp) ht)

/-- the truth value of a sentence which has one -/
def tvOf (s : Sentence) : Option Tv :=
  match s.evi with
  | some (.TV tv) => some tv
  | _ => none

theorem tvOf_truth {s : Sentence} {tv : Tv} (h : tvOf s = some tv) : HasTruth s tv := by
  unfold tvOf at h
  split at h
  · rename_i e
    cases h
    unfold HasTruth retTv; rw [e]
  · cases h

/-- some sentence held has the term, truth value and number of observations -/
def holdsOne (r : Reasoner) (t : Term) (tv : Tv) (n : Nat) : Bool :=
  r.sh.heap.any (fun x => decide (x.sentence.term = t ∧ tvOf x.sentence = some tv ∧ x.sentence.stamp.ids.length = n))

theorem holds_of_run {ops : List NarOp} {t : Term} {tv : Tv} {n : Nat}
    (h : (runNar env0 ops).map (fun r => holdsOne r t tv n) = .ok true) :
    ∃ r s, runNar env0 ops = .ok r ∧ Holds r s ∧ s.term = t ∧ HasTruth s tv ∧ s.stamp.ids.length = n := by
  obtain ⟨r, hr, h⟩ := R.map_ok.1 h
  obtain ⟨x, hx, h⟩ := List.any_eq_true.1 h
  have h := of_decide_eq_true h
  exact ⟨r, x.sentence, hr, .inl ⟨x, hx, rfl⟩, h.1, tvOf_truth h.2.1, h.2.2⟩

theorem fits_true {M : World Nat Nat} {t : Term} {c : Rat} (h : TrueIn M t) : Fits M t ⟨1, c⟩ :=
  ⟨fun _ => h, fun h0 => absurd h0 (by simp)⟩

theorem fits_false {M : World Nat Nat} {t : Term} {c : Rat} (h : FalseIn M t) : Fits M t ⟨0, c⟩ :=
  ⟨fun h0 => absurd h0 (by simp), fun _ => h⟩

theorem isA_true {f : String → Set Nat} {s p : String} (h : f s ⊆ f p) : TrueIn (world f) (isA s p) :=
  trueIn_of _ (fun _ => h)

theorem isA_false {f : String → Set Nat} {s p : String} (h : ¬ f s ⊆ f p) : FalseIn (world f) (isA s p) :=
  falseIn_of _ (fun _ => h)

theorem isA_usual (s p : String) : Usual (isA s p) :=
  usual_stmt.2 ⟨usual_iff.2 ⟨trivial, by simp [parts]⟩, usual_iff.2 ⟨trivial, by simp [parts]⟩⟩

/-- tom is a cat, cats are pets -/
def tomCat : List (Term × Tv) := [(isA "tom" "cat", ⟨1, 9/10⟩), (isA "cat" "pet", ⟨1, 9/10⟩)]

/-- that tom is a pet is concluded with confidence 0.81 from two observations; so it is true in every world in which tom is a
cat and cats are pets -/
example (f : String → Set Nat) (h1 : f "tom" ⊆ f "cat") (h2 : f "cat" ⊆ f "pet") :
    ∃ r s, runNar env0 (history tomCat 2) = .ok r ∧ Holds r s ∧ s.term = isA "tom" "pet" ∧ TrueIn (world f) s.term := by
  obtain ⟨r, s, hr, hs, e, htv, hl⟩ := holds_of_run (ops := history tomCat 2) (t := isA "tom" "pet") (tv := ⟨1, 81/100⟩) (n := 2)
    (by decide +kernel)
  refine ⟨r, s, hr, hs, e, ?_⟩
  refine (C102_beliefs_fit_partial (world f) env0 _ r hr (history_usual ?_) (history_truthful ?_) s _ hs htv ?_ ?_).1 rfl
  · intro x hx
    simp only [tomCat, List.mem_cons, List.not_mem_nil, or_false] at hx
    rcases hx with rfl | rfl
    · exact ⟨isA_usual _ _, by decide +kernel⟩
    · exact ⟨isA_usual _ _, by decide +kernel⟩
  · intro x hx
    simp only [tomCat, List.mem_cons, List.not_mem_nil, or_false] at hx
    rcases hx with rfl | rfl
    · exact fits_true (isA_true h1)
    · exact fits_true (isA_true h2)
  · rw [hl]; omega
  · rw [hl]; norm_num

/-- so no history in which just that is told leads to the confident belief that tom is no pet -/
example (r : Reasoner) (s : Sentence) (tv : Tv) (hr : runNar env0 (history tomCat 2) = .ok r) (hs : Holds r s)
    (e : s.term = isA "tom" "pet") (htv : HasTruth s tv) (hl : s.stamp.ids.length = 2) (hc : 1/2 < tv.c) : tv.f ≠ 0 := by
  obtain ⟨r', s', hr', hs', e', htv', hl'⟩ := holds_of_run (ops := history tomCat 2) (t := isA "tom" "pet") (tv := ⟨1, 81/100⟩) (n := 2)
    (by decide +kernel)
  rw [hr] at hr'; cases hr'
  intro h0
  refine C102_no_contradiction_partial (world (fun _ => ∅)) env0 _ r hr (history_usual ?_) (history_truthful ?_) s' s _ tv hs' hs
    (e'.trans e.symm) htv' htv (by omega) (by omega) (by rw [hl']; norm_num) (by rw [hl]; norm_num; linarith) ⟨rfl, h0⟩
  · intro x hx
    simp only [tomCat, List.mem_cons, List.not_mem_nil, or_false] at hx
    rcases hx with rfl | rfl
    · exact ⟨isA_usual _ _, by decide +kernel⟩
    · exact ⟨isA_usual _ _, by decide +kernel⟩
  · intro x hx
    simp only [tomCat, List.mem_cons, List.not_mem_nil, or_false] at hx
    rcases hx with rfl | rfl <;> exact fits_true (isA_true le_rfl)

/-- the premises of a conclusion about an instance: whoever has a key may enter; tom has a key -/
def mayEnter : Sentence × Sentence :=
  (newEternalSentenceByTv (.Stmt .IMPL (.Stmt .INH (.IndepVar "x") (.Name "keyholder")) (.Stmt .INH (.IndepVar "x") (.Name "entrant")))
     .JUGEMENT ⟨1, 9/10⟩ ⟨[0]⟩,
   newEternalSentenceByTv (isA "tom" "keyholder") .JUGEMENT ⟨1, 9/10⟩ ⟨[1]⟩)

/-- so tom may enter, in every world which the premises fit -/
example : ∃ c w, Follows mayEnter.1 mayEnter.2 c w ∧ c.term = isA "tom" "entrant" ∧ HasTruth c ⟨1, 81/100⟩ ∧
    ∀ M : World Nat Nat, Fits M mayEnter.1.term ⟨1, 9/10⟩ → Fits M mayEnter.2.term ⟨1, 9/10⟩ → TrueIn M c.term := by
  have h : (inference mayEnter.1 mayEnter.2).map (fun x => x.1.any (fun y =>
      decide (y.1.term = isA "tom" "entrant" ∧ tvOf y.1 = some ⟨1, 81/100⟩))) = .ok true := by decide +kernel
  obtain ⟨⟨cs, b⟩, hi, h⟩ := R.map_ok.1 h
  obtain ⟨⟨c, w⟩, hm, h⟩ := List.any_eq_true.1 h
  have h := of_decide_eq_true h
  refine ⟨c, w, ⟨cs, b, hi, hm⟩, h.1, tvOf_truth h.2, fun M h1 h2 => ?_⟩
  have hu : Usual mayEnter.1.term := by
    refine usual_stmt.2 ⟨usual_stmt.2 ⟨?_, ?_⟩, usual_stmt.2 ⟨?_, ?_⟩⟩ <;> exact usual_iff.2 ⟨trivial, by simp [parts]⟩
  exact (C102_two_premises_partial M mayEnter.1 mayEnter.2 c w _ _ _ rfl rfl hu.universal (isA_usual _ _).universal rfl rfl
    (by decide +kernel) (by decide +kernel) h1 h2 ⟨cs, b, hi, hm⟩ (tvOf_truth h.2) (by norm_num)).1 rfl

/-- it is not the case that tom is a dog; so it is false that tom is a dog -/
example : ∃ c w, FollowsAlone (newEternalSentenceByTv (.Neg (isA "tom" "dog")) .JUGEMENT ⟨1, 9/10⟩ ⟨[0]⟩) c w ∧
    c.term = isA "tom" "dog" ∧ ∀ M : World Nat Nat, Fits M (.Neg (isA "tom" "dog")) ⟨1, 9/10⟩ → FalseIn M c.term := by
  have h : (infSinglePremise2 (newEternalSentenceByTv (.Neg (isA "tom" "dog")) .JUGEMENT ⟨1, 9/10⟩ ⟨[0]⟩)).map (fun x => x.any (fun y =>
      decide (y.1.term = isA "tom" "dog" ∧ tvOf y.1 = some ⟨0, 9/10⟩))) = .ok true := by decide +kernel
  obtain ⟨cs, hi, h⟩ := R.map_ok.1 h
  obtain ⟨⟨c, w⟩, hm, h⟩ := List.any_eq_true.1 h
  have h := of_decide_eq_true h
  refine ⟨c, w, ⟨cs, hi, hm⟩, h.1, fun M h1 => ?_⟩
  have hu : Usual (.Neg (isA "tom" "dog")) := usual_iff.2 ⟨trivial, by simpa [parts] using isA_usual _ _⟩
  exact (C102_one_premise_partial M (newEternalSentenceByTv (.Neg (isA "tom" "dog")) .JUGEMENT ⟨1, 9/10⟩ ⟨[0]⟩) c w ⟨1, 9/10⟩ _ hu
    rfl h1 ⟨cs, hi, hm⟩ (tvOf_truth h.2)).2 rfl

/-! ## what is missing -/

/-- C102, violation: a disjunction is taken apart as if it were a conjunction.  Told that tom is a cat or a dog, the reasoner
believes with the same truth value that tom is a cat. -/
theorem C102_disjunction_taken_apart : ∃ (M : World Nat Nat) (ops : List NarOp) (r : Reasoner) (s : Sentence),
    runNar env0 ops = .ok r ∧ TruthfulTelling M env0 ops ∧ Holds r s ∧ HasTruth s ⟨1, 9/10⟩ ∧ s.stamp.ids.length = 1 ∧
    FalseIn M s.term := by
  obtain ⟨r, s, hr, hs, e, htv, hl⟩ := holds_of_run
    (ops := history [(.Stmt .INH (.Name "tom") (.IntInt [.Name "cat", .Name "dog"]), ⟨1, 9/10⟩)] 1)
    (t := isA "tom" "cat") (tv := ⟨1, 9/10⟩) (n := 1) (by decide +kernel)
  refine ⟨world (fun n => if n = "cat" then ∅ else {0}), _, r, s, hr, history_truthful ?_, hs, htv, hl, ?_⟩
  · intro x hx
    simp only [List.mem_singleton] at hx
    subst hx
    refine fits_true (trueIn_of _ (fun v => ?_))
    simp [meaning, meaningL, copulaHolds, world]
  · rw [e]
    exact isA_false (by simp)

/-- C102, violation: of a relation between three things the third is dropped. -/
theorem C102_third_dropped : ∃ (M : World Nat Nat) (ops : List NarOp) (r : Reasoner) (s : Sentence),
    runNar env0 ops = .ok r ∧ TruthfulTelling M env0 ops ∧ Holds r s ∧ HasTruth s ⟨1, 9/10⟩ ∧ s.stamp.ids.length = 1 ∧
    FalseIn M s.term := by
  obtain ⟨r, s, hr, hs, e, htv, hl⟩ := holds_of_run
    (ops := history [(.Stmt .INH (.Prod [.Name "a", .Name "b", .Name "c"]) (.Name "gives"), ⟨1, 9/10⟩)] 1)
    (t := .Stmt .INH (.Name "a") (.Img (.Name "gives") 0 [.Name "b"])) (tv := ⟨1, 9/10⟩) (n := 1) (by decide +kernel)
  refine ⟨world (fun n => if n = "gives" then {3} else {0}), _, r, s, hr, history_truthful ?_, hs, htv, hl, ?_⟩
  · intro x hx
    simp only [List.mem_singleton] at hx
    subst hx
    refine fits_true (trueIn_of _ (fun v => ?_))
    simp only [meaning, meaningL, copulaHolds, world]
    rintro y ⟨xs, h, rfl⟩
    have := h.length_eq
    simpa using this
  · rw [e]
    refine falseIn_of _ (fun v h => ?_)
    simp only [meaning, meaningL, copulaHolds, world] at h
    have := h (show (0 : Nat) ∈ _ by simp) [0] (.cons (by simp) .nil)
    simp at this

/-- C102, violation: what is not true of all is believed to be true of none.  Told that it is not the case that cats and dogs
are tame, the reasoner believes with the same truth value that cats are not tame. -/
theorem C102_denial_taken_apart : ∃ (M : World Nat Nat) (ops : List NarOp) (r : Reasoner) (s : Sentence),
    runNar env0 ops = .ok r ∧ TruthfulTelling M env0 ops ∧ Holds r s ∧ HasTruth s ⟨0, 9/10⟩ ∧ s.stamp.ids.length = 1 ∧
    TrueIn M s.term := by
  obtain ⟨r, s, hr, hs, e, htv, hl⟩ := holds_of_run
    (ops := history [(.Stmt .INH (.IntInt [.Name "cat", .Name "dog"]) (.Name "tame"), ⟨0, 9/10⟩)] 1)
    (t := isA "cat" "tame") (tv := ⟨0, 9/10⟩) (n := 1) (by decide +kernel)
  refine ⟨world (fun n => if n = "dog" then {0} else ∅), _, r, s, hr, history_truthful ?_, hs, htv, hl, ?_⟩
  · intro x hx
    simp only [List.mem_singleton] at hx
    subst hx
    refine fits_false (falseIn_of _ (fun v => ?_))
    simp [meaning, meaningL, copulaHolds, world]
  · rw [e]
    exact isA_true (by simp)

/-- C102, violation: the same dependent variable in two statements is taken for the same thing.  Told that tom is something
and that something is a cat, the reasoner believes that tom is a cat. -/
theorem C102_something_confused : ∃ (M : World Nat Nat) (ops : List NarOp) (r : Reasoner) (s : Sentence),
    runNar env0 ops = .ok r ∧ TruthfulTelling M env0 ops ∧ Holds r s ∧ HasTruth s ⟨1, 81/100⟩ ∧ s.stamp.ids.length = 2 ∧
    FalseIn M s.term := by
  obtain ⟨r, s, hr, hs, e, htv, hl⟩ := holds_of_run
    (ops := history [(.Stmt .INH (.Name "tom") (.DepVar "x"), ⟨1, 9/10⟩), (.Stmt .INH (.DepVar "x") (.Name "cat"), ⟨1, 9/10⟩)] 2)
    (t := isA "tom" "cat") (tv := ⟨1, 81/100⟩) (n := 2) (by decide +kernel)
  refine ⟨world (fun n => if n = "tom" then {1} else {0}), _, r, s, hr, history_truthful ?_, hs, htv, hl, ?_⟩
  · intro x hx
    simp only [List.mem_cons, List.not_mem_nil, or_false] at hx
    rcases hx with rfl | rfl
    · refine fits_true (fun v => ⟨fun x => if x = .DepVar "x" then ⟨{1}, False, fun _ => False⟩ else v x, by simp, ?_⟩)
      simp [meaning, copulaHolds, world]
    · refine fits_true (fun v => ⟨fun x => if x = .DepVar "x" then ⟨{0}, False, fun _ => False⟩ else v x, by simp, ?_⟩)
      simp [meaning, copulaHolds, world]
  · rw [e]
    exact isA_false (by simp)

/-- two cats which are pets -/
def twoCats : List NarOp :=
  [say (isA "tom" "cat") ⟨1, 99/100⟩, say (isA "tom" "pet") ⟨1, 99/100⟩, .cycle 0, .cycle 0, .declWork, .declWork,
   say (isA "kit" "cat") ⟨1, 99/100⟩, say (isA "kit" "pet") ⟨1, 99/100⟩, .cycle 0, .cycle 0, .declWork, .declWork]

/-- C102: confidence above one half is not enough once guesses are pooled: two cats which are pets suffice to believe with
confidence 0.66 that cats are pets, in a world in which other cats are not.  So the bound on the confidence must grow with the
number of observations. -/
theorem C102_guesses_pool : ∃ (M : World Nat Nat) (ops : List NarOp) (r : Reasoner) (s : Sentence) (tv : Tv),
    runNar env0 ops = .ok r ∧ UsualTelling env0 ops ∧ TruthfulTelling M env0 ops ∧ Holds r s ∧ HasTruth s tv ∧
    s.stamp.ids.length = 4 ∧ tv.f = 1 ∧ 66/100 < tv.c ∧ FalseIn M s.term := by
  obtain ⟨r, s, hr, hs, e, htv, hl⟩ := holds_of_run
    (ops := twoCats) (t := isA "cat" "pet") (tv := ⟨1, 9801/14801⟩) (n := 4) (by decide +kernel)
  have told : ∀ {op : NarOp} {r : Reasoner} {term : Term} {tv : Tv}, op ∈ twoCats → Told env0 r op term tv →
      tv = ⟨1, 99/100⟩ ∧ ∃ x y, (x = "tom" ∨ x = "kit") ∧ (y = "cat" ∨ y = "pet") ∧ term = isA x y := by
    intro op r term tv h ht
    simp only [twoCats, List.mem_cons, List.not_mem_nil, or_false] at h
    rcases h with rfl | rfl | rfl | rfl | rfl | rfl | rfl | rfl | rfl | rfl | rfl | rfl
    · obtain ⟨_, _, rfl, rfl, _⟩ := ht; exact ⟨rfl, _, _, .inl rfl, .inl rfl, rfl⟩
    · obtain ⟨_, _, rfl, rfl, _⟩ := ht; exact ⟨rfl, _, _, .inl rfl, .inr rfl, rfl⟩
    · exact ht.elim
    · exact ht.elim
    · exact ht.elim
    · exact ht.elim
    · obtain ⟨_, _, rfl, rfl, _⟩ := ht; exact ⟨rfl, _, _, .inr rfl, .inl rfl, rfl⟩
    · obtain ⟨_, _, rfl, rfl, _⟩ := ht; exact ⟨rfl, _, _, .inr rfl, .inr rfl, rfl⟩
    · exact ht.elim
    · exact ht.elim
    · exact ht.elim
    · exact ht.elim
  refine ⟨world (fun n => if n = "cat" then {0, 1} else {0}), _, r, s, _, hr, ?_, ?_, hs, htv, hl, rfl, by norm_num, ?_⟩
  · intro pre op post r0 term tv he _ ht
    obtain ⟨rfl, x, y, _, _, rfl⟩ := told (by rw [he]; simp) ht
    exact ⟨isA_usual _ _, by decide +kernel⟩
  · intro pre op post r0 term tv he _ ht
    obtain ⟨rfl, x, y, hx, hy, rfl⟩ := told (by rw [he]; simp) ht
    refine fits_true (isA_true ?_)
    rcases hx with rfl | rfl <;> rcases hy with rfl | rfl <;> simp
  · rw [e]
    exact isA_false (by simp)

end Nar.Props
