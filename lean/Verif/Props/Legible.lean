import Verif.Lemmas.Legible2
import Verif.Props.Meaning
import Verif.Props.Server
/-! # Different things are printed differently -/
namespace Nar.Props
open Nar Term

/-! ## C106 -/

/-- C106: every legible term can be printed. -/
theorem C106_printed (t : Term) (h : Legible t) : ∃ text, convTermToStr t = some text := ⟨_, h.text⟩

/-- C106: different legible terms have different texts. -/
theorem C106_texts_differ (t u : Term) (ht : Legible t) (hu : Legible u) (h : convTermToStr t = convTermToStr u) : t = u := by
  rw [ht.text, hu.text] at h
  exact (tx_unique ht hu (x := []) (y := []) (fun _ _ e => by cases e) (fun _ _ e => by cases e) (by simpa using h)).1

/-- C106: no text of a legible term is the beginning of the text of another one, unless a word goes on: what follows the text
of a term does not change how it is understood. -/
theorem C106_texts_stand_alone (t u : Term) (ht : Legible t) (hu : Legible u) (a rest : List Char) (h1 : convTermToStr t = some a)
    (h2 : convTermToStr u = some (a ++ rest)) (hr : ∀ c r, rest = c :: r → ¬ SignChar c) : t = u ∧ rest = [] := by
  rw [ht.text] at h1
  rw [hu.text] at h2
  have e1 := Option.some.inj h1
  have e2 := Option.some.inj h2
  exact tx_unique ht hu (x := rest) (y := []) hr (fun _ _ e => by cases e) (by rw [e1, e2]; simp)

/-- C106: the line printed for a sentence tells the statement, the punctuation and, if it is shown, the truth value, provided
that different numbers are printed differently and without blanks. -/
theorem C106_lines_differ (sf : Rat → List Char) (hi : Function.Injective sf) (hb : ∀ x, ' ' ∉ sf x) (s s' : Sentence) (enTv : Bool)
    (line : List Char) (hl : Legible s.term) (hl' : Legible s'.term) (h : convSentenceTermPunctToStr sf s enTv = .ok line)
    (h' : convSentenceTermPunctToStr sf s' enTv = .ok line) :
    s.term = s'.term ∧ s.punct = s'.punct ∧ (enTv = true → s.punct ≠ .QUESTION → retTv s = retTv s') :=
  sentence_unique hi hb hl hl' h h'

/-- C106: the message which a server sends for an answer tells the question, the statement which answers it and its truth. -/
theorem C106_answer_messages_differ (env : Env) (hi : Function.Injective env.sf) (hb : ∀ x, ' ' ∉ env.sf x) (c c' : AnswerCall)
    (m : Post) (hq : Legible c.question) (hq' : Legible c'.question) (ha : Legible c.answer.term) (ha' : Legible c'.answer.term)
    (hj : c.answer.punct = .JUGEMENT) (h : answerText env c = .ok m) (h' : answerText env c' = .ok m) :
    c.question = c'.question ∧ c.answer.term = c'.answer.term ∧ c'.answer.punct = .JUGEMENT ∧ retTv c.answer = retTv c'.answer := by
  unfold answerText at h h'
  rw [hq.text] at h
  rw [hq'.text] at h'
  simp only at h h'
  obtain ⟨s, hs, h⟩ := R.bind_ok.1 h
  obtain ⟨s', hs', h'⟩ := R.bind_ok.1 h'
  have e := (Except.ok.inj h).trans (Except.ok.inj h').symm
  simp only [Post.answer.injEq, List.append_assoc] at e
  have e := List.append_cancel_left e
  obtain ⟨h1, h2⟩ := tx_unique hq hq' (fun c r k => by cases k; decide) (fun c r k => by cases k; decide) e
  have e2 := List.append_cancel_left h2
  subst e2
  obtain ⟨k1, k2, k3⟩ := sentence_unique hi hb ha ha' hs hs'
  exact ⟨h1, k1, k2 ▸ hj, k3 rfl (by rw [hj]; simp)⟩

/-- C106: whatever is read from a line is legible. -/
theorem C106_lines_are_legible (pf : List Char → Option Rat) (line : List Char) (t : Term) (tv : Tv) (p : Punct) (ev : Bool)
    (h : parseNarsese pf line = .ok (some (t, tv, p, ev))) : Legible t :=
  (parseNarsese_ok h).2.1.legible

/-- C106: in every history in which the statements told are legible, what the reasoner holds is legible, so that beliefs with
the same text are about the same statement. -/
theorem C106_beliefs_differ (env : Env) (ops : List NarOp) (r : Reasoner) (h : runNar env ops = .ok r)
    (ht : ∀ t, WasTold env ops t → Legible t) (s s' : Sentence) (hs : Holds r s) (hs' : Holds r s') :
    Legible s.term ∧ (convTermToStr s.term = convTermToStr s'.term → s.term = s'.term) := by
  have k := ((runNar_legible h ht).holds hs).2
  exact ⟨k, C106_texts_differ _ _ k ((runNar_legible h ht).holds hs').2⟩

/-- C106: the answers given are legible too, except for those to questions about temporal rules. -/
theorem C106_answers_legible (env : Env) (ops : List NarOp) (r : Reasoner) (h : runNar env ops = .ok r)
    (ht : ∀ t, WasTold env ops t → Legible t) (c : AnswerCall) (hc : c ∈ r.answers) (hnt : ¬ IsTemporal c.question) :
    c.answer.punct = .JUGEMENT ∧ Legible c.answer.term := by
  rcases (runNar_legible h ht).answers c hc with k | ⟨_, k, _⟩
  · exact k
  · exact absurd k hnt

/-! ## concrete terms -/

/-- whom tom likes, and what tom is like: an image, a set of properties, a negation, a conjunction -/
def nestedTerm : Term :=
  .Stmt .IMPL (.Conj [.Stmt .INH (.IndepVar "x") (.Img (.Name "likes") 1 [.Name "tom"]), .Neg (.Name "rain"), .Name "b"])
    (.Stmt .SIM (.SetInt [.Name "a", .Name "b"]) (.Prod [.SetExt [.Name "tom"], .IndepVar "x"]))

theorem nestedTerm_legible : Legible nestedTerm := by
  intro s hs
  have h := (mem_retSubterms _ _).2 hs
  simp only [nestedTerm, retSubterms, retSubtermsL, List.mem_append, List.mem_cons, List.not_mem_nil, or_false] at h
  casesm* _ ∨ _ <;> subst s <;> first | trivial | (show 2 ≤ _; decide) | (show _ ≠ []; decide) | (unfold Term.Clear Spelled; decide)

example : convTermToStr nestedTerm =
    some "<( <$x --> ( likes /2 tom )> && (! rain ) && b ) ==> <[a b] <-> ( {tom} * $x )>>".toList := by decide +kernel

/-- how the kinds of compounds are printed -/
example : [Term.Seq [.Name "a", .Name "b"], .Conj [.Name "a", .Name "b"], .Prod [.Name "a", .Name "b"], .IntInt [.Name "a", .Name "b"],
    .ExtInt [.Name "a", .Name "b"], .Par [.Name "a", .Name "b"], .SetInt [.Name "a", .Name "b"], .SetExt [.Name "a", .Name "b"],
    .Img (.Name "r") 0 [.Name "a", .Name "b"], .Neg (.Name "a"), .Stmt .EQUIV (.QVar "a") (.DepVar "b")].map (fun t =>
      (convTermToStr t).map String.ofList) =
    [some "( a , b )", some "( a && b )", some "( a * b )", some "( a | b )", some "( a & b )", some "( a ; b )", some "[a b]",
     some "{a b}", some "( r /1 a b )", some "(! a )", some "<?a <=> #b>"] := by decide +kernel

/-- the rule about keys and what is concluded from it can be told apart by their texts -/
example : ∃ r s, runNar env0 (history tomCat 2) = .ok r ∧ Holds r s ∧ s.term = isA "tom" "pet" ∧
    ∀ s', Holds r s' → convTermToStr s.term = convTermToStr s'.term → s.term = s'.term := by
  obtain ⟨r, s, hr, hs, e, _, _⟩ := holds_of_run (ops := history tomCat 2) (t := isA "tom" "pet") (tv := ⟨1, 81/100⟩) (n := 2)
    (by decide +kernel)
  have leg : ∀ a b : String, Word a → Word b → Legible (isA a b) := fun a b ha hb => (Readable.stmt (.name ha) (.name hb)).legible
  refine ⟨r, s, hr, hs, e, fun s' hs' => (C106_beliefs_differ env0 _ r hr ?_ s s' hs hs').2⟩
  rintro t ⟨pre, op, post, r0, tv, he, _, ht⟩
  have hm := told_said (n := 2) (show op ∈ history tomCat 2 by rw [he]; simp) ht
  simp only [tomCat, List.mem_cons, List.not_mem_nil, or_false, Prod.mk.injEq] at hm
  rcases hm with ⟨rfl, _⟩ | ⟨rfl, _⟩
  · exact leg _ _ (by decide) (by decide)
  · exact leg _ _ (by decide) (by decide)

/-! ## what is missing -/

/-- C106, limit: compounds with a single part are printed alike, whatever sign joins their parts; and a name which is not made
of the characters of words may be printed like something else. -/
theorem C106_single_parts :
    (∀ t, convTermToStr (.Seq [t]) = convTermToStr (.Conj [t]) ∧ convTermToStr (.Conj [t]) = convTermToStr (.Prod [t]) ∧
      convTermToStr (.Prod [t]) = convTermToStr (.IntInt [t]) ∧ convTermToStr (.IntInt [t]) = convTermToStr (.ExtInt [t]) ∧
      convTermToStr (.ExtInt [t]) = convTermToStr (.Par [t])) ∧
    convTermToStr (.Name "?x") = convTermToStr (.QVar "x") :=
  ⟨fun t => by simp [convTermToStr, joinStr], by decide⟩

end Nar.Props
