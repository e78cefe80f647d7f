import Verif.Lemmas.Trail
import Verif.Props.Meaning
/-! # The trail of evidence tells what a belief rests on -/
namespace Nar.Props
open Nar Term

/-! ## C103 -/

/-- C103: in every history, every number in the trail of a belief is that of a statement told before; and if the trail was not
cut at its greatest length the belief follows, by the rules of inference and by pooling, from just those statements whose
numbers are in its trail. -/
theorem C103_trail_partial (env : Env) (ops : List NarOp) (r : Reasoner) (h : runNar env ops = .ok r) (s : Sentence) (hs : Holds r s) :
    (∀ id ∈ s.stamp.ids, ∃ k term tv, Recorded env ops k id term tv) ∧
    (s.stamp.ids.length < 120 → FollowsFrom env ops s.stamp.ids s) :=
  (runNar_traced h).holds hs

/-- C103: the same for the answers given, except for those to questions about temporal rules. -/
theorem C103_answer_trail_partial (env : Env) (ops : List NarOp) (r : Reasoner) (h : runNar env ops = .ok r) (c : AnswerCall)
    (hc : c ∈ r.answers) (hnt : ¬ IsTemporal c.question) :
    (∀ id ∈ c.answer.stamp.ids, ∃ k term tv, Recorded env ops k id term tv) ∧
    (c.answer.stamp.ids.length < 120 → FollowsFrom env ops c.answer.stamp.ids c.answer) := by
  rcases (runNar_traced h).answers c hc with k | ⟨_, k, _⟩
  · exact k
  · exact absurd k hnt

/-- C103: a number is given out by one action only, so it says which. -/
theorem C103_numbers_once (env : Env) (ops : List NarOp) (j k : Nat) (id : Int) (t t' : Term) (tv tv' : Tv)
    (h : Recorded env ops j id t tv) (h' : Recorded env ops k id t' tv') : j = k := by
  obtain ⟨op, r, r1, a1, a2, a3, _, a5, a6⟩ := h
  obtain ⟨op', r', r1', b1, b2, b3, _, b5, b6⟩ := h'
  rcases Nat.lt_trichotomy j k with hl | hl | hl
  · have := recorded_before a1 a2 a3 b2 hl; omega
  · exact hl
  · have := recorded_before b1 b2 b3 a2 hl; omega

/-- C103: what is believed with more confidence than `n / (n + 2)` from a trail of `n` numbers follows logically from the
statements with those numbers: it fits every world which they fit, whatever else was told. -/
theorem C103_only_the_trail_matters_partial {D T : Type} [Preorder T] (M : World D T) (env : Env) (ops : List NarOp) (r : Reasoner)
    (h : runNar env ops = .ok r) (s : Sentence) (hs : Holds r s)
    (hf : ∀ k, ∀ id ∈ s.stamp.ids, ∀ term tv, Recorded env ops k id term tv → Usual term ∧ Tv.Sane tv ∧ Fits M term tv)
    (tv : Tv) (htv : HasTruth s tv) (hn : s.stamp.ids.length < 120)
    (hc : (s.stamp.ids.length : Rat) / (s.stamp.ids.length + 2) < tv.c) : Fits M s.term tv := by
  refine trusty_fits (M := M) ?_ htv hn hc
  refine (((runNar_traced h).holds hs).2 hn).closed (trusty_closed M) ?_
  intro k id hid term tv hr
  obtain ⟨h1, h2, h3⟩ := hf k id hid term tv hr
  exact trusty_told M h1 h2 h3 id

/-- C103: no confidence comes out of nothing: the amount of evidence behind a belief is at most the sum of the amounts behind
the statements with the numbers in its trail. -/
theorem C103_evidence_adds_up_partial (e : Int → Rat) (he : ∀ i, 0 ≤ e i) (env : Env) (ops : List NarOp) (r : Reasoner)
    (h : runNar env ops = .ok r) (s : Sentence) (hs : Holds r s)
    (hf : ∀ k, ∀ id ∈ s.stamp.ids, ∀ term tv, Recorded env ops k id term tv → Tv.Sane tv ∧ amountOf tv.c ≤ e id)
    (tv : Tv) (htv : HasTruth s tv) (hn : s.stamp.ids.length < 120) :
    tv.c < 1 ∧ amountOf tv.c ≤ (s.stamp.ids.map e).sum := by
  have hc : Covered e s := by
    refine (((runNar_traced h).holds hs).2 hn).closed (covered_closed he) ?_
    intro k id hid term tv hr
    obtain ⟨h1, h2⟩ := hf k id hid term tv hr
    refine ⟨rfl, tv, rfl, h1, fun _ => ?_⟩
    simpa [newEternalSentenceByTv, amountOf, Tv.wt] using h2
  obtain ⟨tv', e', k1, k2⟩ := hc.retTv htv
  cases e'
  exact ⟨k1.2.2.2, k2 hn⟩

/-- C103: so if everything told has at most confidence `c`, a belief which rests on `n` statements has at most the evidence of
`n` statements with confidence `c`. -/
theorem C103_no_confidence_from_nothing_partial (c : Rat) (h0 : 0 ≤ c) (h1 : c < 1) (env : Env) (ops : List NarOp) (r : Reasoner)
    (h : runNar env ops = .ok r) (hf : ∀ k id term tv, Recorded env ops k id term tv → Tv.Sane tv ∧ tv.c ≤ c)
    (s : Sentence) (hs : Holds r s) (tv : Tv) (htv : HasTruth s tv) (hn : s.stamp.ids.length < 120) :
    tv.c < 1 ∧ amountOf tv.c ≤ s.stamp.ids.length * amountOf c := by
  have := C103_evidence_adds_up_partial (fun _ => amountOf c) (fun _ => Tv.wt_nonneg h0 h1) env ops r h s hs
    (fun k id _ term tv hr => ⟨(hf k id term tv hr).1, wt_mono (hf k id term tv hr).1.2.2.1 (hf k id term tv hr).2 h1⟩) tv htv hn
  simpa using this

/-- tom is a cat, whales are fish, cats are pets -/
def tomAndWhales : List (Term × Tv) :=
  [(isA "tom" "cat", ⟨1, 9/10⟩), (isA "whale" "fish", ⟨1, 9/10⟩), (isA "cat" "pet", ⟨1, 9/10⟩)]

theorem said_recorded {sayings : List (Term × Tv)} {n k : Nat} {id : Int} {term : Term} {tv : Tv}
    (h : Recorded env0 (history sayings n) k id term tv) : sayings[k]? = some (term, tv) := by
  obtain ⟨op, r0, r1, h1, _, _, h4, _⟩ := h
  unfold history at h1
  rcases Nat.lt_or_ge k sayings.length with hk | hk
  · rw [List.getElem?_append_left (by simpa using hk), List.getElem?_map] at h1
    obtain ⟨⟨t, v⟩, g1, rfl⟩ := Option.map_eq_some_iff.1 h1
    obtain ⟨_, _, rfl, rfl, _⟩ := h4
    exact g1
  · rw [List.getElem?_append_right (by simpa using hk)] at h1
    rcases List.mem_cons.1 (List.mem_of_getElem? h1) with rfl | hm
    · exact h4.elim
    · rw [(List.mem_replicate.1 hm).2] at h4
      exact h4.elim

/-- the trail of "tom is a pet" is that of the first and the third statement; whales do not matter: although they are told to be
fish, tom is a pet in every world in which tom is a cat and cats are pets -/
example : (runNar env0 (history tomAndWhales 3)).map (fun r => r.sh.heap.map (fun x => (x.sentence.term, x.sentence.stamp.ids))) =
    .ok [(isA "tom" "cat", [0]), (isA "whale" "fish", [1]), (isA "cat" "pet", [2]), (isA "tom" "pet", [0, 2])] := by decide +kernel

theorem recorded_of_run {ops : List NarOp} {k : Nat} {n : Int} {t : Term} {tv : Tv} (ho : ops[k]? = some (say t tv))
    (ht : ¬ IsTemporal t)
    (h : ((runNar env0 (ops.take k)).bind (fun r => ((say t tv).run env0 r).map (fun r' => (idsGiven r, idsGiven r')))) = .ok (n, n + 1)) :
    Recorded env0 ops k n t tv := by
  obtain ⟨r, h1, h⟩ := R.bind_ok.1 h
  obtain ⟨r', h2, h⟩ := R.map_ok.1 h
  obtain ⟨e1, e2⟩ := Prod.mk.inj h
  exact ⟨_, r, r', ho, h1, h2, ⟨rfl, rfl, rfl, rfl, ht⟩, by omega, by omega⟩

theorem isA_not_temporal (s p : String) : ¬ IsTemporal (isA s p) := by simp [IsTemporal, isA]

example : Recorded env0 (history tomAndWhales 3) 1 1 (isA "whale" "fish") ⟨1, 9/10⟩ :=
  recorded_of_run rfl (isA_not_temporal _ _) (by decide +kernel)

example (f : String → Set Nat) (h1 : f "tom" ⊆ f "cat") (h2 : f "cat" ⊆ f "pet") :
    ∃ r s, runNar env0 (history tomAndWhales 3) = .ok r ∧ Holds r s ∧ s.term = isA "tom" "pet" ∧ TrueIn (world f) s.term := by
  have h : (runNar env0 (history tomAndWhales 3)).map (fun r => r.sh.heap.any (fun x =>
      decide (x.sentence.term = isA "tom" "pet" ∧ tvOf x.sentence = some ⟨1, 81/100⟩ ∧ x.sentence.stamp.ids = [0, 2]))) = .ok true := by
    decide +kernel
  obtain ⟨r, hr, h⟩ := R.map_ok.1 h
  obtain ⟨x, hx, h⟩ := List.any_eq_true.1 h
  obtain ⟨e1, e2, e3⟩ := of_decide_eq_true h
  have hh : Holds r x.sentence := .inl ⟨x, hx, rfl⟩
  refine ⟨r, x.sentence, hr, hh, e1, ?_⟩
  refine (C103_only_the_trail_matters_partial (world f) env0 _ r hr x.sentence hh ?_ _ (tvOf_truth e2) (by rw [e3]; simp)
    (by rw [e3]; norm_num)).1 rfl
  rw [e3]
  intro k id hid term tv hrec
  have r0 : Recorded env0 (history tomAndWhales 3) 0 0 (isA "tom" "cat") ⟨1, 9/10⟩ :=
    recorded_of_run rfl (isA_not_temporal _ _) (by decide +kernel)
  have r2 : Recorded env0 (history tomAndWhales 3) 2 2 (isA "cat" "pet") ⟨1, 9/10⟩ :=
    recorded_of_run rfl (isA_not_temporal _ _) (by decide +kernel)
  simp only [List.mem_cons, List.not_mem_nil, or_false] at hid
  rcases hid with rfl | rfl
  · cases C103_numbers_once env0 _ k 0 _ _ _ _ _ hrec r0
    cases said_recorded hrec
    exact ⟨isA_usual _ _, by decide +kernel, fits_true (isA_true h1)⟩
  · cases C103_numbers_once env0 _ k 2 _ _ _ _ _ hrec r2
    cases said_recorded hrec
    exact ⟨isA_usual _ _, by decide +kernel, fits_true (isA_true h2)⟩

/-- two observations of confidence one half give confidence two thirds, and no more -/
example : (runNar env0 (history [(isA "tom" "cat", ⟨1, 1/2⟩), (isA "tom" "cat", ⟨1, 1/2⟩)] 0)).map (fun r =>
    r.sh.heap.map (fun x => (tvOf x.sentence, x.sentence.stamp.ids))) =
    .ok [(some ⟨1, 1/2⟩, [0]), (some ⟨1, 1/2⟩, [1]), (some ⟨1, 2/3⟩, [0, 1])] := by decide +kernel
example : amountOf (2/3) = 2 * amountOf (1/2) := by unfold amountOf; norm_num

/-! ## what is missing -/

/-- the same statement told 121 times, the tasks being dropped in between -/
def toldOften : List NarOp := (List.replicate 121 [say (isA "a" "b") ⟨1, 1/2⟩, ln "!dtf"]).flatten

set_option maxRecDepth 100000 in
/-- C103, limit: a trail has at most 120 numbers, so for a belief which rests on more statements it does not name them all. -/
theorem C103_cut_trail : ∃ r s tv, runNar env0 toldOften = .ok r ∧ Holds r s ∧ HasTruth s tv ∧ s.stamp.ids.length = 120 ∧
    amountOf tv.c = 121 * amountOf (1/2) := by
  obtain ⟨r, s, hr, hs, e, htv, hl⟩ := holds_of_run (ops := toldOften) (t := isA "a" "b") (tv := ⟨1, 121/122⟩) (n := 120)
    (by decide +kernel)
  exact ⟨r, s, _, hr, hs, htv, hl, by unfold amountOf; norm_num⟩

end Nar.Props
