import Verif.Lemmas.Lasting
import Verif.Props.Counters
import Verif.Props.Trail
import Verif.Props.Topics
/-! # What has been learned is not unlearned -/
namespace Nar.Props
open Nar Term

/-! ## C107 -/

theorem memOk_of_run {env : Env} {ops : List NarOp} {r : Reasoner} (h : runNar env ops = .ok r) : MemOk r.sh.mem :=
  (runNar_WDecl h).hist.reach.memOk ⟨by simp [createShared, Mem.WF], by simp [createShared], by simp [createShared]⟩

/-- C107: what is known stays known, with at least the confidence it has: in every history, whatever is told, asked, thought and
done in between, as long as the concepts and the beliefs listed under the term leave room. -/
theorem C107_not_unlearned_partial (env : Env) (ops more : List NarOp) (r r' : Reasoner) (h : runNar env ops = .ok r)
    (h' : moreNar env r more = .ok r') (hs : SaneTelling env (ops ++ more)) (x : Term) (k : Ranking) (t : Term) (c : Rat)
    (hroom : RoomUnder r'.sh.mem x k) (hk : Knows r.sh.mem x k t c) : Knows r'.sh.mem x k t c := by
  obtain ⟨d, hd, e, hb⟩ := hk
  obtain ⟨hw, hk⟩ := moreNar_kept h h' hs (memOk_of_run h).wf
  obtain ⟨_, hk⟩ := hk hroom.1
  obtain ⟨d', hd', e', hl⟩ := hk d hd
  exact ⟨d', hd', e'.trans e, (hl k (hroom.2 d' hd' (e'.trans e))).2 t c hb⟩

/-- C107: nor does the number of beliefs listed under a term fall while there is room. -/
theorem C107_lists_grow_partial (env : Env) (ops more : List NarOp) (r r' : Reasoner) (h : runNar env ops = .ok r)
    (h' : moreNar env r more = .ok r') (hs : SaneTelling env (ops ++ more)) (k : Ranking) (d d' : Concept) (hd : d ∈ r.sh.mem)
    (hd' : d' ∈ r'.sh.mem) (e : d'.name = d.name) (hroom : RoomUnder r'.sh.mem d.name k) : (d.list k).length ≤ (d'.list k).length := by
  obtain ⟨hw, hk⟩ := moreNar_kept h h' hs (memOk_of_run h).wf
  obtain ⟨_, hk⟩ := hk hroom.1
  obtain ⟨d2, hd2, e2, hl⟩ := hk d hd
  obtain rfl := eq_of_nodup_map hw d' hd' d2 hd2 (e.trans e2.symm)
  exact (hl k (hroom.2 d' hd' e)).1

/-- a statement told in a sane history is good -/
theorem good_told {env : Env} {ops : List NarOp} {r : Reasoner} (h : runNar env ops = .ok r) {t : Term} {tv : Tv}
    (hs : SaneTelling env (ops ++ [say t tv])) (ht : ¬ IsTemporal t) (n : Int) : Good (newEternalSentenceByTv t .JUGEMENT tv ⟨[n]⟩) := by
  obtain ⟨h1, h2⟩ := hs ops (say t tv) [] r t tv rfl h ⟨rfl, rfl, rfl, rfl, ht⟩
  exact ⟨rfl, ⟨tv, rfl, h2⟩, h1⟩

/-- the beliefs in memory are good -/
theorem good_mem {env : Env} {ops : List NarOp} {r : Reasoner} (h : runNar env ops = .ok r) (hs : SaneTelling env ops) :
    MemP Good r.sh.mem := (runNar_parts h hs).2.1.2.1

/-- C107: being told again what is believed confirms it, in every history: under each term of the statement under which it is
listed the belief then has the evidence it had and the evidence told together, so more confidence than each of both alone. -/
theorem C107_confirmed (env : Env) (ops : List NarOp) (r r' : Reasoner) (t : Term) (tv : Tv) (h : runNar env ops = .ok r)
    (h' : (say t tv).run env r = .ok r') (hs : SaneTelling env (ops ++ [say t tv])) (ht : ¬ IsTemporal t) (hc : calcComplexity t ≤ 64)
    (d : Concept) (hd : d ∈ r.sh.mem) (hx : IsSubterm d.name t) (k : Ranking) (b : Sentence) (hb : b ∈ d.list k) (hbt : b.term = t)
    (tb : Tv) (htb : HasTruth b tb) :
    ∃ d' ∈ r'.sh.mem, d'.name = d.name ∧ ∃ b' ∈ d'.list k, b'.term = t ∧ ∃ tv', HasTruth b' tv' ∧
      tv'.c / (1 - tv'.c) = tb.c / (1 - tb.c) + tv.c / (1 - tv.c) ∧
      tb.c ≤ tv'.c ∧ tv.c ≤ tv'.c ∧ (0 < tv.c → tb.c < tv'.c) ∧ (0 < tb.c → tv.c < tv'.c) := by
  have hm := inputT2_told ht h'
  have hw := runNar_WDecl h
  have hok := memOk_of_run h
  have hst := runNar_stamps h
  have hgood := good_mem h hs.prefix
  rcases memAddTask_cases hm with ⟨hx, _⟩ | ⟨_, mem, rev, ha, h2⟩
  · have : r.maxComplexity < calcComplexity t := hx
    rw [hw.complexity] at this; omega
  · have hmem : r'.sh.mem = mem := addTasks_mem h2
    have hin : b ∈ d.beliefsByExp ∨ b ∈ d.beliefsByUsage := by
      cases k
      · exact .inl hb
      · exact .inr hb
    have hsok : StampOk r.sh.stampIdCounter b := by
      rcases hin with hb | hb
      · exact (hst.all.2.1 d hd).1 b hb
      · exact (hst.all.2.1 d hd).2 b hb
    have hgb : Good b := by
      rcases hin with hb | hb
      · exact (hgood d hd).1 b hb
      · exact (hgood d hd).2 b hb
    obtain ⟨d', k1, k2, b', k3, k4, tb1, ts, tv', k5, k6, k7, k8⟩ := addBelief_pools hok.wf rfl (by simp [newEternalSentenceByTv]) ha hd
      (hok.once d hd).1 (hok.once d hd).2 hx hb hbt (by
        rintro ⟨id, i1, i2⟩
        have := (hsok.2.2.2 id i1).2
        simp [newEternalSentenceByTv] at i2
        omega)
    obtain ⟨_, e1, sa⟩ := hgb.retTv htb
    cases e1
    have e2 : tb1 = tb := by unfold HasTruth at htb k5; rw [htb] at k5; cases k5; rfl
    have e3 : ts = tv := by unfold HasTruth at k6; cases k6; rfl
    subst e2 e3
    have sb : Tv.Sane ts := (hs ops (say t ts) [] r t ts rfl h ⟨rfl, rfl, rfl, rfl, ht⟩).2
    obtain ⟨g1, g2, g3, g4⟩ := Tv.rev_grows sa sb k7
    refine ⟨d', by rw [hmem]; exact k1, k2, b', k3, k4, tv', k8, ?_, g1, g2, g3, g4⟩
    exact Tv.rev_wt sa sb k7

/-- C107: a belief in the list ranked by expectation gives way to something told only if the list is then full of beliefs
expected at least as much. -/
theorem C107_gives_way_to_the_expected_partial (env : Env) (ops : List NarOp) (r r' : Reasoner) (t : Term) (tv : Tv)
    (h : runNar env ops = .ok r) (h' : (say t tv).run env r = .ok r') (hs : SaneTelling env (ops ++ [say t tv])) (ht : ¬ IsTemporal t)
    (d : Concept) (hd : d ∈ r.sh.mem) (b : Sentence) (hb : b ∈ d.beliefsByExp) (tb : Tv) (htb : HasTruth b tb) :
    ∃ d' ∈ r'.sh.mem, d'.name = d.name ∧ (Believes d'.beliefsByExp b.term tb.c ∨
      (d'.beliefsByExp.length = 20 ∧ ∀ y ∈ d'.beliefsByExp, ∃ e, Expectation y e ∧ (tb.f - 1/2) * tb.c + 1/2 ≤ e)) := by
  have hm := inputT2_told ht h'
  have hw := runNar_WDecl h
  rcases memAddTask_cases hm with ⟨hx, e⟩ | ⟨_, mem, rev, ha, h2⟩
  · refine ⟨d, ?_, rfl, .inl ⟨b, hb, rfl, tb, htb, le_refl _⟩⟩
    rw [e]; exact hd
  · have hmem : r'.sh.mem = mem := addTasks_mem h2
    rw [hmem]
    have hn : (r.cfg env).nBeliefs = 20 := hw.beliefs
    rw [hn] at ha
    exact addBelief_displaced (memOk_of_run h).wf ha (good_mem h hs.prefix) (fun _ => good_told h hs ht _) hd hb htb ⟨tb, htb, rfl⟩

/-! ### examples -/

theorem isA_safe (env : Env) (s p : String) (tv : Tv) (h : Tv.Sane tv) (he : ∃ txt, convTermToStr (isA s p) = some txt) :
    SafeUse env (say (isA s p) tv) :=
  ⟨he, fun _ _ => ⟨isA_not_temporal _ _, wf_stmt.2 ⟨wf_iff.2 ⟨trivial, by simp [parts]⟩, wf_iff.2 ⟨trivial, by simp [parts]⟩⟩, h⟩,
    fun h => by cases h⟩

/-- the truth value of a belief -/
def truthOf (s : Sentence) : Option Tv := (retTv s).toOption.join

theorem truthOf_iff {s : Sentence} {tv : Tv} : truthOf s = some tv ↔ HasTruth s tv := by
  unfold truthOf HasTruth
  cases retTv s with
  | error e => simp [Except.toOption]
  | ok v => simp [Except.toOption]

/-- what is listed about the statement under the term -/
def listed (r : Reasoner) (x : Term) (k : Ranking) (t : Term) : List (Option Tv) :=
  (((r.sh.mem.filter (fun c => decide (c.name = x))).flatMap (fun c => c.list k)).filter (fun b => decide (b.term = t))).map truthOf

theorem knows_iff {r : Reasoner} {x : Term} {k : Ranking} {t : Term} {c : Rat} :
    Knows r.sh.mem x k t c ↔ ∃ tv, some tv ∈ listed r x k t ∧ c ≤ tv.c := by
  unfold Knows Believes listed
  constructor
  · rintro ⟨d, h1, h2, b, h3, h4, tv, h5, h6⟩
    refine ⟨tv, List.mem_map.2 ⟨b, List.mem_filter.2 ⟨List.mem_flatMap.2 ⟨d, List.mem_filter.2 ⟨h1, by simpa using h2⟩, h3⟩,
      by simpa using h4⟩, truthOf_iff.2 h5⟩, h6⟩
  · rintro ⟨tv, h1, h2⟩
    obtain ⟨b, h3, h4⟩ := List.mem_map.1 h1
    obtain ⟨h5, h6⟩ := List.mem_filter.1 h3
    obtain ⟨d, h7, h8⟩ := List.mem_flatMap.1 h5
    obtain ⟨h9, h10⟩ := List.mem_filter.1 h7
    exact ⟨d, h9, by simpa using h10, b, h8, by simpa using h6, tv, truthOf_iff.1 h4, h2⟩

/-- tom is a cat, and all that is told and thought later -/
def tomForever (more : List NarOp) : List NarOp := say (isA "tom" "cat") ⟨1, 9/10⟩ :: more

example (more : List NarOp) (hsafe : ∀ op ∈ more, SafeUse env0 op) (r' : Reasoner) (h : runNar env0 (tomForever more) = .ok r')
    (hroom : RoomUnder r'.sh.mem (.Name "tom") .expectation) : Knows r'.sh.mem (.Name "tom") .expectation (isA "tom" "cat") (9/10) := by
  have hv : (runNar env0 [say (isA "tom" "cat") ⟨1, 9/10⟩]).map (fun r => listed r (.Name "tom") .expectation (isA "tom" "cat")) =
    .ok [some ⟨1, 9/10⟩] := by decide +kernel
  obtain ⟨r, hr, e⟩ := R.map_ok.1 hv
  obtain ⟨r1, h1, h2⟩ := moreNar_append.1 (show moreNar env0 createNar ([say (isA "tom" "cat") ⟨1, 9/10⟩] ++ more) = .ok r' from h)
  have e1 : r1 = r := by
    have : (Except.ok r1 : R Reasoner) = .ok r := h1.symm.trans hr
    cases this; rfl
  subst e1
  refine C107_not_unlearned_partial env0 [say (isA "tom" "cat") ⟨1, 9/10⟩] more r1 r' hr h2 ?_ _ _ _ _ hroom ?_
  · refine SafeUse.telling (fun op hop => ?_)
    rcases List.mem_append.1 hop with hop | hop
    · rw [List.mem_singleton.1 hop]
      exact isA_safe _ _ _ _ (by unfold Tv.Sane; decide +kernel) ⟨_, rfl⟩
    · exact hsafe op hop
  · exact knows_iff.2 ⟨⟨1, 9/10⟩, by rw [e]; simp, le_refl _⟩

/-- told twice with confidence 9/10 -/
example : (runNar env0 [say (isA "tom" "cat") ⟨1, 9/10⟩, say (isA "tom" "cat") ⟨1, 9/10⟩]).map (fun r =>
    (listed r (.Name "tom") .expectation (isA "tom" "cat"), listed r (.Name "cat") .use (isA "tom" "cat"))) =
    .ok ([some ⟨1, 18/19⟩], [some ⟨1, 18/19⟩]) := by decide +kernel

/-! ### where it goes wrong -/

/-- tom is no dog; and twenty vague statements about tom -/
def vagueOnes : List NarOp :=
  (["a", "b", "c", "d", "e", "f", "g", "h", "i", "j", "k", "l", "m", "n", "o", "p", "q", "r", "s", "t"]).map
    (fun (x : String) => say (isA "tom" x) ⟨1/2, 1/100⟩)

/-- Once twenty beliefs are listed under a term, what is known best may be forgotten: a reasoner is told, with confidence 0.99,
that tom is no dog, and then twenty statements about tom which say next to nothing; then it is no longer listed under "tom" that
tom is no dog, for the list is ranked by how much a belief is expected to hold. -/
theorem C107_confident_denial_forgotten :
    ∃ r r', runNar env0 [say (isA "tom" "dog") ⟨0, 99/100⟩] = .ok r ∧ moreNar env0 r vagueOnes = .ok r' ∧
      SaneTelling env0 ([say (isA "tom" "dog") ⟨0, 99/100⟩] ++ vagueOnes) ∧
      Knows r.sh.mem (.Name "tom") .expectation (isA "tom" "dog") (99/100) ∧
      (∀ c, ¬ Knows r'.sh.mem (.Name "tom") .expectation (isA "tom" "dog") c) ∧
      ∀ op ∈ vagueOnes, ∃ x, op = say (isA "tom" x) ⟨1/2, 1/100⟩ := by
  have hv : (runNar env0 [say (isA "tom" "dog") ⟨0, 99/100⟩]).map (fun r => listed r (.Name "tom") .expectation (isA "tom" "dog")) =
    .ok [some ⟨0, 99/100⟩] := by decide +kernel
  have hv2 : (runNar env0 ([say (isA "tom" "dog") ⟨0, 99/100⟩] ++ vagueOnes)).map
    (fun r => listed r (.Name "tom") .expectation (isA "tom" "dog")) = .ok [] := by decide +kernel
  obtain ⟨r, hr, e⟩ := R.map_ok.1 hv
  obtain ⟨r', hr', e'⟩ := R.map_ok.1 hv2
  obtain ⟨r1, h1, h2⟩ := moreNar_append.1 (show moreNar env0 createNar _ = .ok r' from hr')
  have e1 : r1 = r := by
    have : (Except.ok r1 : R Reasoner) = .ok r := h1.symm.trans hr
    cases this; rfl
  subst e1
  have hvague : ∀ op ∈ vagueOnes, ∃ x : String, op = say (isA "tom" x) ⟨1/2, 1/100⟩ := by
    intro op hop
    obtain ⟨x, _, rfl⟩ := List.mem_map.1 hop
    exact ⟨x, rfl⟩
  refine ⟨r1, r', hr, h2, SafeUse.telling (fun op hop => ?_), knows_iff.2 ⟨⟨0, 99/100⟩, by rw [e]; simp, le_refl _⟩,
    fun c hk => ?_, hvague⟩
  · rcases List.mem_append.1 hop with hop | hop
    · rw [List.mem_singleton.1 hop]
      exact isA_safe _ _ _ _ (by unfold Tv.Sane; decide +kernel) ⟨_, rfl⟩
    · obtain ⟨x, rfl⟩ := hvague op hop
      exact isA_safe _ _ _ _ (by unfold Tv.Sane; decide +kernel) ⟨_, rfl⟩
  · obtain ⟨tv, hm, _⟩ := knows_iff.1 hk
    rw [e'] at hm; simp at hm

/-- a roundabout way from `a` to `c` is found first -/
def roundabout : List NarOp :=
  [say (isA "a" "b") ⟨1, 9/10⟩, say (isA "b" "d") ⟨1, 1/2⟩, say (isA "d" "c") ⟨1, 1/2⟩, .cycle 0, .declWork, .declWork, .declWork,
    .cycle 0, .declWork, .declWork, .declWork, .declWork]

/-- then the straight one is told and thought about -/
def straight : List NarOp :=
  [say (isA "b" "c") ⟨1, 9/10⟩, .cycle (1/2), .cycle 0] ++ List.replicate 8 .declWork ++ .cycle 0 :: List.replicate 8 .declWork ++
    .cycle 0 :: List.replicate 8 .declWork

/-- What has been concluded badly is not concluded better: if a conclusion is first drawn by a roundabout way with little
confidence, the same conclusion drawn later with much confidence is not remembered, if any of the evidence is the same. Here the
reasoner concludes that `a` is a `c` with confidence 0.81, has room, but goes on believing it with confidence 9/40 only. -/
theorem C107_better_conclusion_ignored :
    ∃ r, runNar env0 (roundabout ++ straight) = .ok r ∧
      (∃ s, Holds r s ∧ s.term = isA "a" "c" ∧ HasTruth s ⟨1, 81/100⟩) ∧
      listed r (.Name "a") .expectation (isA "a" "c") = [some ⟨1, 9/40⟩] ∧ listed r (.Name "a") .use (isA "a" "c") = [some ⟨1, 9/40⟩] ∧
      RoomUnder r.sh.mem (.Name "a") .expectation ∧ RoomUnder r.sh.mem (.Name "a") .use := by
  have hv : (runNar env0 (roundabout ++ straight)).map (fun r =>
      (listed r (.Name "a") .expectation (isA "a" "c"), listed r (.Name "a") .use (isA "a" "c"),
        decide (r.sh.mem.length < 3000), r.sh.mem.all (fun c => decide (c.name = .Name "a" → c.beliefsByExp.length < 20 ∧
          c.beliefsByUsage.length < 20)),
        r.sh.heap.any (fun x => decide (x.sentence.term = isA "a" "c" ∧ truthOf x.sentence = some ⟨1, 81/100⟩)))) =
      .ok ([some ⟨1, 9/40⟩], [some ⟨1, 9/40⟩], true, true, true) := by decide +kernel
  obtain ⟨r, hr, e⟩ := R.map_ok.1 hv
  simp only [Prod.mk.injEq, decide_eq_true_eq, List.all_eq_true, List.any_eq_true] at e
  obtain ⟨e1, e2, e3, e4, x, hx, e5, e6⟩ := e
  exact ⟨r, hr, ⟨x.sentence, .inl ⟨x, hx, rfl⟩, e5, truthOf_iff.1 e6⟩, e1, e2, ⟨e3, fun c hc h => (e4 c hc h).1⟩,
    ⟨e3, fun c hc h => (e4 c hc h).2⟩⟩

end Nar.Props
