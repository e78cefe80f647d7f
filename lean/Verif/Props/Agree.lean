import Verif.Lemmas.Agree
import Verif.Props.Lasting
/-! # Memory does not contradict itself -/
namespace Nar.Props
open Nar Term

/-! ## C110 -/

theorem listedAs_iff {m : Mem} (hw : m.WF) {x : Term} {k : Ranking} {t : Term} {tv : Tv} {ids : List Int} :
    ListedAs m x k t tv ids ↔ Shown m x k t (.ok (some tv)) ⟨ids⟩ := by
  constructor
  · rintro ⟨c, hc, rfl, b, hb, e1, e2, e3⟩
    exact ⟨c, Mem.get_of_mem hw hc, b, hb, e1, e2, by rw [← e3]⟩
  · rintro ⟨c, hg, b, hb, e1, e2, e3⟩
    exact ⟨c, (Mem.get_some hg).1, (Mem.get_some hg).2, b, hb, e1, e2, by rw [e3]⟩

/-- C110: memory does not contradict itself: in every history, as long as nothing is full, a belief listed under one term is
listed, with the same truth value and the same record of evidence, under all terms which are part of its statement, and under no
other term, in both rankings. -/
theorem C110_agrees_partial (env : Env) (ops : List NarOp) (r : Reasoner) (h : runNar env ops = .ok r) (hs : SaneTelling env ops)
    (hroom : RoomEverywhere r.sh.mem) (x : Term) (k : Ranking) (t : Term) (tv : Tv) (ids : List Int)
    (hl : ListedAs r.sh.mem x k t tv ids) (y : Term) (k' : Ranking) :
    ListedAs r.sh.mem y k' t tv ids ↔ IsSubterm y t := by
  have hrel : AgreeKept createNar.sh.mem r.sh.mem := by
    refine moreNar_rel agreeKept_rel (ops := []) (more := ops) (r := createNar) rfl h ?_
    intro pre post op r0 he hr term tv ht n
    obtain ⟨h1, h2⟩ := hs pre op post r0 term tv he hr ht
    exact ⟨⟨rfl, ⟨tv, rfl, h2⟩, h1⟩, by simp [newEternalSentenceByTv]⟩
  have hmem : createNar.sh.mem = [] := rfl
  obtain ⟨⟨hw, _⟩, hag⟩ := hrel ⟨by rw [hmem]; simp [Mem.WF], by rw [hmem]; intro c hc; cases hc⟩
  have hag := (hag hroom).2 ⟨(by rintro x k t v st ⟨c, hg, _⟩; rw [hmem] at hg; cases hg),
    (by rintro x k t v st ⟨c, hg, _⟩; rw [hmem] at hg; cases hg)⟩
  rw [listedAs_iff hw] at hl ⊢
  exact ⟨fun h => hag.filed _ _ _ _ _ h, fun h => hag.same _ _ _ _ _ hl y k' h⟩

/-- C110: so there is one answer to how well a statement is known, wherever one looks for it. -/
theorem C110_one_opinion_partial (env : Env) (ops : List NarOp) (r : Reasoner) (h : runNar env ops = .ok r) (hs : SaneTelling env ops)
    (hroom : RoomEverywhere r.sh.mem) (x y : Term) (k k' : Ranking) (t : Term) (tv tv' : Tv) (ids ids' : List Int)
    (hl : ListedAs r.sh.mem x k t tv ids) (hl' : ListedAs r.sh.mem y k' t tv' ids') : tv = tv' ∧ ids = ids' := by
  have hx : IsSubterm x t := (C110_agrees_partial env ops r h hs hroom x k t tv ids hl x k).1 hl
  have h2 : ListedAs r.sh.mem x k t tv' ids' := (C110_agrees_partial env ops r h hs hroom y k' t tv' ids' hl' x k).2 hx
  have hok := memOk_of_run h
  obtain ⟨e1, e2⟩ := Shown.unique (m := r.sh.mem) hok.once ((listedAs_iff hok.wf).1 hl) ((listedAs_iff hok.wf).1 h2)
  cases e1; cases e2
  exact ⟨rfl, rfl⟩

/-! ### examples -/

/-- what is listed about the statement under the term, with the evidence -/
def listedWith (r : Reasoner) (x : Term) (k : Ranking) (t : Term) : List (Option Tv × List Int) :=
  (((r.sh.mem.filter (fun c => decide (c.name = x))).flatMap (fun c => c.list k)).filter (fun b => decide (b.term = t))).map
    (fun b => (truthOf b, b.stamp.ids))

theorem listedWith_iff {r : Reasoner} {x : Term} {k : Ranking} {t : Term} {tv : Tv} {ids : List Int} :
    ListedAs r.sh.mem x k t tv ids ↔ (some tv, ids) ∈ listedWith r x k t := by
  unfold ListedAs listedWith
  constructor
  · rintro ⟨d, h1, h2, b, h3, h4, h5, h6⟩
    refine List.mem_map.2 ⟨b, List.mem_filter.2 ⟨List.mem_flatMap.2 ⟨d, List.mem_filter.2 ⟨h1, by simpa using h2⟩, h3⟩,
      by simpa using h4⟩, ?_⟩
    rw [truthOf_iff.2 h5, h6]
  · intro h1
    obtain ⟨b, h3, h4⟩ := List.mem_map.1 h1
    obtain ⟨h5, h6⟩ := List.mem_filter.1 h3
    obtain ⟨d, h7, h8⟩ := List.mem_flatMap.1 h5
    obtain ⟨h9, h10⟩ := List.mem_filter.1 h7
    obtain ⟨e1, e2⟩ := Prod.mk.inj h4
    exact ⟨d, h9, by simpa using h10, b, h8, by simpa using h6, truthOf_iff.1 e1, e2⟩

/-- whether nothing is full -/
def roomy (r : Reasoner) : Bool :=
  decide (r.sh.mem.length < 3000) && r.sh.mem.all (fun c => decide (c.beliefsByExp.length < 20) && decide (c.beliefsByUsage.length < 20))

theorem roomy_iff {r : Reasoner} : roomy r = true ↔ RoomEverywhere r.sh.mem := by
  unfold roomy RoomEverywhere
  simp only [Bool.and_eq_true, decide_eq_true_eq, List.all_eq_true]
  refine and_congr_right fun _ => ⟨fun h c hc k => ?_, fun h c hc => ⟨h c hc .expectation, h c hc .use⟩⟩
  cases k
  · exact (h c hc).1
  · exact (h c hc).2

theorem roundabout_safe : ∀ op ∈ roundabout ++ straight, SafeUse env0 op := by
  have hA : ∀ x y v, Tv.Sane v → (∃ txt, convTermToStr (isA x y) = some txt) → SafeUse env0 (say (isA x y) v) :=
    fun x y v h1 h2 => isA_safe env0 x y v h1 h2
  intro op hop
  simp only [roundabout, straight, List.mem_append, List.mem_cons, List.mem_replicate, List.not_mem_nil, or_false, ne_eq,
    OfNat.ofNat_ne_zero, not_false_eq_true, true_and] at hop
  casesm* _ ∨ _
  all_goals first
    | (subst op; exact hA _ _ _ (by unfold Tv.Sane; decide +kernel) ⟨_, rfl⟩)
    | (subst op; trivial)

/-- a chain of conclusions: what has been concluded about `a` and `c` is listed alike under both -/
example : ∃ r, runNar env0 (roundabout ++ straight) = .ok r ∧ RoomEverywhere r.sh.mem ∧
    ListedAs r.sh.mem (.Name "a") .expectation (isA "a" "c") ⟨1, 9/40⟩ [0, 2, 1] ∧
    ∀ y k, ListedAs r.sh.mem y k (isA "a" "c") ⟨1, 9/40⟩ [0, 2, 1] ↔ IsSubterm y (isA "a" "c") := by
  have hv : (runNar env0 (roundabout ++ straight)).map (fun r => (roomy r, listedWith r (.Name "a") .expectation (isA "a" "c"))) =
      .ok (true, [(some ⟨1, 9/40⟩, [0, 2, 1])]) := by decide +kernel
  obtain ⟨r, hr, e⟩ := R.map_ok.1 hv
  obtain ⟨e1, e2⟩ := Prod.mk.inj e
  have hroom := roomy_iff.1 e1
  have hl : ListedAs r.sh.mem (.Name "a") .expectation (isA "a" "c") ⟨1, 9/40⟩ [0, 2, 1] := listedWith_iff.2 (by rw [e2]; simp)
  exact ⟨r, hr, hroom, hl, fun y k => C110_agrees_partial env0 _ r hr (SafeUse.telling roundabout_safe) hroom _ _ _ _ _ hl y k⟩

/-! ### where it goes wrong -/

/-- twenty other statements about `a` -/
def twentyOthers : List NarOp :=
  (["e", "f", "g", "h", "i", "j", "k", "l", "m", "n", "o", "p", "q", "r", "s", "t", "u", "v", "w", "x"]).map
    (fun (x : String) => say (isA "a" x) ⟨1, 1/2⟩)

/-- the roundabout way is thought through, the straight one is told; before it is thought about, other things about `a` are told -/
def interrupted : List NarOp :=
  roundabout ++ [say (isA "b" "c") ⟨1, 9/10⟩, .cycle (1/2), .cycle 0] ++ twentyOthers ++ [.declWork, .declWork]

set_option synthInstance.maxSize 2000 in
/-- Once a list is full memory contradicts itself: the reasoner concludes by a roundabout way that `a` is a `c`, with confidence
9/40; twenty other statements about `a` make this disappear from the list of beliefs about `a` ranked by expectation; when the
conclusion is drawn again with confidence 0.81, that list holds it with confidence 0.81, while the other list of beliefs about
`a`, and the lists about `c`, go on holding it with confidence 9/40. -/
theorem C110_contradicts_itself_when_full :
    ∃ r, runNar env0 interrupted = .ok r ∧ SaneTelling env0 interrupted ∧
      (∃ ids, ListedAs r.sh.mem (.Name "a") .expectation (isA "a" "c") ⟨1, 81/100⟩ ids) ∧
      (∃ ids, ListedAs r.sh.mem (.Name "a") .use (isA "a" "c") ⟨1, 9/40⟩ ids) ∧
      (∃ ids, ListedAs r.sh.mem (.Name "c") .expectation (isA "a" "c") ⟨1, 9/40⟩ ids) ∧
      (∃ ids, ListedAs r.sh.mem (.Name "c") .use (isA "a" "c") ⟨1, 9/40⟩ ids) := by
  have hv : (runNar env0 interrupted).map (fun r =>
      (listedWith r (.Name "a") .expectation (isA "a" "c"), listedWith r (.Name "a") .use (isA "a" "c"),
        listedWith r (.Name "c") .expectation (isA "a" "c"), listedWith r (.Name "c") .use (isA "a" "c"))) =
      .ok ([(some ⟨1, 81/100⟩, [3, 0])], [(some ⟨1, 9/40⟩, [0, 2, 1])], [(some ⟨1, 9/40⟩, [0, 2, 1])], [(some ⟨1, 9/40⟩, [0, 2, 1])]) := by
    decide +kernel
  obtain ⟨r, hr, e⟩ := R.map_ok.1 hv
  simp only [Prod.mk.injEq] at e
  obtain ⟨e1, e2, e3, e4⟩ := e
  refine ⟨r, hr, SafeUse.telling (fun op hop => ?_), ⟨_, listedWith_iff.2 (by rw [e1]; exact List.mem_singleton.2 rfl)⟩,
    ⟨_, listedWith_iff.2 (by rw [e2]; exact List.mem_singleton.2 rfl)⟩,
    ⟨_, listedWith_iff.2 (by rw [e3]; exact List.mem_singleton.2 rfl)⟩,
    ⟨_, listedWith_iff.2 (by rw [e4]; exact List.mem_singleton.2 rfl)⟩⟩
  rcases List.mem_append.1 hop with hop | hop
  · rcases List.mem_append.1 hop with hop | hop
    · rcases List.mem_append.1 hop with hop | hop
      · exact roundabout_safe op (List.mem_append_left _ hop)
      · refine roundabout_safe op (List.mem_append_right _ ?_)
        simp only [List.mem_cons, List.not_mem_nil, or_false] at hop
        simp only [straight, List.mem_append, List.mem_cons, List.not_mem_nil, or_false]
        tauto
    · obtain ⟨x, _, rfl⟩ := List.mem_map.1 hop
      exact isA_safe _ _ _ _ (by unfold Tv.Sane; decide +kernel) ⟨_, rfl⟩
  · simp only [List.mem_cons, List.not_mem_nil, or_false, or_self] at hop
    subst hop; trivial

end Nar.Props
