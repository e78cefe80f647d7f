import Verif.Lemmas.Vision3
import Mathlib.Tactic.NormNum
/-! # C47: prototype classifiers (ModVisionB.rs, ModVisionD.rs), C77: recognition of what was learned, C75: convolution (ModVisionC.rs) -/
namespace Nar.Props
open Nar Tv

/-! ## The choice -/

/-- C47: the answer is the first prototype of greatest similarity if that is at least one half. -/
theorem C47_best_match (sims : List Rat) (i : Nat) (s : Rat) : classifyMax sims = some (i, s) ↔ IsBest sims i s := classifyMax_some

/-- C47: there is no answer exactly if every similarity is below one half. -/
theorem C47_no_match (sims : List Rat) : classifyMax sims = none ↔ ∀ v ∈ sims, v < 1 / 2 := classifyMax_none

example : classifyMax [1/4, 3/4, 2/3, 3/4] = some (1, 3/4) ∧ classifyMax [1/4, 1/3] = none := by decide +kernel

/-- C47: without learning the classifier over truth values keeps what it knows; it answers the best match, or nothing if there
is none. -/
theorem C47_look (ps ps' : List ProtoB) (s : List (List Tv)) (t : Int) (r : Option Nat)
    (h : classifyB ps s t false = .ok (ps', r)) :
    ps' = ps ∧ ∃ sims, simsB s ps = .ok sims ∧ sims.length = ps.length ∧
      ((∃ i v, r = some i ∧ IsBest sims i v) ∨ (r = none ∧ ∀ v ∈ sims, v < 1 / 2)) := by
  rw [classifyB_eq] at h
  obtain ⟨ss, hs, ho⟩ := classifyG_ok h
  cases ho with
  | found hb => exact ⟨rfl, ss, hs, simsB_length hs, Or.inl ⟨_, _, rfl, hb⟩⟩
  | unknown hn => exact ⟨rfl, ss, hs, simsB_length hs, Or.inr ⟨rfl, hn⟩⟩

/-- C47: with learning it answers the best match, of which only the evidence and the time of the last use change, or, if there
is none, a new prototype which is the stimulus. -/
theorem C47_learn (ps ps' : List ProtoB) (s : List (List Tv)) (t : Int) (r : Option Nat)
    (h : classifyB ps s t true = .ok (ps', r)) :
    ∃ sims, simsB s ps = .ok sims ∧
      ((∃ i v p p', r = some i ∧ IsBest sims i v ∧ ps[i]? = some p ∧ ps' = ps.set i p' ∧ p'.lastUse = t ∧
          p'.channels.length = p.channels.length) ∨
        (r = some ps.length ∧ (∀ v ∈ sims, v < 1 / 2) ∧ ps' = ps ++ [{ channels := s, lastUse := t }])) := by
  rw [classifyB_eq] at h
  obtain ⟨ss, hs, ho⟩ := classifyG_ok h
  refine ⟨ss, hs, ?_⟩
  cases ho with
  | revised hb hp he =>
    refine Or.inl ⟨_, _, _, _, rfl, hb, hp, rfl, ?_⟩
    unfold reviseB at he
    obtain ⟨chs, hc, he⟩ := R.bind_ok.1 he
    cases he
    refine ⟨rfl, ?_⟩
    have := (mapM_ok_iff.1 hc).length_eq
    rw [List.length_range] at this
    exact this.symm
  | created hn => exact Or.inr ⟨rfl, hn, rfl⟩

example : ((classifyB [⟨[[⟨1, 1/2⟩, ⟨0, 1/2⟩]], 1⟩, ⟨[[⟨0, 1/2⟩, ⟨1, 1/2⟩]], 2⟩] [[⟨0, 1/2⟩, ⟨1, 1/2⟩]] 7 true) =
    .ok ([⟨[[⟨1, 1/2⟩, ⟨0, 1/2⟩]], 1⟩, ⟨[[⟨0, 2/3⟩, ⟨1, 2/3⟩]], 7⟩], some 1)) ∧
  ((classifyB [⟨[[⟨1, 1/2⟩, ⟨0, 1/2⟩]], 1⟩] [[⟨0, 1/2⟩, ⟨1, 1/2⟩]] 7 true) =
    .ok ([⟨[[⟨1, 1/2⟩, ⟨0, 1/2⟩]], 1⟩, ⟨[[⟨0, 1/2⟩, ⟨1, 1/2⟩]], 7⟩], some 1)) ∧
  ((classifyB [⟨[[⟨1, 1/2⟩, ⟨0, 1/2⟩]], 1⟩] [[⟨0, 1/2⟩, ⟨1, 1/2⟩]] 7 false) = .ok ([⟨[[⟨1, 1/2⟩, ⟨0, 1/2⟩]], 1⟩], none)) := by
  decide +kernel

/-- C47: the same for the classifier over maps. -/
theorem C47_look_maps (exp : Rat → Rat) (ps ps' : List ProtoD) (s : List (Map2d Rat)) (t : Int) (r : Option Nat)
    (h : classifyD exp ps s t false = .ok (ps', r)) :
    ps' = ps ∧ ∃ sims, simsD exp s ps = .ok sims ∧ sims.length = ps.length ∧
      ((∃ i v, r = some i ∧ IsBest sims i v) ∨ (r = none ∧ ∀ v ∈ sims, v < 1 / 2)) := by
  rw [classifyD_eq] at h
  obtain ⟨ss, hs, ho⟩ := classifyG_ok h
  cases ho with
  | found hb => exact ⟨rfl, ss, hs, simsD_length hs, Or.inl ⟨_, _, rfl, hb⟩⟩
  | unknown hn => exact ⟨rfl, ss, hs, simsD_length hs, Or.inr ⟨rfl, hn⟩⟩

/-- C47: the same for the classifier over maps, learning. -/
theorem C47_learn_maps (exp : Rat → Rat) (ps ps' : List ProtoD) (s : List (Map2d Rat)) (t : Int) (r : Option Nat)
    (h : classifyD exp ps s t true = .ok (ps', r)) :
    ∃ sims, simsD exp s ps = .ok sims ∧
      ((∃ i v p p', r = some i ∧ IsBest sims i v ∧ ps[i]? = some p ∧ ps' = ps.set i p' ∧ p'.lastUse = t ∧
          p'.evidence = p.evidence + 1) ∨
        (r = some ps.length ∧ (∀ v ∈ sims, v < 1 / 2) ∧ ps' = ps ++ [{ channels := s, lastUse := t, evidence := 1 }])) := by
  rw [classifyD_eq] at h
  obtain ⟨ss, hs, ho⟩ := classifyG_ok h
  refine ⟨ss, hs, ?_⟩
  cases ho with
  | revised hb hp he =>
    refine Or.inl ⟨_, _, _, _, rfl, hb, hp, rfl, ?_⟩
    unfold reviseD at he
    obtain ⟨chs, hc, he⟩ := R.bind_ok.1 he
    cases he
    exact ⟨rfl, rfl⟩
  | created hn => exact Or.inr ⟨rfl, hn, rfl⟩

/-! ## Histories -/

/-- C47: whatever is shown to the classifier over truth values (all stimuli of the same shape, no confidence one): it never
crashes; prototypes are never removed, at most one is added for each stimulus learned; every answer is a valid index. Each
prototype holds exactly the evidence of the stimuli which were assigned to it: the amounts of evidence, and of positive
evidence, of an entry add up. -/
theorem C47_history (shape : List Nat) (looks : List (Look (List (List Tv)))) (h : ∀ l ∈ looks, SaneStim shape l.stimulus) :
    ∃ ps rs, runLooks classifyB [] looks = .ok (ps, rs) ∧ rs.length = looks.length ∧
      ps.length ≤ (looks.filter (·.add)).length ∧ (∀ r ∈ rs, ∀ i, r = some i → i < ps.length) ∧
      ∀ k p, ps[k]? = some p → ∀ i j tv, entry p.channels i j = some tv →
        evTotal tv = sumEntry evTotal (assigned k looks rs) i j ∧ evPos tv = sumEntry evPos (assigned k looks rs) i j := by
  obtain ⟨ps, rs, hr⟩ := runB_total looks [] h (by simp)
  obtain ⟨e1, e2, e3, e4, e5⟩ := runLooks_assigned classifyB (RelB shape) (SaneStim shape) (fun s t p => reviseB p s t)
    (fun s t => ⟨s, t⟩) (by
      intro ps s t add ps' r h
      rw [classifyB_eq] at h
      obtain ⟨ss, hs, ho⟩ := classifyG_ok h
      exact ⟨ss, simsB_length hs, ho⟩)
    (fun s t hs => relB_new hs t) (fun s t p p' l hs hp he => relB_revise hs hp he) looks [] ps rs (fun _ => []) h hr
    (by simp) (by simp)
  refine ⟨ps, rs, hr, e1, by simpa using e4, e5, fun k p hk i j tv he => ?_⟩
  have := e2 k p hk
  exact ⟨this.total i j tv he, this.pos i j tv he⟩

/-- C47: prototypes are never forgotten: whatever is shown to the classifier next, the number of prototypes never falls. -/
theorem C47_never_forgets (looks : List (Look (List (List Tv)))) (ps ps' : List ProtoB) (rs : List (Option Nat))
    (h : runLooks classifyB ps looks = .ok (ps', rs)) : ps.length ≤ ps'.length :=
  (runLooks_assigned classifyB (fun _ _ => True) (fun _ => True) (fun s t p => reviseB p s t)
    (fun s t => ⟨s, t⟩) (by
      intro ps s t add ps' r h
      rw [classifyB_eq] at h
      obtain ⟨ss, hs, ho⟩ := classifyG_ok h
      exact ⟨ss, simsB_length hs, ho⟩)
    (fun _ _ _ => trivial) (fun _ _ _ _ _ _ _ _ => trivial) looks ps ps' rs (fun _ => []) (fun _ _ => trivial) h
    (fun _ _ _ => trivial) (fun _ _ => rfl)).2.2.1

/-- C47: the same for the classifier over maps (all stimuli of the same shape): each prototype counts the stimuli which were
assigned to it, and its pixels are their sums; so what stimuli are compared with is the mean. -/
theorem C47_history_maps (exp : Rat → Rat) (shape : List (Int × Int)) (looks : List (Look (List (Map2d Rat))))
    (h : ∀ l ∈ looks, MapStim shape l.stimulus) :
    ∃ ps rs, runLooks (classifyD exp) [] looks = .ok (ps, rs) ∧ rs.length = looks.length ∧
      ps.length ≤ (looks.filter (·.add)).length ∧ (∀ r ∈ rs, ∀ i, r = some i → i < ps.length) ∧
      ∀ k p, ps[k]? = some p → p.evidence = ((assigned k looks rs).length : Int) ∧
        ∀ i y x, chPix p.channels i y x = ((assigned k looks rs).map fun s => chPix s i y x).sum := by
  obtain ⟨ps, rs, hr⟩ := runD_total (exp := exp) looks [] h (by simp)
  obtain ⟨e1, e2, e3, e4, e5⟩ := runLooks_assigned (classifyD exp) (RelD shape) (MapStim shape) (fun s t p => reviseD p s t)
    (fun s t => ⟨s, t, 1⟩) (by
      intro ps s t add ps' r h
      rw [classifyD_eq] at h
      obtain ⟨ss, hs, ho⟩ := classifyG_ok h
      exact ⟨ss, simsD_length hs, ho⟩)
    (fun s t hs => relD_new hs t) (fun s t p p' l hs hp he => relD_revise hs hp he) looks [] ps rs (fun _ => []) h hr
    (by simp) (by simp)
  refine ⟨ps, rs, hr, e1, by simpa using e4, e5, fun k p hk => ?_⟩
  have := e2 k p hk
  exact ⟨this.count, this.sum⟩

example : ((runLooks classifyB [] [⟨[[⟨1, 1/2⟩, ⟨0, 1/2⟩]], 1, true⟩, ⟨[[⟨0, 1/2⟩, ⟨1, 1/2⟩]], 2, false⟩,
      ⟨[[⟨0, 1/2⟩, ⟨1, 1/2⟩]], 3, true⟩, ⟨[[⟨1, 1/2⟩, ⟨0, 1/2⟩]], 4, true⟩]) =
    .ok ([⟨[[⟨1, 2/3⟩, ⟨0, 2/3⟩]], 4⟩, ⟨[[⟨0, 1/2⟩, ⟨1, 1/2⟩]], 3⟩], [some 0, none, some 1, some 0])) ∧
  SaneStim [2] [[⟨1, 1/2⟩, ⟨0, 1/2⟩]] := by
  decide +kernel

/-! ## The similarity -/

/-- C47: the similarity over truth values is determined by the evidence that corresponding features agree (`P`) among the
evidence that they are comparable (`W`): it is `1/2 + (P − W/2)/(W + 1)`. -/
theorem C47_similarity (s : List (List Tv)) (p : ProtoB) (shape : List Nat) (hs : SaneStim shape s) (hp : SaneStim shape p.channels) :
    simB s p = .ok (1 / 2 + (sumPairs cmpPos s p.channels - sumPairs cmpTotal s p.channels / 2) / (sumPairs cmpTotal s p.channels + 1)) ∧
      0 ≤ sumPairs cmpTotal s p.channels := by
  refine ⟨simB_eq ?_ hs.2 hp.2, sumPairs_total_nonneg hs.2 hp.2⟩
  have := congrArg List.length (hs.1.trans hp.1.symm)
  simp only [List.length_map] at this
  omega

/-- C47: so a prototype is similar enough to be chosen exactly if at least half of the comparable evidence agrees. -/
theorem C47_similar_iff (s : List (List Tv)) (p : ProtoB) (shape : List Nat) (hs : SaneStim shape s) (hp : SaneStim shape p.channels) :
    ∃ v, simB s p = .ok v ∧ (1 / 2 ≤ v ↔ sumPairs cmpTotal s p.channels ≤ 2 * sumPairs cmpPos s p.channels) := by
  obtain ⟨h1, h2⟩ := C47_similarity s p shape hs hp
  exact ⟨_, h1, half_le_iff h2⟩

/-- C47: two images of the same size are similar enough exactly if at least two thirds of their pixels have a value in the
same level. -/
theorem C47_two_thirds (a b : Map2d Rat) (n : Int) (conf : Rat) (ha : UnitImage a) (hb : UnitImage b) (hw : a.w = b.w) (hh : a.h = b.h)
    (hn : 1 ≤ n) (hc0 : 0 < conf) (hc1 : conf < 1) (t : Int) :
    ∃ u v x, convImgToTvVec a n conf = .ok u ∧ convImgToTvVec b n conf = .ok v ∧ simB [u] ⟨[v], t⟩ = .ok x ∧
      (1 / 2 ≤ x ↔ 2 * (a.w * a.h) ≤ 3 * (sameLevel n a b : Int)) := by
  obtain ⟨u, v, hu, hv, su, sv, h1, h2⟩ := image_sums ha hb hw hh hn conf
  have sane : ∀ tv : Tv, (tv = ⟨0, conf⟩ ∨ tv = ⟨1, conf⟩) → Sane tv := by
    rintro tv (rfl | rfl)
    · exact ⟨le_refl _, by norm_num, hc0.le, hc1⟩
    · exact ⟨by norm_num, le_refl _, hc0.le, hc1⟩
  have hsu : AllSane [u] := by intro ch hch tv htv; rw [List.mem_singleton] at hch; subst hch; exact sane tv (su tv htv)
  have hsv : AllSane [v] := by intro ch hch tv htv; rw [List.mem_singleton] at hch; subst hch; exact sane tv (sv tv htv)
  refine ⟨u, v, _, hu, hv, simB_eq (le_refl _) hsu hsv, ?_⟩
  have hw0 := sumPairs_total_nonneg hsu hsv
  show 1 / 2 ≤ 1 / 2 + (sumPairs cmpPos [u] [v] - sumPairs cmpTotal [u] [v] / 2) / (sumPairs cmpTotal [u] [v] + 1) ↔ _
  rw [half_le_iff hw0, h1, h2]
  have hcc : 0 < conf * conf := mul_pos hc0 hc0
  have hlen : ((gridPoints 0 a.h 0 a.w).length : Int) = a.w * a.h := by
    rw [gridPoints_length]
    push_cast
    rw [Int.toNat_of_nonneg (by have := ha.1.h; omega), Int.toNat_of_nonneg (by have := ha.1.w; omega)]
    ring
  rw [← hlen]
  constructor
  · intro h
    have h' : 2 * ((gridPoints 0 a.h 0 a.w).length : Rat) - sameLevel n a b ≤ 2 * (sameLevel n a b : Rat) := by
      by_contra hc
      nlinarith [mul_lt_mul_of_pos_left (not_le.1 hc) hcc]
    have : 2 * ((gridPoints 0 a.h 0 a.w).length : Rat) ≤ 3 * (sameLevel n a b : Rat) := by linarith
    exact_mod_cast this
  · intro h
    have : 2 * ((gridPoints 0 a.h 0 a.w).length : Rat) ≤ 3 * (sameLevel n a b : Rat) := by exact_mod_cast h
    nlinarith

example : UnitImage ⟨[0, 1/2, 1], 3, 1⟩ ∧ UnitImage ⟨[0, 2/3, 1/4], 3, 1⟩ ∧ sameLevel 3 ⟨[0, 1/2, 1], 3, 1⟩ ⟨[0, 2/3, 1/4], 3, 1⟩ = 2 := by
  have key : ∀ (l : List Rat), (∀ v ∈ l, 0 ≤ v ∧ v ≤ 1) → ∀ m : Map2d Rat, m.arr = l → m.WF → UnitImage m := by
    intro l hl m hm hw
    refine ⟨hw, fun y x => ?_⟩
    by_cases h : m.Has y x
    · rw [readAt_pix_iff (readAt_in hw h)]
      exact hl _ (hm ▸ List.getElem_mem _)
    · rw [pix_out m h]; norm_num
  refine ⟨key _ ?_ _ rfl ⟨by decide, by decide, by decide⟩, key _ ?_ _ rfl ⟨by decide, by decide, by decide⟩, by decide +kernel⟩
  · intro v hv; simp only [List.mem_cons, List.not_mem_nil, or_false] at hv; rcases hv with rfl | rfl | rfl <;> norm_num
  · intro v hv; simp only [List.mem_cons, List.not_mem_nil, or_false] at hv; rcases hv with rfl | rfl | rfl <;> norm_num

/-- C47: the similarity over maps falls with the squared distance from the mean. -/
theorem C47_similarity_maps (exp : Rat → Rat) (shape : List (Int × Int)) (s : List (Map2d Rat)) (hs : MapStim shape s) (ps : List ProtoD)
    (hp : ∀ p ∈ ps, MapStim shape p.channels ∧ 0 < p.evidence) :
    simsD exp s ps = .ok (ps.map fun p => exp (meanDist s p * -(1 / 2))) := simsD_total hs hp

/-! ## What was learned is recognised -/

/-- C77: a stimulus whose features are all either present or absent is recognised as soon as it became a prototype: if nothing
was similar enough and it was learned, showing it again gives the same answer. -/
theorem C77_recognised_partial (shape : List Nat) (ps ps' : List ProtoB) (s : List (List Tv)) (t t' : Int) (add : Bool)
    (hs : SaneStim shape s) (hcr : Crisp s) (hp : ∀ p ∈ ps, SaneStim shape p.channels)
    (h : classifyB ps s t true = .ok (ps', some ps.length)) :
    ∃ ps'', classifyB ps' s t' add = .ok (ps'', some ps.length) := by
  obtain ⟨ss, hss, hcase⟩ := C47_learn ps ps' s t _ h
  rcases hcase with ⟨i, v, p, p', hi, hb, hpi, _⟩ | ⟨_, hn, rfl⟩
  · cases hi
    exact absurd (List.getElem?_eq_some_iff.1 hpi).1 (lt_irrefl _)
  · have hsim : simB s ⟨s, t⟩ = .ok _ := simB_eq (p := ⟨s, t⟩) (le_refl _) hs.2 hs.2
    have hhalf := (half_le_iff (P := sumPairs cmpPos s s) (sumPairs_total_nonneg hs.2 hs.2)).2 (sumPairs_crisp s hs.2 hcr)
    have hsims : simsB s (ps ++ [⟨s, t⟩]) = .ok (ss ++ [1 / 2 + (sumPairs cmpPos s s - sumPairs cmpTotal s s / 2) / (sumPairs cmpTotal s s + 1)]) := by
      unfold simsB at hss ⊢
      rw [mapM_ok_iff] at hss ⊢
      exact List.rel_append hss (.cons hsim .nil)
    have hl : ss.length = ps.length := simsB_length hss
    have hrev : ∀ p ∈ ps ++ [⟨s, t⟩], ∃ p', reviseB p s t' = .ok p' := by
      intro p hpm
      have hsp : SaneStim shape p.channels := by
        rcases List.mem_append.1 hpm with h | h
        · exact hp p h
        · rw [List.mem_singleton] at h; subst h; exact hs
      obtain ⟨r, e, _⟩ := reviseB_spec hsp.2 hs.2 (hsp.1.trans hs.1.symm) t'
      exact ⟨_, e⟩
    obtain ⟨ps2, r, h2⟩ := classifyG_total (mk := (⟨s, t'⟩ : ProtoB)) add hsims (by simp [hl]) hrev
    obtain ⟨ss2, hss2, ho⟩ := classifyG_ok h2
    rw [hsims] at hss2
    cases hss2
    have best : IsBest (ss ++ [1 / 2 + (sumPairs cmpPos s s - sumPairs cmpTotal s s / 2) / (sumPairs cmpTotal s s + 1)]) ps.length
        (1 / 2 + (sumPairs cmpPos s s - sumPairs cmpTotal s s / 2) / (sumPairs cmpTotal s s + 1)) := by
      refine ⟨by rw [← hl]; simp, hhalf, ?_, ?_⟩
      · intro v hv
        rcases List.mem_append.1 hv with h | h
        · exact le_trans (hn v h).le hhalf
        · rw [List.mem_singleton] at h; rw [h]
      · intro j v hj hv
        rw [List.getElem?_append_left (by omega)] at hv
        exact lt_of_lt_of_le (hn v (List.mem_of_getElem? hv)) hhalf
    refine ⟨ps2, ?_⟩
    rw [classifyB_eq, h2]
    cases ho with
    | found hb => rw [(hb.unique best).1]
    | revised hb _ _ => rw [(hb.unique best).1]
    | unknown hn' => exact absurd (hn' _ (List.mem_append_right _ List.mem_cons_self)) (not_lt.2 hhalf)
    | created hn' => exact absurd (hn' _ (List.mem_append_right _ List.mem_cons_self)) (not_lt.2 hhalf)

example : SaneStim [2, 1] [[⟨1, 1/2⟩, ⟨0, 1/2⟩], [⟨1, 9/10⟩]] ∧
    (classifyB [⟨[[⟨0, 1/2⟩, ⟨1, 1/2⟩], [⟨0, 9/10⟩]], 1⟩] [[⟨1, 1/2⟩, ⟨0, 1/2⟩], [⟨1, 9/10⟩]] 5 true).map (·.2) = .ok (some 1) := by
  decide +kernel

/-- C77, violated for features which are present to a degree: such a stimulus is not similar enough to itself, so showing it
again and again adds a new prototype each time. -/
theorem C77_unsure_never_recognised (n : Nat) (t : Int) :
    ∃ ps, runLooks classifyB [] (List.replicate n ⟨[[⟨1/2, 1/2⟩]], t, true⟩) = .ok (ps, (List.range n).map some) ∧ ps.length = n := by
  have one : simB [[⟨1/2, 1/2⟩]] ⟨[[⟨1/2, 1/2⟩]], t⟩ = .ok (9 / 19) := by
    have : simB [[⟨1/2, 1/2⟩]] ⟨[[⟨1/2, 1/2⟩]], 0⟩ = .ok (9 / 19) := by decide +kernel
    exact this
  have sims : ∀ k, simsB [[⟨1/2, 1/2⟩]] (List.replicate k ⟨[[⟨1/2, 1/2⟩]], t⟩) = .ok (List.replicate k (9 / 19)) := by
    intro k
    unfold simsB
    rw [mapM_ok_iff]
    induction k with
    | zero => exact .nil
    | succ k ih => exact .cons one ih
  have gen : ∀ n k, runLooks classifyB (List.replicate k ⟨[[⟨1/2, 1/2⟩]], t⟩) (List.replicate n ⟨[[⟨1/2, 1/2⟩]], t, true⟩) =
      .ok (List.replicate (k + n) ⟨[[⟨1/2, 1/2⟩]], t⟩, (List.range n).map fun i => some (k + i)) := by
    intro n
    induction n with
    | zero => intro k; rfl
    | succ n ih =>
      intro k
      rw [List.replicate_succ, runLooks]
      have step : classifyB (List.replicate k ⟨[[⟨1/2, 1/2⟩]], t⟩) [[⟨1/2, 1/2⟩]] t true =
          .ok (List.replicate (k + 1) ⟨[[⟨1/2, 1/2⟩]], t⟩, some k) := by
        unfold classifyB
        rw [sims k]
        have hnone : classifyMax (List.replicate k (9 / 19)) = none :=
          classifyMax_none.2 (fun v hv => by rw [List.eq_of_mem_replicate hv]; norm_num)
        simp only [bind, Except.bind, hnone, if_true, List.length_replicate]
        rw [← List.replicate_succ']
      simp only [step, bind, Except.bind, ih (k + 1)]
      rw [List.range_succ_eq_map, List.map_cons, List.map_map, show k + 1 + n = k + (n + 1) by omega]
      congr 3
      apply List.map_congr_left
      intro i _
      show some (k + 1 + i) = some (k + (i + 1))
      congr 1; omega
  refine ⟨List.replicate n ⟨[[⟨1/2, 1/2⟩]], t⟩, ?_, by simp⟩
  have := gen n 0
  simpa using this

/-- C77, weak point: a stimulus without any comparable evidence has similarity one half with everything, which counts as a
match; the first prototype of greatest similarity is answered. -/
theorem C77_nothing_matches_anything (s : List (List Tv)) (p : ProtoB) (shape : List Nat) (hs : SaneStim shape s)
    (hp : SaneStim shape p.channels) (h0 : ∀ ch ∈ s, ∀ tv ∈ ch, tv.c = 0) : simB s p = .ok (1 / 2) := by
  obtain ⟨h1, _⟩ := C47_similarity s p shape hs hp
  have zero : ∀ g : Tv → Tv → Rat, (∀ a b : Tv, a.c = 0 → g a b = 0) → sumPairs g s p.channels = 0 := by
    intro g hg
    unfold sumPairs
    have : ∀ l : List Rat, (∀ x ∈ l, x = 0) → l.sum = 0 := by
      intro l
      induction l with
      | nil => intro _; rfl
      | cons a l ih => intro h; rw [List.sum_cons, h a List.mem_cons_self, ih (fun x hx => h x (List.mem_cons_of_mem _ hx)), add_zero]
    apply this
    intro x hx
    obtain ⟨z, hz, rfl⟩ := List.mem_map.1 hx
    apply this
    intro y hy
    obtain ⟨w, hw, rfl⟩ := List.mem_map.1 hy
    exact hg _ _ (h0 _ (List.of_mem_zip hz).1 _ (List.of_mem_zip hw).1)
  have e1 := zero cmpPos (by intro a b h; unfold cmpPos; rw [h]; split <;> ring)
  have e2 := zero cmpTotal (by intro a b h; unfold cmpTotal; rw [h]; ring)
  rw [h1, e1, e2]
  norm_num

example : (classifyB [⟨[[⟨0, 1/2⟩, ⟨1, 1/2⟩]], 1⟩] [[⟨1, 0⟩, ⟨0, 0⟩]] 7 false).map (·.2) = .ok (some 0) := by decide +kernel

/-- C77: a stimulus of maps is recognised as soon as it became a prototype. -/
theorem C77_recognised_maps (exp : Rat → Rat) (he : exp 0 = 1) (shape : List (Int × Int)) (ps ps' : List ProtoD) (s : List (Map2d Rat))
    (t t' : Int) (add : Bool) (hs : MapStim shape s) (hp : ∀ p ∈ ps, MapStim shape p.channels ∧ 0 < p.evidence)
    (h : classifyD exp ps s t true = .ok (ps', some ps.length)) :
    ∃ ps'', classifyD exp ps' s t' add = .ok (ps'', some ps.length) := by
  obtain ⟨ss, hss, hcase⟩ := C47_learn_maps exp ps ps' s t _ h
  rcases hcase with ⟨i, v, p, p', hi, hb, hpi, _⟩ | ⟨_, hn, rfl⟩
  · cases hi
    exact absurd (List.getElem?_eq_some_iff.1 hpi).1 (lt_irrefl _)
  · have hp2 : ∀ p ∈ ps ++ [⟨s, t, 1⟩], MapStim shape p.channels ∧ 0 < p.evidence := by
      intro p hpm
      rcases List.mem_append.1 hpm with h | h
      · exact hp p h
      · rw [List.mem_singleton] at h; subst h; exact ⟨hs, Int.one_pos⟩
    have hsims := simsD_total (exp := exp) hs hp2
    have hss' := simsD_total (exp := exp) hs hp
    rw [hss] at hss'
    cases hss'
    have hd : meanDist s ⟨s, t, 1⟩ = 0 := by
      have hsq : ∀ l : List Rat, (∀ x ∈ l, x = 0) → l.sum = 0 := by
        intro l
        induction l with
        | nil => intro _; rfl
        | cons a l ih => intro h; rw [List.sum_cons, h a List.mem_cons_self, ih (fun x hx => h x (List.mem_cons_of_mem _ hx)), add_zero]
      unfold meanDist
      apply hsq
      intro x hx
      obtain ⟨z, hz, rfl⟩ := List.mem_map.1 hx
      have hz' : z.1 = z.2 := by
        obtain ⟨i, hi, hget⟩ := List.getElem_of_mem hz
        rw [← hget, List.getElem_zip]
      apply hsq
      intro y hy
      obtain ⟨q, _, rfl⟩ := List.mem_map.1 hy
      rw [hz']
      show (pix z.2 q.1 q.2 - pix z.2 q.1 q.2 / ((1 : Int) : Rat)) ^ 2 = 0
      norm_num
    rw [List.map_append, List.map_singleton, hd, zero_mul, he] at hsims
    have hrev : ∀ p ∈ ps ++ [⟨s, t, 1⟩], ∃ p', reviseD p s t' = .ok p' := by
      intro p hpm
      obtain ⟨r, e, _⟩ := reviseD_spec (hp2 p hpm).1 hs t'
      exact ⟨_, e⟩
    obtain ⟨ps2, r, h2⟩ := classifyG_total (mk := (⟨s, t', 1⟩ : ProtoD)) add hsims (by simp) hrev
    obtain ⟨ss2, hss2, ho⟩ := classifyG_ok h2
    rw [hsims] at hss2
    cases hss2
    have best : IsBest ((ps.map fun p => exp (meanDist s p * -(1 / 2))) ++ [1]) ps.length 1 := by
      refine ⟨by simp, by norm_num, ?_, ?_⟩
      · intro v hv
        rcases List.mem_append.1 hv with h | h
        · have := hn v h; linarith
        · rw [List.mem_singleton] at h; rw [h]
      · intro j v hj hv
        rw [List.getElem?_append_left (by simpa using hj)] at hv
        have := hn v (List.mem_of_getElem? hv); linarith
    refine ⟨ps2, ?_⟩
    rw [classifyD_eq, h2]
    cases ho with
    | found hb => rw [(hb.unique best).1]
    | revised hb _ _ => rw [(hb.unique best).1]
    | unknown hn' => exact absurd (hn' 1 (List.mem_append_right _ List.mem_cons_self)) (by norm_num)
    | created hn' => exact absurd (hn' 1 (List.mem_append_right _ List.mem_cons_self)) (by norm_num)

example : (classifyD (fun x => if x = 0 then 1 else 1 / 4) [⟨[⟨[4], 1, 1⟩], 1, 2⟩] [⟨[7], 1, 1⟩] 5 true) =
    .ok ([⟨[⟨[4], 1, 1⟩], 1, 2⟩, ⟨[⟨[7], 1, 1⟩], 5, 1⟩], some 1) ∧
  (classifyD (fun x => if x = 0 then 1 else 1 / 4) [⟨[⟨[4], 1, 1⟩], 1, 2⟩] [⟨[2], 1, 1⟩] 5 true) =
    .ok ([⟨[⟨[6], 1, 1⟩], 5, 3⟩], some 0) := by
  decide +kernel

/-! ## Quantisation -/

/-- C47: a value between zero and one becomes a vector in which exactly the feature of its level is present. -/
theorem C47_one_hot (v : Rat) (n : Int) (conf : Rat) (hn : 1 ≤ n) (h0 : 0 ≤ v) (h1 : v ≤ 1) :
    ∃ vec, convToTvVec v n conf = .ok vec ∧ (vec.length : Int) = n ∧
      ∀ (j : Nat), (j : Int) < n → vec[j]? = some ⟨if (j : Int) = (v * ((n : Rat) - 1)).floor then 1 else 0, conf⟩ := by
  obtain ⟨q0, q1⟩ := quantisize_range hn h0 h1
  refine ⟨_, convToTvVec_eq (by omega) q0 q1, by simp; omega, fun j hj => ?_⟩
  rw [← quantisize_nonneg hn h0, List.getElem?_set]
  by_cases hq : (quantisize v n).toNat = j
  · rw [if_pos hq, if_pos (by rw [List.length_replicate]; omega), if_pos (by omega)]
  · rw [if_neg hq, if_neg (by omega), List.getElem?_replicate, if_pos (by omega)]

/-- C47: the code of an image: feature `q` of the pixel in row `y` and column `x` is at place `((y * width) + x) * n + q`, present
if and only if `q` is the level of the pixel. -/
theorem C47_image_code (m : Map2d Rat) (n : Int) (conf : Rat) (hm : UnitImage m) (hn : 1 ≤ n) :
    ∃ vec, convImgToTvVec m n conf = .ok vec ∧ (vec.length : Int) = m.h * m.w * n ∧
      ∀ (y x q : Nat), (y : Int) < m.h → (x : Int) < m.w → (q : Int) < n →
        vec[(y * m.w.toNat + x) * n.toNat + q]? =
          some ⟨if (q : Int) = (pix m y x * ((n : Rat) - 1)).floor then 1 else 0, conf⟩ := by
  refine ⟨_, convImg_eq hm hn conf, ?_, fun y x q hy hx hq => ?_⟩
  · have h0 := hm.1.h
    have w0 := hm.1.w
    rw [length_flatMap_const (k := n.toNat) _ fun p _ => oneHot_length _ _ _, gridPoints_length]
    push_cast
    rw [Int.sub_zero, Int.sub_zero, Int.toNat_of_nonneg h0, Int.toNat_of_nonneg w0, Int.toNat_of_nonneg (by omega)]
  · have hp := gridPoints_at (h := m.h) (w := m.w) hy hx
    rw [getElem?_flatMap_const (k := n.toNat) (fun p _ => oneHot_length _ _ _) hp (by omega)]
    have hu := hm.2 y x
    obtain ⟨q0, q1⟩ := quantisize_range hn hu.1 hu.2
    show (oneHot n.toNat (quantisize (pix m y x) n).toNat conf)[q]? = _
    rw [← quantisize_nonneg hn hu.1]
    unfold oneHot
    rw [List.getElem?_set]
    by_cases hq' : (quantisize (pix m y x) n).toNat = q
    · rw [if_pos hq', if_pos (by rw [List.length_replicate]; omega), if_pos (by omega)]
    · rw [if_neg hq', if_neg (by omega), List.getElem?_replicate, if_pos (by omega)]

example : convImgToTvVec ⟨[0, 1, 1 / 2, 1 / 4], 2, 2⟩ 3 (1 / 2) = .ok ([1, 0, 0, 0, 0, 1, 0, 1, 0, 1, 0, 0].map fun f => ⟨f, 1 / 2⟩) := by
  decide +kernel

/-- C47: values outside of this range crash once they are too far away. -/
theorem C47_value_crash (v : Rat) (n : Int) (conf : Rat) (hn : 1 ≤ n) (h : v * ((n : Rat) - 1) ≤ -1 ∨ (n : Rat) ≤ v * ((n : Rat) - 1)) :
    ∃ e, convToTvVec v n conf = .error e := by
  apply convToTvVec_err
  unfold quantisize
  dsimp only
  have hn' : (0 : Rat) < n := by exact_mod_cast (by omega : (0 : Int) < n)
  rcases h with h | h
  · rw [if_neg (by linarith)]
    have : (1 : Int) ≤ (-(v * ((n : Rat) - 1))).floor := Rat.le_floor_iff.2 (by push_cast; linarith)
    omega
  · rw [if_pos (by linarith)]
    exact Or.inr (Or.inr (Rat.le_floor_iff.2 h))

/-- C47: the highest level is reached by the value one only (among values between zero and one). -/
theorem C47_top_level (v : Rat) (n : Int) (hn : 2 ≤ n) (h0 : 0 ≤ v) (h1 : v ≤ 1) : quantisize v n = n - 1 ↔ v = 1 := by
  have hn' : (0 : Rat) < (n : Rat) - 1 := by
    have : (2 : Rat) ≤ (n : Rat) := by exact_mod_cast hn
    linarith
  rw [quantisize_nonneg (by omega) h0]
  constructor
  · intro h
    have := Rat.floor_le (v * ((n : Rat) - 1))
    rw [h] at this
    push_cast at this
    have : 1 ≤ v := by
      by_contra hc
      nlinarith [mul_lt_mul_of_pos_right (not_le.1 hc) hn']
    exact le_antisymm h1 this
  · rintro rfl
    rw [one_mul]
    have : ((n : Rat) - 1) = ((n - 1 : Int) : Rat) := by push_cast; rfl
    rw [this]
    exact Rat.floor_intCast _

example : convToTvVec (1/2) 3 (9/10) = .ok [⟨0, 9/10⟩, ⟨1, 9/10⟩, ⟨0, 9/10⟩] ∧ convToTvVec (3/2) 3 (9/10) = .error .index ∧
    convToTvVec (-1/2) 3 (9/10) = .error .index := by decide +kernel

/-! ## Convolution -/

/-- C75: the convolution has the size of the map; each pixel is the weighted sum of the pixels around it, where positions
outside count as zero. The kernel is used up to an even number of rows and columns. -/
theorem C75_convolution_partial (v k : Map2d Rat) (hv : v.WF) (hk : k.WF) :
    ∃ c, convo v k = .ok c ∧ c.WF ∧ c.w = v.w ∧ c.h = v.h ∧
      ∀ y x, v.Has y x → pix c y x = kernelSum v k (2 * (k.h / 2)) (2 * (k.w / 2)) y x := by
  obtain ⟨c, h1, h2, h3, h4, h5⟩ := zip_spec hv (fun y x => convAt v k y x) (fun y x _ => ⟨_, convAt_eq hv hk y x⟩)
  refine ⟨c, h1, h2, h3, h4, fun y x h => ?_⟩
  have := h5 y x h
  rw [convAt_eq hv hk] at this
  exact readAt_pix_iff this

/-- C75: so for kernels of even width and height it is the full weighted sum. -/
theorem C75_convolution_even (v k : Map2d Rat) (hv : v.WF) (hk : k.WF) (hh : k.h % 2 = 0) (hw : k.w % 2 = 0) :
    ∃ c, convo v k = .ok c ∧ c.WF ∧ c.w = v.w ∧ c.h = v.h ∧ ∀ y x, v.Has y x → pix c y x = kernelSum v k k.h k.w y x := by
  obtain ⟨c, h1, h2, h3, h4, h5⟩ := C75_convolution_partial v k hv hk
  rw [show 2 * (k.h / 2) = k.h by omega, show 2 * (k.w / 2) = k.w by omega] at h5
  exact ⟨c, h1, h2, h3, h4, h5⟩

/-- C75, violated for odd kernels: the last row and the last column do not count. A kernel of one pixel of weight one, which
should give the map itself, gives a blank map. -/
theorem C75_odd_kernel_cut (v : Map2d Rat) (hv : v.WF) (a : Rat) :
    ∃ c, convo v ⟨[a], 1, 1⟩ = .ok c ∧ ∀ y x, pix c y x = 0 := by
  obtain ⟨c, h1, h2, h3, h4, h5⟩ := C75_convolution_partial v ⟨[a], 1, 1⟩ hv ⟨by show (0 : Int) ≤ 1; decide, by show (0 : Int) ≤ 1; decide, rfl⟩
  refine ⟨c, h1, fun y x => ?_⟩
  by_cases h : v.Has y x
  · rw [h5 y x h]; rfl
  · exact pix_out c (by unfold Map2d.Has at h ⊢; rw [h3, h4]; exact h)

/-- C75: the variant without border gives the same in the inner part of the map and zero near the border. -/
theorem C75_without_border (v k : Map2d Rat) (hv : v.WF) (hk : k.WF) :
    ∃ c, convWithoutBorder v k = .ok c ∧ c.WF ∧ c.w = v.w ∧ c.h = v.h ∧
      ∀ y x, pix c y x = if k.h / 2 + 1 ≤ y ∧ y < v.h - (k.h / 2 + 1) ∧ k.w / 2 + 1 ≤ x ∧ x < v.w - (k.w / 2 + 1)
        then kernelSum v k (2 * (k.h / 2)) (2 * (k.w / 2)) y x else 0 := by
  have t1 : Int.tdiv k.h 2 = k.h / 2 := Int.tdiv_eq_ediv_of_nonneg hk.h
  have t2 : Int.tdiv k.w 2 = k.w / 2 := Int.tdiv_eq_ediv_of_nonneg hk.w
  obtain ⟨arr, ha, hwf, hblank⟩ := blank_spec (0 : Rat) hv.w hv.h
  obtain ⟨c, h1, h2, h3, h4, h5, h6⟩ := paint_spec (fun _ : Int × Int => True) (fun c => c.1) (fun c => c.2)
    (fun y x => kernelSum v k (2 * (k.h / 2)) (2 * (k.w / 2)) y x)
    (gridPoints (k.h / 2 + 1) (v.h - (k.h / 2 + 1)) (k.w / 2 + 1) (v.w - (k.w / 2 + 1))) hwf
  refine ⟨c, ?_, h2, h3, h4, fun y x => ?_⟩
  · unfold convWithoutBorder makeMap2d
    rw [ha, t1, t2]
    show List.foldlM _ _ _ = _
    rw [← h1]
    apply foldlM_congr_mem
    rintro b ⟨iy, ix⟩ _
    simp only [convAt_eq hv hk, bind, Except.bind]
    rw [if_pos trivial]
  · have hkh := hk.h
    have hkw := hk.w
    by_cases hin : k.h / 2 + 1 ≤ y ∧ y < v.h - (k.h / 2 + 1) ∧ k.w / 2 + 1 ≤ x ∧ x < v.w - (k.w / 2 + 1)
    · rw [if_pos hin]
      have hv' : (⟨arr, v.w, v.h⟩ : Map2d Rat).Has y x := by
        show 0 ≤ y ∧ y < v.h ∧ 0 ≤ x ∧ x < v.w
        omega
      exact readAt_pix_iff (h5 y x hv' ⟨(y, x), mem_gridPoints.2 ⟨⟨hin.1, hin.2.1⟩, hin.2.2.1, hin.2.2.2⟩, trivial, rfl, rfl⟩)
    · rw [if_neg hin]
      have e := h6 y x (by
        rintro ⟨⟨a, b⟩, hm, _, rfl, rfl⟩
        rw [mem_gridPoints] at hm
        exact hin ⟨hm.1.1, hm.1.2, hm.2.1, hm.2.2⟩)
      by_cases hb : (⟨arr, v.w, v.h⟩ : Map2d Rat).Has y x
      · rw [hblank y x hb] at e; exact readAt_pix_iff e
      · rw [readAt_out _ hb] at e; exact readAt_pix_iff e

example : (convo ⟨[1, 2, 3, 4], 2, 2⟩ ⟨[1, 10, 100, 1000], 2, 2⟩) = .ok ⟨[1000, 2100, 3010, 4321], 2, 2⟩ ∧
    (convo ⟨[1, 2, 3, 4], 2, 2⟩ ⟨[0, 0, 0, 0, 1, 0, 0, 0, 1], 3, 3⟩) = .ok ⟨[1, 2, 3, 4], 2, 2⟩ := by decide +kernel

end Nar.Props
