import Verif.Lemmas.Rules1
import Verif.Lemmas.Tv
import Verif.Lemmas.Stamp
/-! # Property theorems about declarative inference (C10-C13, C53-C55) -/
namespace Nar.Props
open Nar Term

/-- C10: no conclusion from premises that share evidence. -/
theorem C10_no_conclusion_on_shared_evidence (pa pb : Sentence) (cs : List (Sentence × Rat)) (w : Bool)
    (h : inference pa pb = .ok (cs, w)) (e : Int) (ha : e ∈ pa.stamp.ids) (hb : e ∈ pb.stamp.ids) :
    cs = [] := by
  obtain ⟨ta, tb, rs, _, _, _, rfl⟩ := inference_ok h
  rw [(Stamp.checkOverlap_iff _ _).2 ⟨e, ha, hb⟩]; rfl

/-- C10: every conclusion carries the combined trail of both premises; it shares evidence with each
premise that has any, and combining it with that premise again, in either order, yields nothing. -/
theorem C10_conclusion_shares_evidence (pa pb : Sentence) (cs : List (Sentence × Rat)) (w : Bool)
    (h : inference pa pb = .ok (cs, w)) (c : Sentence × Rat) (hc : c ∈ cs) :
    c.1.stamp = Stamp.merge pa.stamp pb.stamp ∧
    ∀ p, (p = pa ∨ p = pb) → p.stamp.ids ≠ [] →
      (∃ e, e ∈ c.1.stamp.ids ∧ e ∈ p.stamp.ids) ∧
      (∀ cs' w', inference c.1 p = .ok (cs', w') → cs' = []) ∧
      (∀ cs' w', inference p c.1 = .ok (cs', w') → cs' = []) := by
  obtain ⟨ta, tb, rs, _, _, _, rfl⟩ := inference_ok h
  split at hc
  · simp at hc
  · obtain ⟨x, _, rfl⟩ := List.mem_map.1 hc
    refine ⟨rfl, ?_⟩
    intro p hp hne
    have : ∃ e, e ∈ (Stamp.merge pa.stamp pb.stamp).ids ∧ e ∈ p.stamp.ids := by
      rw [← Stamp.checkOverlap_iff]
      rcases hp with rfl | rfl
      · exact Stamp.merge_overlap_left _ _ hne
      · exact Stamp.merge_overlap_right _ _ hne
    refine ⟨this, ?_, ?_⟩
    · obtain ⟨e, h1, h2⟩ := this
      exact fun cs' w' h' => C10_no_conclusion_on_shared_evidence _ _ _ _ h' e h1 h2
    · obtain ⟨e, h1, h2⟩ := this
      exact fun cs' w' h' => C10_no_conclusion_on_shared_evidence _ _ _ _ h' e h2 h1

/-- C10: a single-premise conclusion has exactly the evidence of its premise. -/
theorem C10_single_premise_evidence (pa : Sentence) (cs : List (Sentence × Rat))
    (h : infSinglePremise2 pa = .ok cs) (c : Sentence × Rat) (hc : c ∈ cs) :
    c.1.stamp = pa.stamp := by
  obtain ⟨ta, rs, _, _, rfl⟩ := infSinglePremise2_ok h
  obtain ⟨x, _, rfl⟩ := List.mem_map.1 hc
  rfl

/-- example premises: `<s --> m>. {1 0.9}` and `<m --> p>. {1 0.9}` with evidence 1 and 2 -/
def exA : Sentence := newEternalSentenceByTv (.Stmt .INH (.Name "s") (.Name "m")) .JUGEMENT ⟨1, 9/10⟩ ⟨[1]⟩
def exB : Sentence := newEternalSentenceByTv (.Stmt .INH (.Name "m") (.Name "p")) .JUGEMENT ⟨1, 9/10⟩ ⟨[2]⟩

example : ∃ c w, inference exA exB = .ok ([c], w) ∧ c.1.stamp.ids = [1, 2] ∧
    checkEqTerm c.1.term (.Stmt .INH (.Name "s") (.Name "p")) = true :=
  ⟨_, _, rfl, by decide, by decide⟩

/-- a premise combined with itself yields nothing; the conclusion combined with a premise yields nothing -/
example : (∃ w, inference exA exA = .ok ([], w)) ∧
    ∃ c w, inference exA exB = .ok ([c], w) ∧ ∃ w', inference c.1 exA = .ok ([], w') := by
  constructor
  · obtain ⟨⟨cs, w⟩, h⟩ : ∃ r, inference exA exA = .ok r := ⟨_, rfl⟩
    obtain rfl := C10_no_conclusion_on_shared_evidence exA exA cs w h 1 (by simp [exA, newEternalSentenceByTv])
      (by simp [exA, newEternalSentenceByTv])
    exact ⟨w, h⟩
  · refine ⟨_, _, rfl, ?_⟩
    obtain ⟨⟨cs, w⟩, h⟩ : ∃ r, inference (conclSentence (.Stmt .INH (.Name "s") (.Name "p"))
      (Tv.ded ⟨1, 9/10⟩ ⟨1, 9/10⟩) .JUGEMENT (Stamp.merge ⟨[1]⟩ ⟨[2]⟩)) exA = .ok r := ⟨_, rfl⟩
    obtain rfl := C10_no_conclusion_on_shared_evidence _ exA cs w h 1 (by decide) (by simp [exA, newEternalSentenceByTv])
    exact ⟨w, h⟩

/-- C11: two-premise inference invents no names and no variables. -/
theorem C11_no_invented_vocabulary (pa pb : Sentence) (cs : List (Sentence × Rat)) (w : Bool)
    (h : inference pa pb = .ok (cs, w)) (c : Sentence × Rat) (hc : c ∈ cs)
    (x : Term) (hx : IsAtom x) (hsub : IsSubterm x c.1.term) :
    IsSubterm x pa.term ∨ IsSubterm x pb.term := by
  obtain ⟨ta, tb, rs, _, _, hb, rfl⟩ := inference_ok h
  split at hc
  · simp at hc
  · obtain ⟨⟨t, tv, p⟩, hr, rfl⟩ := List.mem_map.1 hc
    have ho : Occ x t := ⟨hx, hsub⟩
    have key : ∀ {a b : Term} {pa pb : Punct} {ta tb : Option Tv},
        .ok (some (t, tv, p)) ∈ binaryRules a pa ta b pb tb → Occ x a ∨ Occ x b := by
      intro a b pa pb ta tb hm
      rcases binaryRules_some hm with ⟨rfl, rfl, ta', tb', rfl, rfl⟩ | ⟨rfl, rfl, tb', s, q, σ, rfl, rfl, hu, e⟩
      · exact rule2_occ ((binaryRules_iff t tv p).1 hm).2 ho
      · cases e
        exact occ_unify hu ho
    rcases ((infBinary_ok hb).1 _).1 hr with hm | hm
    · exact (key hm).imp And.right And.right
    · exact (key hm).symm.imp And.right And.right

/-- C11: single-premise inference invents no names and no variables. -/
theorem C11_no_invented_vocabulary_single (pa : Sentence) (cs : List (Sentence × Rat))
    (h : infSinglePremise2 pa = .ok cs) (c : Sentence × Rat) (hc : c ∈ cs)
    (x : Term) (hx : IsAtom x) (hsub : IsSubterm x c.1.term) : IsSubterm x pa.term := by
  obtain ⟨ta, rs, _, hs, rfl⟩ := infSinglePremise2_ok h
  obtain ⟨⟨t, tv, p, w⟩, hr, rfl⟩ := List.mem_map.1 hc
  obtain ⟨ta', rfl, _, rfl, hrule⟩ := infSinglePremise_rule hs hr
  exact (rule1_occ hrule ⟨hx, hsub⟩).2

/-- the conclusion about `s` and `p` has only names of the premises -/
example : ∃ c w, inference exA exB = .ok ([c], w) ∧ IsSubterm (.Name "p") c.1.term ∧
    (IsSubterm (.Name "p") exA.term ∨ IsSubterm (.Name "p") exB.term) := by
  refine ⟨_, _, rfl, ?_, ?_⟩
  · rw [← mem_retSubterms]; decide
  · exact C11_no_invented_vocabulary exA exB _ _ rfl _ (List.mem_singleton.2 rfl) (.Name "p") (by simp [IsAtom])
      (by rw [← mem_retSubterms]; decide)

theorem rule2_range {a ta b tb t tv} (h : Rule2 a ta b tb t tv) (ha : Tv.InRange ta) (hb : Tv.InRange tb) :
    Tv.InRange tv := by
  cases h with
  | setUnion => exact (Tv.int_range ha hb).1
  | intersection => exact (Tv.int_range ha hb).1
  | comparePred => exact (Tv.comp_range ha hb).1
  | compareSubj => exact (Tv.comp_range ha hb).1
  | deduction => exact Tv.ded_range ha hb
  | abduction => exact (Tv.abd_range ha hb).1
  | induction => exact (Tv.abd_range hb ha).1
  | detach => exact Tv.ded_range ha hb
  | conjDetach => exact Tv.ded_range ha hb

theorem rule1_range {a ta t tv} (h : Rule1 a ta t tv) (ha : Tv.InRange ta) : Tv.InRange tv := by
  cases h with
  | negation => exact Tv.neg_range ha
  | _ => exact ha

/-- C12: conclusions of two premises are judgements with a truth value in range, if the truth values
of the premises are in range. -/
theorem C12_truth_in_range (pa pb : Sentence) (cs : List (Sentence × Rat)) (w : Bool)
    (ha : ∀ tv, retTv pa = .ok (some tv) → Tv.InRange tv)
    (hb : ∀ tv, retTv pb = .ok (some tv) → Tv.InRange tv)
    (h : inference pa pb = .ok (cs, w)) (c : Sentence × Rat) (hc : c ∈ cs) :
    c.1.punct = .JUGEMENT ∧ ∃ tv, retTv c.1 = .ok (some tv) ∧ Tv.InRange tv := by
  obtain ⟨ta, tb, rs, h1, h2, hbin, rfl⟩ := inference_ok h
  split at hc
  · simp at hc
  · obtain ⟨⟨t, tv, p⟩, hr, rfl⟩ := List.mem_map.1 hc
    have key : ∀ {a b : Term} {pa' pb' : Punct},
        .ok (some (t, tv, p)) ∈ binaryRules a pa' ta b pb' tb → p = .JUGEMENT ∧ Tv.InRange tv := by
      intro a b pa' pb' hm
      rcases binaryRules_some hm with ⟨rfl, rfl, ta', tb', rfl, rfl⟩ | ⟨rfl, rfl, tb', s, q, σ, rfl, rfl, hu, e⟩
      · obtain ⟨rfl, hrule⟩ := (binaryRules_iff t tv p).1 hm
        exact ⟨rfl, rule2_range hrule (ha _ h1) (hb _ h2)⟩
      · cases e; exact ⟨rfl, hb _ h2⟩
    have : p = .JUGEMENT ∧ Tv.InRange tv := by
      rcases ((infBinary_ok hbin).1 _).1 hr with hm | hm
      · exact key hm
      · exact key hm
    exact ⟨this.1, tv, rfl, this.2⟩

/-- the conclusion of the two example premises is a judgement in range -/
example : ∃ c w, inference exA exB = .ok ([c], w) ∧ c.1.punct = .JUGEMENT ∧
    ∃ tv, retTv c.1 = .ok (some tv) ∧ Tv.InRange tv := by
  have hr : ∀ tv, (.ok (some ⟨1, 9/10⟩) : R (Option Tv)) = .ok (some tv) → Tv.InRange tv := by
    rintro tv ⟨⟩
    unfold Tv.InRange
    decide +kernel
  exact ⟨_, _, rfl, C12_truth_in_range exA exB _ _ hr hr rfl _ (List.mem_singleton.2 rfl)⟩

/-- C12: the same for one premise. -/
theorem C12_truth_in_range_single (pa : Sentence) (cs : List (Sentence × Rat))
    (ha : ∀ tv, retTv pa = .ok (some tv) → Tv.InRange tv)
    (h : infSinglePremise2 pa = .ok cs) (c : Sentence × Rat) (hc : c ∈ cs) :
    c.1.punct = .JUGEMENT ∧ ∃ tv, retTv c.1 = .ok (some tv) ∧ Tv.InRange tv := by
  obtain ⟨ta, rs, h1, hs, rfl⟩ := infSinglePremise2_ok h
  obtain ⟨⟨t, tv, p, w⟩, hr, rfl⟩ := List.mem_map.1 hc
  obtain ⟨ta', rfl, _, rfl, hrule⟩ := infSinglePremise_rule hs hr
  exact ⟨rfl, tv, rfl, rule1_range hrule (ha _ h1)⟩

/-- C12: counted evidence yields a truth value in range with confidence below 1. -/
theorem C12_counted_evidence_in_range (s : Sentence) (pos cnt : Int) (h0 : 0 ≤ pos) (h1 : pos ≤ cnt)
    (h2 : 0 < cnt) (he : s.evi = some (.CNT pos cnt)) :
    ∃ tv, retTv s = .ok (some tv) ∧ Tv.Sane tv := by
  have hc : (0 : Rat) < cnt := by exact_mod_cast h2
  have hp : (0 : Rat) ≤ pos := by exact_mod_cast h0
  have hpc : (pos : Rat) ≤ cnt := by exact_mod_cast h1
  refine ⟨⟨(pos : Rat) / cnt, (cnt : Rat) / (cnt + 1)⟩, ?_, ?_, ?_, ?_, ?_⟩
  · simp only [retTv, he, retFreq, retConf]
    rw [if_neg (by omega), if_neg (by omega)]; rfl
  · exact div_nonneg hp hc.le
  · exact (div_le_one hc).2 hpc
  · exact div_nonneg hc.le (by linarith)
  · exact (div_lt_one (by linarith)).2 (by linarith)

/-- three positive ones of four observations -/
example : ∃ tv, retTv ⟨.Name "a", none, .JUGEMENT, ⟨[1]⟩, none, some (.CNT 3 4), ⟨0, 0, []⟩⟩ = .ok (some tv) ∧ Tv.Sane tv :=
  C12_counted_evidence_in_range _ 3 4 (by decide) (by decide) (by decide) rfl

/-- C12: two questions, or any premise pair without a judgement, give no conclusion. -/
theorem C12_no_conclusion_without_judgement (pa pb : Sentence) (cs : List (Sentence × Rat)) (w : Bool)
    (ha : pa.punct ≠ .JUGEMENT) (hb : pb.punct ≠ .JUGEMENT) (h : inference pa pb = .ok (cs, w)) :
    cs = [] := by
  obtain ⟨ta, tb, rs, h1, h2, hbin, rfl⟩ := inference_ok h
  cases rs with
  | nil => simp
  | cons x rs =>
    exfalso
    rcases ((infBinary_ok hbin).1 x).1 (by simp) with hm | hm
    · rcases binaryRules_some hm with ⟨h, _⟩ | ⟨_, h, _⟩
      · exact ha h
      · exact hb h
    · rcases binaryRules_some hm with ⟨h, _⟩ | ⟨_, h, _⟩
      · exact hb h
      · exact ha h

example : Tv.InRange ⟨1, 9/10⟩ ∧ ∃ s : Sentence, s.evi = some (.CNT 3 4) :=
  ⟨by decide +kernel, ⟨.Name "a", none, .JUGEMENT, ⟨[1]⟩, none, some (.CNT 3 4), ⟨0, 0, []⟩⟩, rfl⟩

/-- C13: inference on two judgements with evidence never panics. -/
theorem C13_judgements_never_crash (pa pb : Sentence) (ta tb : Tv)
    (hpa : pa.punct = .JUGEMENT) (hpb : pb.punct = .JUGEMENT)
    (ha : retTv pa = .ok (some ta)) (hb : retTv pb = .ok (some tb)) :
    ∃ r, inference pa pb = .ok r := by
  obtain ⟨rs, w, h⟩ := infBinary_total (a := pa.term) (b := pb.term) (ta := ta) (tb := tb)
  rw [← hpa] at h
  conv at h => lhs; arg 5; rw [hpa, ← hpb]
  obtain ⟨cs, h⟩ := inference_total ha hb h
  exact ⟨_, h⟩

/-- two judgements about nothing in common are processed as well -/
example : ∃ r, inference exA (newEternalSentenceByTv (.Stmt .IMPL (.Name "x") (.SetExt [.Name "y"])) .JUGEMENT
    ⟨1/2, 3/4⟩ ⟨[5]⟩) = .ok r :=
  C13_judgements_never_crash _ _ ⟨1, 9/10⟩ ⟨1/2, 3/4⟩ rfl rfl rfl rfl

/-- C13: single-premise inference on a judgement with evidence panics exactly on an inheritance
statement whose subject is a product with fewer than two components. -/
theorem C13_single_premise_crash_exact (pa : Sentence) (ta : Tv) (hpa : pa.punct = .JUGEMENT)
    (ha : retTv pa = .ok (some ta)) :
    (∃ r, infSinglePremise2 pa = .ok r) ↔
      ¬ ∃ arr rel, pa.term = .Stmt .INH (.Prod arr) rel ∧ arr.length < 2 := by
  constructor
  · rintro ⟨r, h⟩ ⟨arr, rel, he, hl⟩
    obtain ⟨ta', rs, h1, h2, _⟩ := infSinglePremise2_ok h
    obtain ⟨par, _, htot, _⟩ := infSinglePremise_ok h2
    rw [ha] at h1; cases h1
    obtain ⟨o, ho⟩ := htot (infStructProd0 pa.term pa.punct (some ta)) (by simp [singleRules])
    rw [hpa, he] at ho
    rcases arr with _ | ⟨x, _ | ⟨y, rest⟩⟩
    · cases ho
    · cases ho
    · simp only [List.length_cons] at hl; omega
  · intro hs
    obtain ⟨o, ho, _⟩ := infStructDecomposePar_eq pa.term ta
    obtain ⟨rs, h⟩ := infSinglePremise_total (singleRules_total (a := pa.term) (ta := ta) hs) ⟨o, ho⟩
    refine ⟨rs.map (fun x => (conclSentence x.1 x.2.1 x.2.2.1 pa.stamp, x.2.2.2)), ?_⟩
    unfold infSinglePremise2
    rw [ha, hpa]; simp only [bind, Except.bind, h]

/-- a product of one thing crashes, a product of two does not -/
example : (¬ ∃ r, infSinglePremise2 (newEternalSentenceByTv (.Stmt .INH (.Prod [.Name "a"]) (.Name "r")) .JUGEMENT
      ⟨1, 9/10⟩ ⟨[1]⟩) = .ok r) ∧
    ∃ r, infSinglePremise2 (newEternalSentenceByTv (.Stmt .INH (.Prod [.Name "a", .Name "b"]) (.Name "r")) .JUGEMENT
      ⟨1, 9/10⟩ ⟨[1]⟩) = .ok r := by
  constructor
  · rw [C13_single_premise_crash_exact _ ⟨1, 9/10⟩ rfl rfl]
    exact fun h => h ⟨_, _, rfl, by decide⟩
  · rw [C13_single_premise_crash_exact _ ⟨1, 9/10⟩ rfl rfl]
    rintro ⟨arr, rel, h, hl⟩
    cases h
    exact absurd hl (by decide)

/-- a question, which has no truth value -/
def exQuestion (t : Term) : Sentence := newEternalSentenceByTv t .QUESTION ⟨0, 0⟩ ⟨[7]⟩

/-- C13 (violated with questions): a judgement combined with an implication question about it
panics, although the same two sentences in the other order are processed. -/
theorem C13_question_crashes_in_one_order : ∃ j q : Sentence, j.punct = .JUGEMENT ∧ q.punct = .QUESTION ∧
    inference j q = .error .unwrapNone ∧ ∃ r, inference q j = .ok r :=
  ⟨exA, exQuestion (.Stmt .IMPL (.Name "x") (.Stmt .INH (.Name "s") (.Name "m"))), rfl, rfl, rfl, _, rfl⟩

/-- C13 (violated with questions): single-premise inference on a question about a relational image
panics. -/
theorem C13_image_question_crashes : ∃ q : Sentence, q.punct = .QUESTION ∧
    infSinglePremise2 q = .error .unwrapNone :=
  ⟨exQuestion (.Stmt .INH (.Name "x") (.Img (.Name "rel") 0 [.Name "y"])), rfl, rfl⟩

example : ∃ r, infSinglePremise2 (newEternalSentenceByTv
    (.Stmt .INH (.Prod [.Name "a", .Name "b"]) (.Name "r")) .JUGEMENT ⟨1, 9/10⟩ ⟨[1]⟩) = .ok r ∧
    r.length = 2 := ⟨_, rfl, rfl⟩

/-- what a list of conclusions says: statement `t` with truth `tv` -/
def Concludes (cs : List (Sentence × Rat)) (t : Term) (tv : Tv) : Prop :=
  ∃ c ∈ cs, c.1.term = t ∧ c.1.evi = some (.TV tv)

/-- C53: combining two judgements with independent evidence draws exactly the conclusions of the
documented rules, with the premises taken in either order.  The truth values are always passed in
the original order: the second disjunct has `ta`, `tb` unswapped. -/
theorem C53_two_premise_conclusions_exact (pa pb : Sentence) (ta tb : Tv)
    (hpa : pa.punct = .JUGEMENT) (hpb : pb.punct = .JUGEMENT)
    (ha : retTv pa = .ok (some ta)) (hb : retTv pb = .ok (some tb))
    (hdisj : ∀ e ∈ pa.stamp.ids, e ∉ pb.stamp.ids) :
    ∃ cs w, inference pa pb = .ok (cs, w) ∧ (w = true ↔ cs ≠ []) ∧ ∀ t tv,
      Concludes cs t tv ↔ Rule2 pa.term ta pb.term tb t tv ∨ Rule2 pb.term ta pa.term tb t tv := by
  obtain ⟨⟨cs, w⟩, h⟩ := C13_judgements_never_crash pa pb ta tb hpa hpb ha hb
  refine ⟨cs, w, h, ?_⟩
  obtain ⟨ta', tb', rs, h1, h2, hbin, rfl⟩ := inference_ok h
  rw [ha] at h1; cases h1
  rw [hb] at h2; cases h2
  have hov : Stamp.checkOverlap pa.stamp pb.stamp = false := by
    rw [← Bool.not_eq_true, Stamp.checkOverlap_iff]; rintro ⟨e, h1, h2⟩; exact hdisj e h1 h2
  rw [hpa, hpb] at hbin
  obtain ⟨hm, hw⟩ := infBinary_ok hbin
  refine ⟨by simp [hw, hov], ?_⟩
  intro t tv
  have : Concludes (if Stamp.checkOverlap pa.stamp pb.stamp = true then [] else
      rs.map (fun x => (conclSentence x.1 x.2.1 x.2.2 (Stamp.merge pa.stamp pb.stamp), (1 : Rat)))) t tv ↔
      ∃ p, (t, tv, p) ∈ rs := by
    rw [hov]
    simp [Concludes, conclSentence]
  rw [this]
  constructor
  · rintro ⟨p, hp⟩
    rw [hm, binaryRules_iff, binaryRules_iff] at hp
    exact hp.imp And.right And.right
  · rintro (h | h)
    · exact ⟨.JUGEMENT, (hm _).2 (Or.inl ((binaryRules_iff _ _ _).2 ⟨rfl, h⟩))⟩
    · exact ⟨.JUGEMENT, (hm _).2 (Or.inr ((binaryRules_iff _ _ _).2 ⟨rfl, h⟩))⟩

/-- the two example premises conclude `<s --> p>` by deduction -/
example : ∃ cs w, inference exA exB = .ok (cs, w) ∧
    Concludes cs (.Stmt .INH (.Name "s") (.Name "p")) (Tv.ded ⟨1, 9/10⟩ ⟨1, 9/10⟩) := by
  obtain ⟨cs, w, h, -, hc⟩ := C53_two_premise_conclusions_exact exA exB ⟨1, 9/10⟩ ⟨1, 9/10⟩ rfl rfl rfl rfl
    (by simp [exA, exB, newEternalSentenceByTv])
  exact ⟨cs, w, h, (hc _ _).2 (.inl (.deduction _ _ _ _ _ _ (by decide) (by decide)))⟩

/-- C54: a single judgement yields exactly the documented structural conclusions. -/
theorem C54_single_premise_conclusions_exact (pa : Sentence) (ta : Tv)
    (hpa : pa.punct = .JUGEMENT) (ha : retTv pa = .ok (some ta))
    (hp : ¬ ∃ arr rel, pa.term = .Stmt .INH (.Prod arr) rel ∧ arr.length < 2) :
    ∃ cs, infSinglePremise2 pa = .ok cs ∧ ∀ t tv, Concludes cs t tv ↔ Rule1 pa.term ta t tv := by
  obtain ⟨cs, h⟩ := (C13_single_premise_crash_exact pa ta hpa ha).2 hp
  refine ⟨cs, h, ?_⟩
  obtain ⟨ta', rs, h1, hs, rfl⟩ := infSinglePremise2_ok h
  rw [ha] at h1; cases h1
  intro t tv
  have : Concludes (rs.map (fun x => (conclSentence x.1 x.2.1 x.2.2.1 pa.stamp, x.2.2.2))) t tv ↔
      ∃ p w, (t, tv, p, w) ∈ rs := by
    unfold Concludes
    constructor
    · rintro ⟨c, hc, rfl, h2⟩
      obtain ⟨⟨t', tv', p, w⟩, hx, rfl⟩ := List.mem_map.1 hc
      cases h2; exact ⟨p, w, hx⟩
    · rintro ⟨p, w, hx⟩
      exact ⟨_, List.mem_map.2 ⟨_, hx, rfl⟩, rfl, rfl⟩
  rw [this]
  constructor
  · rintro ⟨p, w, hx⟩
    obtain ⟨ta', e, _, _, hr⟩ := infSinglePremise_rule hs hx
    cases e; exact hr
  · intro hr
    obtain ⟨par, hpar, _, hmem⟩ := infSinglePremise_ok hs
    rw [hpa] at hpar hmem
    obtain ⟨o, ho, ho2⟩ := infStructDecomposePar_eq pa.term ta
    rw [ho] at hpar; cases hpar
    obtain ⟨w, hw⟩ := (singleRules_iff t tv .JUGEMENT).2 ⟨rfl, hr⟩
    refine ⟨.JUGEMENT, w, (hmem _).2 ?_⟩
    rw [ho2]; exact hw

example : Rule1 (.Stmt .INH (.Prod [.Name "a", .Name "b"]) (.Name "r")) ⟨1, 9/10⟩
    (.Stmt .INH (.Name "b") (.Img (.Name "r") 1 [.Name "a"])) ⟨1, 9/10⟩ := .productRight ..

theorem ded_comm (a b : Tv) : Tv.ded a b = Tv.ded b a := by
  simp [Tv.ded]; constructor <;> ring
theorem comp_comm (a b : Tv) : Tv.comp a b = Tv.comp b a := by
  have : Tv.or a.f b.f = Tv.or b.f a.f := by simp [Tv.or]; ring
  simp only [Tv.comp, this]
  rw [mul_comm a.f b.f]
  congr 2; ring
theorem int_comm (a b : Tv) : Tv.int a b = Tv.int b a := by
  simp [Tv.int]; constructor <;> ring

/-- C55: which statements are concluded does not depend on the order of the premises. -/
theorem C55_statements_order_independent (pa pb : Sentence) (ta tb : Tv)
    (hpa : pa.punct = .JUGEMENT) (hpb : pb.punct = .JUGEMENT)
    (ha : retTv pa = .ok (some ta)) (hb : retTv pb = .ok (some tb))
    (hdisj : ∀ e ∈ pa.stamp.ids, e ∉ pb.stamp.ids) :
    ∃ cs w cs' w', inference pa pb = .ok (cs, w) ∧ inference pb pa = .ok (cs', w') ∧
      ∀ t, (∃ tv, Concludes cs t tv) ↔ ∃ tv, Concludes cs' t tv := by
  obtain ⟨cs, w, h, _, hc⟩ := C53_two_premise_conclusions_exact pa pb ta tb hpa hpb ha hb hdisj
  obtain ⟨cs', w', h', _, hc'⟩ := C53_two_premise_conclusions_exact pb pa tb ta hpb hpa hb ha
    (fun e h1 h2 => hdisj e h2 h1)
  refine ⟨cs, w, cs', w', h, h', ?_⟩
  have key : ∀ {a b t ta tb tv}, Rule2 a ta b tb t tv → ∀ ta' tb', ∃ tv', Rule2 a ta' b tb' t tv' := by
    intro a b t ta tb tv h ta' tb'
    cases h with
    | setUnion => exact ⟨_, .setUnion ..⟩
    | intersection _ _ _ _ _ h => exact ⟨_, .intersection _ _ _ _ _ h⟩
    | comparePred _ _ _ _ _ _ _ h1 h2 h => exact ⟨_, .comparePred _ _ _ _ _ _ _ h1 h2 h⟩
    | compareSubj _ _ _ _ _ _ _ h1 h2 h => exact ⟨_, .compareSubj _ _ _ _ _ _ _ h1 h2 h⟩
    | deduction _ _ _ _ _ _ h1 h => exact ⟨_, .deduction _ _ _ _ _ _ h1 h⟩
    | abduction _ _ _ _ _ h => exact ⟨_, .abduction _ _ _ _ _ h⟩
    | induction _ _ _ _ _ h => exact ⟨_, .induction _ _ _ _ _ h⟩
    | detach _ _ _ _ _ _ h => exact ⟨_, .detach _ _ _ _ _ _ h⟩
    | conjDetach _ _ _ _ _ _ _ _ h1 h => exact ⟨_, .conjDetach _ _ _ _ _ _ _ _ h1 h⟩
  intro t
  constructor
  · rintro ⟨tv, h⟩
    rcases (hc t tv).1 h with h | h
    · obtain ⟨tv', h⟩ := key h tb ta; exact ⟨tv', (hc' t tv').2 (Or.inr h)⟩
    · obtain ⟨tv', h⟩ := key h tb ta; exact ⟨tv', (hc' t tv').2 (Or.inl h)⟩
  · rintro ⟨tv, h⟩
    rcases (hc' t tv).1 h with h | h
    · obtain ⟨tv', h⟩ := key h ta tb; exact ⟨tv', (hc t tv').2 (Or.inr h)⟩
    · obtain ⟨tv', h⟩ := key h ta tb; exact ⟨tv', (hc t tv').2 (Or.inl h)⟩

/-- C55 (partial: everything but inheritance conclusions): the truth values do not depend on the
order of the premises either.  Missing: inheritance conclusions, see the violation below. -/
theorem C55_truth_order_independent_partial (pa pb : Sentence) (ta tb : Tv)
    (hpa : pa.punct = .JUGEMENT) (hpb : pb.punct = .JUGEMENT)
    (ha : retTv pa = .ok (some ta)) (hb : retTv pb = .ok (some tb))
    (hdisj : ∀ e ∈ pa.stamp.ids, e ∉ pb.stamp.ids) :
    ∃ cs w cs' w', inference pa pb = .ok (cs, w) ∧ inference pb pa = .ok (cs', w') ∧
      ∀ t tv, (∀ s p, t ≠ .Stmt .INH s p) → (Concludes cs t tv ↔ Concludes cs' t tv) := by
  obtain ⟨cs, w, h, _, hc⟩ := C53_two_premise_conclusions_exact pa pb ta tb hpa hpb ha hb hdisj
  obtain ⟨cs', w', h', _, hc'⟩ := C53_two_premise_conclusions_exact pb pa tb ta hpb hpa hb ha
    (fun e h1 h2 => hdisj e h2 h1)
  refine ⟨cs, w, cs', w', h, h', ?_⟩
  have key : ∀ {a b t ta tb tv}, (∀ s p, t ≠ .Stmt .INH s p) → Rule2 a ta b tb t tv →
      Rule2 a tb b ta t tv := by
    intro a b t ta tb tv hn h
    cases h with
    | setUnion => exact absurd rfl (hn _ _)
    | intersection => exact absurd rfl (hn _ _)
    | comparePred _ _ _ _ _ _ _ h1 h2 h => rw [comp_comm]; exact .comparePred _ _ _ _ _ _ _ h1 h2 h
    | compareSubj _ _ _ _ _ _ _ h1 h2 h => rw [comp_comm]; exact .compareSubj _ _ _ _ _ _ _ h1 h2 h
    | deduction _ _ _ _ _ _ h1 h => rw [ded_comm]; exact .deduction _ _ _ _ _ _ h1 h
    | abduction => exact absurd rfl (hn _ _)
    | induction => exact absurd rfl (hn _ _)
    | detach _ _ _ _ _ _ h => rw [ded_comm]; exact .detach _ _ _ _ _ _ h
    | conjDetach _ _ _ _ _ _ _ _ h1 h => rw [ded_comm]; exact .conjDetach _ _ _ _ _ _ _ _ h1 h
  intro t tv hn
  rw [hc, hc']
  constructor
  · rintro (h | h)
    · exact Or.inr (key hn h)
    · exact Or.inl (key hn h)
  · rintro (h | h)
    · exact Or.inr (key hn h)
    · exact Or.inl (key hn h)

/-- the two example premises in either order -/
example : ∃ cs w cs' w', inference exA exB = .ok (cs, w) ∧ inference exB exA = .ok (cs', w') ∧
    ∀ t, (∃ tv, Concludes cs t tv) ↔ ∃ tv, Concludes cs' t tv :=
  C55_statements_order_independent exA exB ⟨1, 9/10⟩ ⟨1, 9/10⟩ rfl rfl rfl rfl
    (by simp [exA, exB, newEternalSentenceByTv])

/-- `<s --> m>. {1 0.9}` -/
def exS : Sentence := newEternalSentenceByTv (.Stmt .INH (.Name "s") (.Name "m")) .JUGEMENT ⟨1, 9/10⟩ ⟨[1]⟩
/-- `<p --> m>. {0 0.9}` -/
def exP : Sentence := newEternalSentenceByTv (.Stmt .INH (.Name "p") (.Name "m")) .JUGEMENT ⟨0, 9/10⟩ ⟨[2]⟩

instance (cs : List (Sentence × Rat)) (t : Term) (tv : Tv) : Decidable (Concludes cs t tv) := by
  unfold Concludes; infer_instance

/-- C55 (violated): abduction from the same two judgements gives the same statement different truth
values depending on the order of the premises: `<p --> s>` gets the truth value that belongs to
`<s --> p>`, because the second pass swaps the terms but not the truth values. -/
theorem C55_abduction_truth_depends_on_order : ∃ cs w cs' w',
    inference exS exP = .ok (cs, w) ∧ inference exP exS = .ok (cs', w') ∧
    Concludes cs (.Stmt .INH (.Name "p") (.Name "s")) (Tv.abd ⟨1, 9/10⟩ ⟨0, 9/10⟩) ∧
    Concludes cs' (.Stmt .INH (.Name "p") (.Name "s")) (Tv.abd ⟨0, 9/10⟩ ⟨1, 9/10⟩) ∧
    ¬ Concludes cs (.Stmt .INH (.Name "p") (.Name "s")) (Tv.abd ⟨0, 9/10⟩ ⟨1, 9/10⟩) := by
  refine ⟨_, _, _, _, rfl, rfl, ?_, ?_, ?_⟩ <;> decide +kernel

end Nar.Props
