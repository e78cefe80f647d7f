import Verif.Spec.Ways
import Verif.Lemmas.Proc8
import Verif.Props.Proc
import Mathlib.Tactic.Linarith
import Mathlib.Tactic.NormNum
import Mathlib.Tactic.Ring
import Mathlib.Tactic.Positivity
/-! # Lemmas about acting on what was learned -/
namespace Nar
open Term

/-! ## the rules found for a state -/

theorem queryByAntecedent_iff {q : Term} {m : PMem} {rs : List Nat} (h : queryByAntecedent q m = .ok rs) (r : Nat) :
    r ∈ rs ↔ RuleUnder m q r ∧ ∃ b acts effect, m.heap[r]? = some b ∧ b.term = rule q acts effect := by
  have h0 := h
  unfold queryByAntecedent at h
  rw [filterR_ok h r, Props.ruleUnder_iff]
  refine and_congr_right fun _ => ?_
  constructor
  · intro hf
    obtain ⟨b, hb, hf⟩ := R.bind_ok.1 hf
    obtain ⟨acts, effect, he⟩ := hasAntecedent_true hf
    exact ⟨b, acts, effect, indexAt_ok.1 hb, he⟩
  · rintro ⟨b, acts, effect, hb, he⟩
    refine R.bind_ok.2 ⟨b, indexAt_ok.2 hb, ?_⟩
    unfold hasAntecedent
    rw [he]
    unfold rule
    simp only
    rw [(checkEqTerm_iff _ _).2 rfl]

theorem goalQuery_isSome {g : GoalSystem} {t : Term} (h : ∃ e, Stored g e ∧ e.sentence.term = t) :
    ∃ e, goalQuery g t = some e := by
  obtain ⟨e, he, ht⟩ := h
  unfold goalQuery
  cases hf : (retEntries g).find? (fun e => checkEqTerm e.sentence.term t) with
  | some e' => exact ⟨e', rfl⟩
  | none =>
    have := List.find?_eq_none.1 hf e ((retEntries_mem g e).2 he)
    rw [ht, (checkEqTerm_iff _ _).2 rfl] at this
    exact absurd rfl this

theorem goalQuery_none {g : GoalSystem} {t : Term} (h : goalQuery g t = none) (e : Entry) (he : Stored g e) :
    e.sentence.term ≠ t := by
  intro ht
  obtain ⟨e', h'⟩ := goalQuery_isSome ⟨e, he, ht⟩
  rw [h] at h'; cases h'

/-! ## trails -/

/-- the rules followed so far: none of the states in between is wanted -/
inductive Trail (p : Proc) : Term → List Nat → Term → Prop
  | nil {t} : Trail p t [] t
  | cons {t acts effect rs last r b} : RuleUnder p.mem t r → p.mem.heap[r]? = some b → b.term = rule t acts effect →
      (rs ≠ [] → ∀ e, Stored p.goals e → e.sentence.term ≠ effect) → Trail p effect rs last → Trail p t (r :: rs) last

theorem Trail.snoc {p : Proc} {t m effect : Term} {rs : List Nat} {r : Nat} {b : Sentence} {as : List Term}
    (h : Trail p t rs m) (hm : rs ≠ [] → ∀ e, Stored p.goals e → e.sentence.term ≠ m) (hu : RuleUnder p.mem m r)
    (hb : p.mem.heap[r]? = some b) (ht : b.term = rule m as effect) : Trail p t (rs ++ [r]) effect := by
  induction h with
  | nil => exact .cons hu hb ht (fun h => absurd rfl h) .nil
  | @cons t acts effect' rs last r' b' h1 h2 h3 h4 h5 ih =>
    refine .cons h1 h2 h3 (fun _ => ?_) (ih (fun _ => hm (by simp)) hu ht)
    cases h5 with
    | nil => exact hm (by simp)
    | cons => exact h4 (by simp)

theorem Trail.chain {p : Proc} {t m : Term} {rs : List Nat} (h : Trail p t rs m) : RuleChain p.mem.heap t rs m := by
  induction h with
  | nil => exact .nil
  | cons _ h2 h3 _ _ ih => exact .cons h2 h3 ih

theorem rule_inj {s s' : Term} {a a' : List Term} {e e' : Term} (h : rule s a e = rule s' a' e') :
    s = s' ∧ a = a' ∧ e = e' := by
  unfold rule at h
  injection h with _ h1 h2
  injection h1 with h1
  injection h1 with h3 h4
  exact ⟨h3, h4, h2⟩

theorem Trail.way {p : Proc} {goal : Term} {T tv : Tv} {t m : Term} {rs : List Nat} (h : Trail p t rs m) (hm : m = goal)
    (hp : Plan p.mem.heap goal T t rs tv) (hne : rs ≠ []) : Way p goal T t rs tv := by
  induction h generalizing tv with
  | nil => exact absurd rfl hne
  | @cons t acts effect rs last r b h1 h2 h3 h4 h5 ih =>
    cases hp with
    | @step _ acts' effect' _ tv' tb _ b' k1 k2 k3 k4 =>
      rw [h2] at k1
      cases k1
      rw [h3] at k2
      obtain ⟨_, rfl, rfl⟩ := rule_inj k2
      cases h5 with
      | nil =>
        cases k4
        exact .direct h1 h2 h3 k3
      | cons j1 j2 j3 j4 j5 =>
        exact .more h1 h2 h3 k3 (h4 (by simp)) (ih hm k4 (by simp))

theorem HasTruth.unique {s : Sentence} {a b : Tv} (h : HasTruth s a) (h' : HasTruth s b) : a = b := by
  unfold HasTruth at h h'
  rw [h] at h'
  cases h'; rfl

/-! ## the best choice -/

/-- the best entry is considered, if there is one -/
def ChoiceOk (p : Proc) (best : Option BestEntry) : Prop :=
  ∀ b, best = some b → Considered p b.unifiedSeq b.exp b.evidence

theorem better_choice {p : Proc} {best : Option BestEntry} {e : BestEntry} (h : ChoiceOk p best)
    (he : Considered p e.unifiedSeq e.exp e.evidence) : ChoiceOk p (better best e) := by
  intro b hb
  unfold better at hb
  split at hb
  · split at hb
    · cases hb; exact he
    · cases hb; exact h _ rfl
  · cases hb; exact he

theorem better_best (best : Option BestEntry) (e : BestEntry) : ∃ b, better best e = some b ∧ e.exp ≤ b.exp := by
  unfold better
  split
  · split
    · exact ⟨e, rfl, le_refl _⟩
    · rename_i b h
      exact ⟨b, rfl, not_lt.1 h⟩
  · exact ⟨e, rfl, le_refl _⟩

theorem bestByState_choice {p : Proc} {best best' : Option BestEntry} {i : Nat} (hi : i < p.perceptWindow)
    (h : bestByState p best i = .ok best') (hb : ChoiceOk p best) : ChoiceOk p best' := by
  unfold bestByState at h
  split at h
  · cases h; exact hb
  · rename_i ev hev
    obtain ⟨⟨x, found⟩, hf, h⟩ := R.bind_ok.1 h
    have hs := (selHighest_spec hf).2
    cases found with
    | none => cases h; exact hb
    | some es =>
      obtain ⟨e, seq⟩ := es
      cases h
      obtain ⟨h1, ⟨f, r, a, h2, h3, h4⟩, h5⟩ := hs
      exact better_choice hb (.inl ⟨e, ev, f, r, a, h1, recentEvent_recent hi hev, h2, h3, h4, h5, rfl⟩)

theorem decidePredicted_choice {p : Proc} {predicted : Term} {hit : Entry} {chain : List Nat} {best best' : Option BestEntry}
    {last : Event} (hl : p.trace.getLast? = some last) (hc : Trail p last.name chain predicted) (hlen : chain.length ≤ 2)
    (hne : chain ≠ []) (hh : Stored p.goals hit) (ht : hit.sentence.term = predicted) (hb : ChoiceOk p best)
    (h : decidePredicted p.mem.heap predicted hit chain best = .ok best') :
    ChoiceOk p best' ∧ ∃ T tv b', HasTruth hit.sentence T ∧ Way p hit.sentence.term T last.name chain tv ∧ best' = some b' ∧
      (tv.f - 1/2) * tv.c + 1/2 ≤ b'.exp := by
  unfold decidePredicted at h
  obtain ⟨tvo, h1, h⟩ := R.bind_ok.1 h
  obtain ⟨T, h2, h⟩ := R.bind_ok.1 h
  have hT := retTv_unwrap h1 h2
  obtain ⟨res, hr, h⟩ := R.bind_ok.1 h
  obtain ⟨k1, k2, k3⟩ := carryBack_spec (goal := hit.sentence.term) (T := T) hc.chain [] (by rw [ht]; exact .done) rfl hr
  obtain ⟨c, tv, so⟩ := res
  rcases k3 with rfl | ⟨r, rs', b, acts, effect, rfl, hbr, hbt, hseq⟩
  · exact absurd rfl hne
  · simp only at hseq
    subst hseq
    obtain ⟨first, hf, h⟩ := R.bind_ok.1 h
    obtain ⟨_, -, h⟩ := R.bind_ok.1 h
    cases h
    have hf := indexAt_ok.1 hf
    simp at hf; subst hf
    rw [List.append_nil] at k2
    have hw := hc.way (goal := hit.sentence.term) ht.symm k2 hne
    have hx : Tv.calcExp tv = (tv.f - 1/2) * tv.c + 1/2 := by simp [Tv.calcExp, mul_comm]
    refine ⟨better_choice hb (.inr ⟨hit, last, T, tv, r, rs', b, acts, effect, hh, hl, hT, hw, by simp at hlen; omega, hbr, hbt,
      rfl, hx, rfl⟩), ?_⟩
    obtain ⟨b', e1, e2⟩ := better_best best { unifiedSeq := .Seq (last.name :: acts), exp := Tv.calcExp tv, evidence := some r }
    exact ⟨T, tv, b', hT, hw, e1, by rw [← hx]; exact e2⟩

theorem predict_choice {p : Proc} {last : Event} (hl : p.trace.getLast? = some last) (n : Nat) {predicted : Term}
    {chain : List Nat} {best best' : Option BestEntry} {rng rng' : List Nat}
    (hc : Trail p last.name chain predicted) (hn : chain.length + n ≤ 3) (hb : ChoiceOk p best)
    (h : predict p n predicted chain best rng = .ok (best', rng')) : ChoiceOk p best' := by
  induction n generalizing predicted chain rng with
  | zero => rw [predict] at h; cases h; exact hb
  | succ n ih =>
    rw [predict] at h
    split at h
    · rename_i hit hhit
      obtain ⟨b1, h1, h⟩ := R.bind_ok.1 h
      cases h
      split at hhit
      · rename_i hpos
        obtain ⟨g1, g2⟩ := goalQuery_some hhit
        exact (decidePredicted_choice hl hc (by omega) (by rintro rfl; simp at hpos) g1 g2 hb h1).1
      · cases hhit
    · rename_i hnone
      obtain ⟨found, hf, h⟩ := R.bind_ok.1 h
      split at h
      · cases h; exact hb
      · obtain ⟨⟨i, rng1⟩, _, h⟩ := R.bind_ok.1 h
        obtain ⟨r, hr, h⟩ := R.bind_ok.1 h
        obtain ⟨b, hb1, h⟩ := R.bind_ok.1 h
        obtain ⟨pred, hp, h⟩ := R.bind_ok.1 h
        obtain ⟨k0, b', acts, effect, k1, k2⟩ := (queryByAntecedent_iff hf r).1 (List.mem_of_getElem? (indexAt_ok.1 hr))
        have hb1 := indexAt_ok.1 hb1
        rw [k1] at hb1; cases hb1
        obtain ⟨cond, hcond⟩ := retPred_ok hp
        have : effect = pred := by
          rw [k2] at hcond; unfold rule at hcond; injection hcond
        subst this
        refine ih (hc.snoc (fun hne => ?_) k0 k1 k2) (by simp; omega) h
        rw [if_pos (by have := List.length_pos_iff.2 hne; omega)] at hnone
        exact goalQuery_none hnone

theorem predictAll_choice {p : Proc} {best best' : Option BestEntry} {rng rng' : List Nat} (hb : ChoiceOk p best)
    (h : predictAll p best rng = .ok (best', rng')) : ChoiceOk p best' := by
  unfold predictAll retLastEvents at h
  cases hl : p.trace.getLast? with
  | none => rw [hl] at h; cases h; exact hb
  | some e =>
    rw [hl] at h
    obtain ⟨st, h1, h⟩ := foldlM_cons_ok.1 h
    have := foldlM_nil_ok.1 h
    subst this
    exact predict_choice hl 3 .nil (by simp) hb h1

/-! ## what is found -/

theorem predictAll_direct {p : Proc} {last : Event} {best best' : Option BestEntry} {rng rng' : List Nat}
    (hl : p.trace.getLast? = some last)
    (hex : ∃ r b acts effect, RuleUnder p.mem last.name r ∧ p.mem.heap[r]? = some b ∧ b.term = rule last.name acts effect)
    (hall : EveryRuleHelps p last.name) (hb : ChoiceOk p best) (h : predictAll p best rng = .ok (best', rng')) :
    ∃ b', best' = some b' ∧ p.threshold < b'.exp := by
  unfold predictAll retLastEvents at h
  rw [hl] at h
  obtain ⟨st, h, h'⟩ := foldlM_cons_ok.1 h
  have := foldlM_nil_ok.1 h'
  subst this
  simp only at h
  rw [predict] at h
  simp only [List.length_nil, gt_iff_lt, lt_irrefl, if_false] at h
  obtain ⟨found, hf, h⟩ := R.bind_ok.1 h
  obtain ⟨r0, b0, acts0, eff0, x1, x2, x3⟩ := hex
  have hne : found.length ≠ 0 := by
    have := (queryByAntecedent_iff hf r0).2 ⟨x1, b0, acts0, eff0, x2, x3⟩
    intro h0
    rw [List.length_eq_zero_iff.1 h0] at this
    cases this
  rw [if_neg hne] at h
  obtain ⟨⟨i, rng1⟩, _, h⟩ := R.bind_ok.1 h
  obtain ⟨r, hr, h⟩ := R.bind_ok.1 h
  obtain ⟨b, hb1, h⟩ := R.bind_ok.1 h
  obtain ⟨pred, hp, h⟩ := R.bind_ok.1 h
  obtain ⟨k0, b', acts, effect, k1, k2⟩ := (queryByAntecedent_iff hf r).1 (List.mem_of_getElem? (indexAt_ok.1 hr))
  have hb1 := indexAt_ok.1 hb1
  rw [k1] at hb1; cases hb1
  obtain ⟨cond, hcond⟩ := retPred_ok hp
  have : effect = pred := by
    rw [k2] at hcond; unfold rule at hcond; injection hcond
  subst this
  obtain ⟨-, hst, hth⟩ := hall r _ acts effect k0 k1 k2
  obtain ⟨hit, hhit⟩ := goalQuery_isSome hst
  obtain ⟨g1, g2⟩ := goalQuery_some hhit
  rw [List.nil_append, predict] at h
  simp only [List.length_cons, List.length_nil, gt_iff_lt, Nat.zero_lt_succ, if_true, Nat.zero_add, hhit] at h
  obtain ⟨b1, h1, h⟩ := R.bind_ok.1 h
  cases h
  have ht : Trail p last.name [r] effect := .cons k0 k1 k2 (fun h => absurd rfl h) .nil
  obtain ⟨-, T, tv, b2, j1, j2, j3, j4⟩ := decidePredicted_choice hl ht (by simp) (by simp) g1 g2 hb h1
  refine ⟨b2, j3, lt_of_lt_of_le ?_ j4⟩
  cases j2 with
  | direct m1 m2 m3 m4 =>
    rw [k1] at m2
    cases m2
    exact hth hit T _ g1 g2 j1 m4
  | more _ _ _ _ _ hw => cases hw

theorem predict_way {p : Proc} {last : Event} (hl : p.trace.getLast? = some last) {goal : Term} {T tv : Tv} {state : Term}
    {rs : List Nat} (hw : Way p goal T state rs tv) (hg : ∃ e, Stored p.goals e ∧ e.sentence.term = goal) (x : Rat)
    {chain : List Nat} (n : Nat) (hlen : rs.length < n) (hn : chain.length + rs.length ≤ 2)
    (hc : Trail p last.name chain state) (hst : chain ≠ [] → ∀ e, Stored p.goals e → e.sentence.term ≠ state)
    (hx : ∀ e T tv, Stored p.goals e → e.sentence.term = goal → HasTruth e.sentence T →
      Way p goal T last.name (chain ++ rs) tv → x ≤ (tv.f - 1/2) * tv.c + 1/2) :
    ∃ draws : List Nat, draws.length = rs.length ∧ ∀ rng best best' rng', ChoiceOk p best →
      predict p n state chain best (draws ++ rng) = .ok (best', rng') → ∃ b', best' = some b' ∧ x ≤ b'.exp := by
  have key : ∀ {state effect : Term} {acts : List Term} {r : Nat} {b : Sentence} {chain : List Nat} {n : Nat},
      RuleUnder p.mem state r → p.mem.heap[r]? = some b → b.term = rule state acts effect →
      (chain ≠ [] → ∀ e, Stored p.goals e → e.sentence.term ≠ state) →
      ∃ d, ∀ draws best best' rng', predict p (n + 1) state chain best (d :: draws) = .ok (best', rng') →
        predict p n effect (chain ++ [r]) best draws = .ok (best', rng') := by
    intro state effect acts r b chain n h1 h2 h3 h4
    have hnone : (if chain.length > 0 then goalQuery p.goals state else none) = none := by
      split
      · rename_i hpos
        cases hq : goalQuery p.goals state with
        | none => rfl
        | some e =>
          obtain ⟨q1, q2⟩ := goalQuery_some hq
          exact absurd q2 (h4 (by rintro rfl; simp at hpos) e q1)
      · rfl
    cases hq : queryByAntecedent state p.mem with
    | error e =>
      refine ⟨0, fun draws best best' rng' h => ?_⟩
      rw [predict, hnone] at h
      simp only [hq, bind, Except.bind] at h
      cases h
    | ok found =>
      have hm := (queryByAntecedent_iff hq r).2 ⟨h1, b, acts, effect, h2, h3⟩
      obtain ⟨i, hi, he⟩ := List.mem_iff_getElem.1 hm
      refine ⟨i, fun draws best best' rng' h => ?_⟩
      rw [predict, hnone] at h
      simp only at h
      rw [hq] at h
      obtain ⟨found', hf, h⟩ := R.bind_ok.1 h
      cases hf
      rw [if_neg (by omega)] at h
      obtain ⟨⟨j, rng1⟩, hj, h⟩ := R.bind_ok.1 h
      unfold genRange at hj
      rw [if_neg (by omega)] at hj
      obtain ⟨rfl, rfl⟩ := Prod.mk.inj (Except.ok.inj hj)
      simp only [List.headD_cons, List.tail_cons, Nat.mod_eq_of_lt hi] at h
      obtain ⟨r', hr, h⟩ := R.bind_ok.1 h
      have hr := indexAt_ok.1 hr
      rw [List.getElem?_eq_getElem hi, he] at hr
      cases hr
      obtain ⟨b', hb1, h⟩ := R.bind_ok.1 h
      have hb1 := indexAt_ok.1 hb1
      rw [h2] at hb1; cases hb1
      obtain ⟨pred, hp, h⟩ := R.bind_ok.1 h
      obtain ⟨cond, hcond⟩ := retPred_ok hp
      have : effect = pred := by
        rw [h3] at hcond; unfold rule at hcond; injection hcond
      subst this
      exact h
  induction hw generalizing chain n with
  | @direct state acts r b tb h1 h2 h3 h4 =>
    obtain ⟨n, rfl⟩ : ∃ m, n = m + 2 := ⟨n - 2, by simp at hlen; omega⟩
    obtain ⟨d, hd⟩ := key (n := n + 1) h1 h2 h3 hst
    refine ⟨[d], rfl, fun rng best best' rng' hb h => ?_⟩
    have h := hd _ _ _ _ h
    obtain ⟨hit, hhit⟩ := goalQuery_isSome hg
    obtain ⟨g1, g2⟩ := goalQuery_some hhit
    rw [predict] at h
    have hpos : (chain ++ [r]).length > 0 := by simp
    simp only [hpos, if_true, hhit] at h
    obtain ⟨b1, h1', h⟩ := R.bind_ok.1 h
    cases h
    obtain ⟨-, T', tv, b2, j1, j2, j3, j4⟩ := decidePredicted_choice hl (hc.snoc hst h1 h2 h3) (by simpa using hn) (by simp)
      g1 g2 hb h1'
    rw [g2] at j2
    exact ⟨b2, j3, (hx hit T' tv g1 g2 j1 j2).trans j4⟩
  | @more state acts effect rs tv tb r b h1 h2 h3 h4 h5 hw ih =>
    obtain ⟨n, rfl⟩ : ∃ m, n = m + 1 := ⟨n - 1, by simp at hlen; omega⟩
    obtain ⟨d, hd⟩ := key (n := n) h1 h2 h3 hst
    obtain ⟨draws, hlen', hdr⟩ := ih n (by simp at hlen; omega) (by simp at hn ⊢; omega) (hc.snoc hst h1 h2 h3) (fun _ => h5)
      (by simpa using hx)
    refine ⟨d :: draws, by simp [hlen'], fun rng best best' rng' hb h => ?_⟩
    exact hdr _ _ _ _ hb (hd _ _ _ _ h)

/-! ## what is done -/

theorem addEntry_op {g g' : GoalSystem} (hi : GInv g) {t : Int} {goal : Sentence} {ev : Option Nat} {d : Int}
    (ho : (decodeOp goal.term).isSome = true) (h : addEntry g t goal ev d = .ok g') :
    ((∃ x ∈ g.activeSet, x.sentence.term = goal.term) ∧ g' = g) ∨
      g' = { g with activeSet := g.activeSet ++ [newEntry t goal ev d] } := by
  obtain ⟨-, ⟨h1, rfl⟩ | ⟨h1, h2⟩⟩ := addEntry_cases h
  · obtain ⟨arr, ha, s, hs, hsg⟩ := (goalRegistered_iff hi goal).1 h1
    obtain ⟨hk, i, e, ⟨level, gr, l1, l2, l3⟩, he⟩ := hi.reg _ _ ha s hs
    have hgr := hi.groups i level l1 gr l2
    have h3 := hgr.notOp
    rw [← hgr.term e l3, he, hk, ho] at h3
    cases h3
  · rcases addEntry2_cases h2 with ⟨_, ⟨x, hx, hs⟩, rfl⟩ | ⟨_, _, rfl⟩ | ⟨h3, _⟩
    · exact .inl ⟨⟨x, hx, hs.1⟩, rfl⟩
    · exact .inr rfl
    · have : (decodeOp goal.term).isSome = false := h3
      rw [ho] at this; cases this

theorem adoptBest_sound {p p' : Proc} {b : BestEntry} (hi : GInv p.goals) (hx : p.threshold < b.exp)
    (hs : SoundChoice p b.unifiedSeq b.evidence) (h : adoptBest p (some b) = .ok p') :
    ∃ r bel tb acts op, b.evidence = some r ∧ p.mem.heap[r]? = some bel ∧ HasTruth bel tb ∧
      p.threshold < (tb.f - 1/2) * tb.c + 1/2 ∧ b.unifiedSeq = .Seq (acts ++ [op]) ∧ RegisteredCall p.ops op ∧
      ∃ g, p' = { p with goals := g } ∧
        (((∃ x ∈ p.goals.activeSet, x.sentence.term = op) ∧ g = p.goals) ∨
          g = { p.goals with
            activeSet := p.goals.activeSet ++ [newEntry p.t (newEternalSentenceByTv op .GOAL tb bel.stamp) (some r) 0] }) := by
  obtain ⟨r, bel, x, acts, op, s1, s2, ⟨tb, s3, rfl⟩, s4, s5, s6⟩ := hs
  refine ⟨r, bel, tb, acts, op, s1, s2, s3, s4, s5, s6, ?_⟩
  unfold adoptBest at h
  simp only at h
  rw [if_pos hx, s1] at h
  simp only at h
  obtain ⟨_, -, h⟩ := R.bind_ok.1 h
  obtain ⟨_, _, h⟩ := R.bind_ok.1 h
  obtain ⟨lo, hlo, h⟩ := R.bind_ok.1 h
  obtain ⟨_, hen, h⟩ := R.bind_ok.1 h
  obtain ⟨opTerm, hop, h⟩ := R.bind_ok.1 h
  obtain ⟨picked, hp, h⟩ := R.bind_ok.1 h
  obtain ⟨_, -, h⟩ := R.bind_ok.1 h
  obtain ⟨tvo, ht1, h⟩ := R.bind_ok.1 h
  obtain ⟨tv, ht2, h⟩ := R.bind_ok.1 h
  obtain ⟨_, -, h⟩ := R.bind_ok.1 h
  obtain ⟨g, hg, hfin⟩ := R.bind_ok.1 h
  have hpk := indexAt_ok.1 hp
  rw [s2] at hpk
  cases hpk
  have := (retTv_unwrap ht1 ht2).unique s3
  subst this
  have : opTerm = op := by
    rw [s5] at hop
    simp [retSeqLast] at hop
    exact hop.symm
  subst this
  refine ⟨g, (Except.ok.inj hfin).symm, ?_⟩
  obtain ⟨args, name, hc, _⟩ := s6
  have ho : (decodeOp (newEternalSentenceByTv opTerm .GOAL tv bel.stamp).term).isSome = true := by
    show (decodeOp opTerm).isSome = true
    rw [(decodeOp_iff _ _ _).2 hc]; rfl
  exact addEntry_op hi ho hg

/-- every executable goal can be acted upon -/
def ActiveOk (p : Proc) (g : GoalSystem) : Prop :=
  ∀ e ∈ g.activeSet, 1/10000 < e.desirability ∧ (∃ x, Expectation e.sentence x ∧ p.threshold < x) ∧ e.evidence ≠ none ∧
    RegisteredCall p.ops e.sentence.term

theorem bestActive_acts {p p' : Proc} {act : Option (Entry × Nat)} {picked : Option Term} (hth : 0 ≤ p.threshold)
    (hok : ActiveOk p p.goals) (hne : p.goals.activeSet ≠ []) (h1 : bestActive p = .ok act)
    (h2 : pickAction p act = .ok (p', picked)) :
    ∃ e ∈ p.goals.activeSet, picked = some e.sentence.term ∧ ∃ g a, p' = { p with goals := g, anticipated := a } := by
  have hs := bestActive_spec h1
  have hact : ∃ e i, act = some (e, i) := by
    cases act with
    | some ei => exact ⟨ei.1, ei.2, rfl⟩
    | none =>
      exfalso
      unfold bestActive at h1
      obtain ⟨⟨x, o⟩, hf, h1⟩ := R.bind_ok.1 h1
      cases h1
      obtain ⟨e, l, hl⟩ := List.exists_cons_of_ne_nil hne
      obtain ⟨_, hb, hall⟩ := bestActive_fold _ hf
      have hm : (e, 0) ∈ p.goals.activeSet.zipIdx := List.mem_zipIdx_iff_getElem?.2 (by rw [hl]; rfl)
      obtain ⟨k1, ⟨y, k2, k3⟩, _⟩ := hok e (by rw [hl]; simp)
      rcases hb with hb | ⟨ei, _, hb, _⟩
      · cases hb
        rcases hall _ hm k1 y k2 with h | h
        · simp only at h; linarith
        · linarith
      · cases hb
  obtain ⟨e, i, rfl⟩ := hact
  obtain ⟨⟨hm, _⟩, _⟩ := hs
  obtain ⟨_, _, hev, hreg⟩ := hok e hm
  rcases pickAction_spec h2 with ⟨_, _, hn | ⟨e', i', he, hno⟩⟩ | ⟨e', i', r, b, iv, he, _, _, _, _, rfl, rfl⟩
  · cases hn
  · cases he
    rcases hno with hno | hno
    · exact absurd hno hev
    · obtain ⟨args, name, hc, _⟩ := hreg
      exact absurd ((executable_iff _).2 (by rw [(decodeOp_iff _ _ _).2 hc]; rfl)) hno
  · cases he
    exact ⟨e, hm, rfl, _, _, rfl⟩

/-- what is decided if there is a sound best choice -/
theorem decide_sound {p p1 p2 : Proc} {b : BestEntry} {act : Option (Entry × Nat)} {picked picked' : Option Term}
    {rng rng' : List Nat} (hi : GInv p.goals) (hth : 0 ≤ p.threshold) (hok : ActiveOk p p.goals) (hx : p.threshold < b.exp)
    (hs : SoundChoice p b.unifiedSeq b.evidence) (h1 : adoptBest p (some b) = .ok p1) (h2 : bestActive p1 = .ok act)
    (h3 : pickAction p1 act = .ok (p2, picked)) (h4 : babble p2 picked rng = .ok (picked', rng')) :
    ∃ a, picked' = some a ∧ RegisteredCall p.ops a ∧ p2.ops = p.ops ∧
      ((∃ acts, b.unifiedSeq = .Seq (acts ++ [a])) ∨ ∃ e ∈ p.goals.activeSet, e.sentence.term = a) := by
  obtain ⟨r, bel, tb, acts, op, e1, e2, e3, e4, e5, e6, g, rfl, hg⟩ := adoptBest_sound hi hx hs h1
  have hok' : ActiveOk { p with goals := g } g ∧ g.activeSet ≠ [] ∧
      ∀ e ∈ g.activeSet, e.sentence.term = op ∨ e ∈ p.goals.activeSet := by
    rcases hg with ⟨⟨x, hx, _⟩, rfl⟩ | rfl
    · exact ⟨hok, (fun h0 => by rw [h0] at hx; cases hx), fun e he => .inr he⟩
    · refine ⟨?_, by simp, ?_⟩
      · intro e he
        rcases List.mem_append.1 he with he | he
        · exact hok e he
        · have := List.mem_singleton.1 he
          subst this
          refine ⟨by show (1:Rat)/10000 < 1; norm_num, ⟨_, ⟨tb, rfl, rfl⟩, e4⟩, by simp [newEntry], e6⟩
      · intro e he
        rcases List.mem_append.1 he with he | he
        · exact .inr he
        · have := List.mem_singleton.1 he
          subst this
          exact .inl rfl
  obtain ⟨k1, k2, k3⟩ := hok'
  obtain ⟨e, hm, rfl, g', a', rfl⟩ := bestActive_acts (p := { p with goals := g }) hth k1 k2 h2 h3
  have : picked' = some e.sentence.term := by
    unfold babble at h4
    exact ((Prod.mk.inj (Except.ok.inj h4)).1).symm
  refine ⟨_, this, (k1 e hm).2.2.2, rfl, ?_⟩
  rcases k3 e hm with h | h
  · exact .inl ⟨acts, by rw [h]; exact e5⟩
  · exact .inr ⟨e, h, rfl⟩

/-- a step which has decided to act, acts -/
theorem step_acts {call : Call} (hcall : OnlyReports call) {decay : Int → Rat} {p p' p1 : Proc} {rng rng1 : List Nat}
    {infs : List (Rat × Rat × List Nat)} {act : Option Term} {a : Term} (h : narStep1 call decay p rng infs = .ok (p', act))
    (hd : decideAction p rng = .ok (p1, some a, rng1)) (hr : RegisteredCall p1.ops a) : act = some a := by
  unfold narStep1 at h
  obtain ⟨⟨p1', picked, rng1'⟩, h1, h⟩ := R.bind_ok.1 h
  rw [hd] at h1
  cases h1
  obtain ⟨⟨p2, executed⟩, h2, h⟩ := R.bind_ok.1 h
  obtain ⟨p3, h3, h⟩ := R.bind_ok.1 h
  obtain ⟨p4, h4, h⟩ := R.bind_ok.1 h
  cases h
  rcases execute_spec hcall h2 with ⟨rfl, rfl, k1⟩ | ⟨t, args, name, q1, evs, h5, rfl, k1, k2, k3, k4, rfl⟩
  · exact absurd hr (k1 a rfl)
  · exact h5.symm

/-! ## the truth of a rule and of what follows from it -/

theorem dedGoal_wanted {T tb : Tv} (hT : Tv.Sane T) (hf : 1/2 ≤ T.f) (hb : Tv.Sane tb) {th : Rat} (hth : 1/2 ≤ th)
    (h : th < ((Tv.dedGoal T tb).f - 1/2) * (Tv.dedGoal T tb).c + 1/2) : th < (tb.f - 1/2) * tb.c + 1/2 := by
  obtain ⟨a1, a2, a3, a4⟩ := hT
  obtain ⟨b1, b2, b3, b4⟩ := hb
  have hc : 0 ≤ T.c * tb.c * tb.f := mul_nonneg (mul_nonneg a3 b3) b1
  have hd : Tv.dedGoal T tb = Tv.ded T tb := by
    unfold Tv.dedGoal
    simp only [Tv.ded, Tv.neg]
    have : T.c * tb.c * (T.f * tb.f) ≥ T.c * tb.c * ((1 - T.f) * tb.f) := by
      nlinarith [mul_nonneg hc (show 0 ≤ 2 * T.f - 1 by linarith)]
    simp only [this, if_true]
  rw [hd] at h
  have h : th < (T.f * tb.f - 1/2) * (T.c * tb.c * (T.f * tb.f)) + 1/2 := h
  have hcc : 0 ≤ T.c * tb.c * (T.f * tb.f) := by positivity
  have hpos : 1/2 < T.f * tb.f := by
    by_contra hle
    rw [not_lt] at hle
    have := mul_nonneg hcc (show 0 ≤ 1/2 - T.f * tb.f by linarith)
    nlinarith
  have h1 : T.f * tb.f ≤ tb.f := by nlinarith
  have h2 : T.c * tb.c * (T.f * tb.f) ≤ tb.c := by
    have : T.c * tb.c ≤ tb.c := by nlinarith
    have h3 : T.f * tb.f ≤ 1 := by linarith
    nlinarith [mul_nonneg a3 b3]
  have h4 : (T.f * tb.f - 1/2) * (T.c * tb.c * (T.f * tb.f)) ≤ (tb.f - 1/2) * tb.c :=
    mul_le_mul (by linarith) h2 hcc (by linarith)
  linarith

end Nar
