import Verif.Lemmas.Proc2
/-! # Lemmas about the steps of the procedural reasoner -/
namespace Nar
open Term

theorem filterR_eq {α} {f : α → R Bool} (g : α → Bool) {l r : List α} (h : filterR f l = .ok r)
    (hg : ∀ a ∈ l, ∀ b, f a = .ok b → b = g a) : r = l.filter g := by
  induction l generalizing r with
  | nil => simp [filterR] at h; cases h; rfl
  | cons a l ih =>
    unfold filterR at h
    obtain ⟨b, hb, h⟩ := R.bind_ok.1 h
    obtain ⟨r', hr', h⟩ := R.bind_ok.1 h
    have hba := hg a (by simp) b hb
    have := ih hr' (fun x hx => hg x (List.mem_cons_of_mem _ hx))
    subst this
    cases h
    rw [List.filter_cons, ← hba]

/-- the anticipation `a` predicts what happened `i` events ago -/
def ConfirmedAt (p : Proc) (a : Anticipation) (i : Nat) : Prop :=
  ∃ b cond effect e, p.mem.heap[a.evi]? = some b ∧ b.term = .Stmt .PREDIMPL cond effect ∧
    recentEvent p.trace i = some e ∧ e.name = effect

open Classical in
theorem confirm_spec {p : Proc} {l l' : List Anticipation} {i : Nat} (h : confirm p l i = .ok l') :
    l' = l.filter (fun a => decide (¬ ConfirmedAt p a i)) := by
  unfold confirm at h
  split at h
  · rename_i hn
    cases h
    symm
    rw [List.filter_eq_self]
    intro a _
    simp only [decide_not, Bool.not_eq_true', decide_eq_false_iff_not]
    rintro ⟨b, cond, effect, e, _, _, he, _⟩
    rw [hn] at he; cases he
  · rename_i ev hev
    refine filterR_eq _ h ?_
    intro a _ r hr
    obtain ⟨b, hb, hr⟩ := R.bind_ok.1 hr
    obtain ⟨pred, hp, hr⟩ := R.bind_ok.1 hr
    cases hr
    have hb := indexAt_ok.1 hb
    obtain ⟨cond, hc⟩ := retPred_ok hp
    rw [Bool.eq_iff_iff]
    simp only [Bool.not_eq_true', decide_eq_true_eq, ← Bool.not_eq_true, checkEqTerm_iff]
    refine not_congr ?_
    constructor
    · intro h; exact ⟨b, cond, pred, ev, hb, hc, hev, h.symm⟩
    · rintro ⟨b', cond', effect, e, h1, h2, h3, h4⟩
      rw [hb] at h1; cases h1
      rw [hev] at h3; cases h3
      rw [hc] at h2; cases h2
      exact h4.symm

theorem recentEvent_some {trace : List Event} {i : Nat} {e : Event} :
    recentEvent trace i = some e ↔ trace.reverse[i]? = some e := by
  unfold recentEvent
  split
  · rename_i h
    rw [List.getElem?_reverse h]
  · rename_i h
    rw [List.getElem?_eq_none (by simp; omega)]

theorem recent_iff {n : Nat} {trace : List Event} {e : Event} :
    Recent n trace e ↔ ∃ i < n, recentEvent trace i = some e := by
  have hrev : newest n trace = (trace.reverse.take n).reverse := by
    unfold newest
    rw [List.take_reverse, List.reverse_reverse]
  unfold Recent
  rw [hrev, List.mem_reverse, List.mem_take_iff_getElem]
  simp only [recentEvent_some]
  constructor
  · rintro ⟨i, hi, rfl⟩
    exact ⟨i, by omega, List.getElem?_eq_getElem (by omega)⟩
  · rintro ⟨i, hi, he⟩
    obtain ⟨hlt, he⟩ := List.getElem?_eq_some_iff.1 he
    exact ⟨i, by omega, he⟩

theorem confirmed_iff {p : Proc} {a : Anticipation} : Confirmed p a ↔ ∃ i < p.perceptWindow, ConfirmedAt p a i := by
  unfold Confirmed ConfirmedAt
  simp only [recent_iff]
  constructor
  · rintro ⟨b, cond, effect, e, h1, h2, ⟨i, hi, h3⟩, h4⟩
    exact ⟨i, hi, b, cond, effect, e, h1, h2, h3, h4⟩
  · rintro ⟨i, hi, b, cond, effect, e, h1, h2, h3, h4⟩
    exact ⟨b, cond, effect, e, h1, h2, ⟨i, hi, h3⟩, h4⟩

open Classical in
theorem confirms_spec {p : Proc} {is : List Nat} {l l' : List Anticipation} (h : is.foldlM (confirm p) l = .ok l') :
    l' = l.filter (fun a => decide (¬ ∃ i ∈ is, ConfirmedAt p a i)) := by
  induction is generalizing l with
  | nil => cases foldlM_nil_ok.1 h; simp
  | cons i is ih =>
    obtain ⟨l1, h1, h⟩ := foldlM_cons_ok.1 h
    rw [ih h, confirm_spec h1, List.filter_filter]
    congr 1
    funext a
    rw [Bool.eq_iff_iff]
    simp only [Bool.and_eq_true, decide_eq_true_eq, List.mem_cons, exists_eq_or_imp, not_or]
    exact and_comm

theorem Disappointed.succ {n : Nat} {a b c : Sentence} (h1 : Disappointed 1 a b) (h2 : Disappointed n b c) :
    Disappointed (n + 1) a c := by
  rcases h1 with ⟨h, _⟩ | ⟨pos, cnt, hc, rfl⟩
  · cases h
  · refine .inr ⟨pos, cnt, hc, ?_⟩
    rcases h2 with ⟨rfl, rfl⟩ | ⟨pos', cnt', hc', rfl⟩
    · simp
    · unfold Counts at hc'
      simp only [Option.some.injEq, Evidence.CNT.injEq] at hc'
      obtain ⟨rfl, rfl⟩ := hc'
      simp only [Sentence.mk.injEq, true_and, and_true, Option.some.injEq, Evidence.CNT.injEq]
      push_cast; omega

theorem Disappointed.grown {n : Nat} {b b' : Sentence} (h : Disappointed n b b') : Grown b b' := by
  rcases h with ⟨_, rfl⟩ | ⟨pos, cnt, hc, rfl⟩
  · exact .refl _
  · refine ⟨rfl, rfl, rfl, ?_⟩
    intro pos' cnt' h
    unfold Counts at h hc
    rw [hc] at h; cases h
    exact ⟨_, _, rfl, by omega, by omega, by omega⟩

theorem negConfirm_spec {heap heap' : List Sentence} {a : Anticipation} (h : negConfirm heap a = .ok heap') :
    ∃ b b', heap[a.evi]? = some b ∧ Disappointed 1 b b' ∧ heap' = heap.set a.evi b' := by
  unfold negConfirm at h
  obtain ⟨b, hb, h⟩ := R.bind_ok.1 h
  obtain ⟨⟨pos, cnt⟩, hc, h⟩ := R.bind_ok.1 h
  cases h
  exact ⟨b, _, indexAt_ok.1 hb, .inr ⟨pos, cnt, cntOf_ok hc, by simp⟩, rfl⟩

theorem negConfirms_spec {l : List Anticipation} {heap heap' : List Sentence} (h : l.foldlM negConfirm heap = .ok heap') :
    heap'.length = heap.length ∧ ∀ (r : Nat) (b : Sentence), heap[r]? = some b →
      ∃ b', heap'[r]? = some b' ∧ Disappointed (l.filter (fun a => decide (a.evi = r))).length b b' := by
  induction l generalizing heap with
  | nil => cases foldlM_nil_ok.1 h; exact ⟨rfl, fun r b hb => ⟨b, hb, .inl ⟨rfl, rfl⟩⟩⟩
  | cons a l ih =>
    obtain ⟨h1, hh1, h⟩ := foldlM_cons_ok.1 h
    obtain ⟨c, c', hc, hd, rfl⟩ := negConfirm_spec hh1
    obtain ⟨i1, i2⟩ := ih h
    refine ⟨by rw [i1]; simp, ?_⟩
    intro r b hb
    by_cases hr : a.evi = r
    · subst hr
      rw [hc] at hb; cases hb
      obtain ⟨b', hb', hd'⟩ := i2 a.evi c' (List.getElem?_set_self (List.getElem?_eq_some_iff.1 hc).1)
      refine ⟨b', hb', ?_⟩
      rw [List.filter_cons_of_pos (by simp)]
      exact hd.succ hd'
    · obtain ⟨b', hb', hd'⟩ := i2 r b (by rw [List.getElem?_set_ne hr, hb])
      refine ⟨b', hb', ?_⟩
      rw [List.filter_cons_of_neg (by simpa using hr)]
      exact hd'

open Classical in
/-- what the first part of a step does -/
theorem narStep0_spec {p p' : Proc} {draws : Nat → SampleDraws} (h : narStep0 p draws = .ok p') :
    ∃ heap new, p' = { p with
        mem := { p.mem with heap := heap },
        anticipated := p.anticipated.filter (fun a => decide (p.t < a.deadline ∧ ¬ Confirmed p a)),
        goals := satisfyLast p, queue := p.queue ++ new } ∧
      (∀ m ∈ new, m.2 = p.t ∧ Observation p m.1) ∧ (new ≠ [] → p.workerAlive = true) ∧
      heap.length = p.mem.heap.length ∧
      ∀ (r : Nat) (b : Sentence), p.mem.heap[r]? = some b → ∃ b', heap[r]? = some b' ∧ Disappointed (failures p r) b b' := by
  unfold narStep0 at h
  obtain ⟨l, hl, h⟩ := R.bind_ok.1 h
  obtain ⟨heap, hh, h⟩ := R.bind_ok.1 h
  obtain ⟨new, h1, h2, rfl⟩ := traceStep_spec h
  have hl' : l = p.anticipated.filter (fun a => decide (¬ Confirmed p a)) := by
    rw [confirms_spec hl]
    congr 1
    funext a
    rw [Bool.eq_iff_iff]
    simp only [decide_eq_true_eq, confirmed_iff, List.mem_range]
  unfold negConfirmAll at hh
  obtain ⟨k1, k2⟩ := negConfirms_spec hh
  refine ⟨heap, new, ?_, h1, h2, k1, ?_⟩
  · have : l.filter (fun a => decide (a.deadline > p.t)) =
        p.anticipated.filter (fun a => decide (p.t < a.deadline ∧ ¬ Confirmed p a)) := by
      rw [hl', List.filter_filter]
      congr 1
      funext a
      rw [Bool.eq_iff_iff]
      simp only [Bool.and_eq_true, decide_eq_true_eq, gt_iff_lt]
    rw [this]
    rfl
  · intro r b hb
    obtain ⟨b', hb', hd⟩ := k2 r b hb
    refine ⟨b', hb', ?_⟩
    have : failures p r = ((l.filter (fun a => decide (a.deadline ≤ p.t))).filter (fun a => decide (a.evi = r))).length := by
      unfold failures
      rw [hl', List.filter_filter, List.filter_filter]
      congr 2
      funext a
      rw [Bool.eq_iff_iff]
      simp only [Bool.and_eq_true, decide_eq_true_eq]
      tauto
    rw [this]; exact hd

/-! ## second part -/

theorem expOf_ok {s : Sentence} {x : Rat} (h : expOf s = .ok x) : Expectation s x := by
  exact (expOf_iff s x).mp h

theorem recentEvent_recent {p : Proc} {i : Nat} {e : Event} (hi : i < p.perceptWindow)
    (h : recentEvent p.trace i = some e) : Recent p.perceptWindow p.trace e := recent_iff.2 ⟨i, hi, h⟩

/-- the goal `e` wants a sequence which begins with `state` -/
def StartsWith (state : Term) (e : Entry) (seq : Term) : Prop :=
  ∃ first rest a, e.sentence.term = .Seq (first :: rest) ∧
    unify (retSubSeqAsSeqOrTerm (first :: rest).dropLast) state = some a ∧ seq = unifySubst a e.sentence.term

theorem selHighestStep_spec {state : Term} {res res' : Rat × Option (Entry × Term)} {iv : Entry}
    (h : selHighestStep state res iv = .ok res') :
    (res' = res ∧ ∀ seq, StartsWith state iv seq → ∀ x, Expectation iv.sentence x → x ≤ res.1) ∨
    ∃ x seq, StartsWith state iv seq ∧ Expectation iv.sentence x ∧ res.1 < x ∧ res' = (x, some (iv, seq)) := by
  unfold selHighestStep at h
  split at h
  · rename_i s0 ss heq
    split at h
    · rename_i a ha
      obtain ⟨x, hx, h⟩ := R.bind_ok.1 h
      have hx := (expOf_iff _ _).1 hx
      split at h
      · rename_i hgt
        cases h
        refine .inr ⟨x, _, ⟨s0, ss, a, heq, ha, rfl⟩, hx, hgt, rfl⟩
      · rename_i hle
        cases h
        refine .inl ⟨rfl, ?_⟩
        rintro seq _ x' hx'
        rw [Expectation.unique hx' hx]; exact not_lt.1 hle
    · rename_i hn
      cases h
      refine .inl ⟨rfl, ?_⟩
      rintro seq ⟨f, r, a, h1, h2, _⟩
      rw [heq] at h1; cases h1
      rw [hn] at h2; cases h2
  · rename_i hne
    cases h
    refine .inl ⟨rfl, ?_⟩
    rintro seq ⟨f, r, a, h1, _, _⟩
    exact absurd h1 (hne f r)

theorem selHighest_fold {state : Term} (es : List Entry) {res res' : Rat × Option (Entry × Term)}
    (h : es.foldlM (selHighestStep state) res = .ok res') :
    res.1 ≤ res'.1 ∧ (res' = res ∨ ∃ e seq, e ∈ es ∧ res'.2 = some (e, seq) ∧ StartsWith state e seq ∧
      Expectation e.sentence res'.1) ∧
    ∀ e ∈ es, ∀ seq, StartsWith state e seq → ∀ x, Expectation e.sentence x → x ≤ res'.1 := by
  induction es generalizing res with
  | nil => cases foldlM_nil_ok.1 h; exact ⟨le_refl _, .inl rfl, by simp⟩
  | cons e es ih =>
    obtain ⟨r1, h1, h⟩ := foldlM_cons_ok.1 h
    obtain ⟨i1, i2, i3⟩ := ih h
    rcases selHighestStep_spec h1 with ⟨rfl, hb⟩ | ⟨x, seq, hs, hx, hlt, rfl⟩
    · refine ⟨i1, ?_, ?_⟩
      · rcases i2 with h | ⟨e', seq, h1, h2⟩
        · exact .inl h
        · exact .inr ⟨e', seq, List.mem_cons_of_mem _ h1, h2⟩
      · intro e' he' seq hs x hx
        rcases List.mem_cons.1 he' with rfl | he'
        · exact (hb seq hs x hx).trans i1
        · exact i3 e' he' seq hs x hx
    · refine ⟨hlt.le.trans i1, ?_, ?_⟩
      · rcases i2 with h | ⟨e', seq', h1, h2⟩
        · rw [h]; exact .inr ⟨e, seq, by simp, rfl, hs, hx⟩
        · exact .inr ⟨e', seq', List.mem_cons_of_mem _ h1, h2⟩
      · intro e' he' seq' hs' x' hx'
        rcases List.mem_cons.1 he' with rfl | he'
        · rw [Expectation.unique hx' hx]; exact i1
        · exact i3 e' he' seq' hs' x' hx'

/-- what `selHighestExpGoalByState` gives -/
theorem selHighest_spec {g : GoalSystem} {state : Term} {x : Rat} {found : Option (Entry × Term)}
    (h : selHighestExpGoalByState g state = .ok (x, found)) :
    (∀ e, Stored g e → ∀ seq, StartsWith state e seq → ∀ y, Expectation e.sentence y → y ≤ x) ∧
    match found with
    | none => x = 0
    | some (e, seq) => Stored g e ∧ StartsWith state e seq ∧ Expectation e.sentence x := by
  unfold selHighestExpGoalByState at h
  obtain ⟨h1, h2, h3⟩ := selHighest_fold _ h
  refine ⟨fun e he => h3 e ((retEntries_mem g e).2 he), ?_⟩
  rcases h2 with h2 | ⟨e, seq, h4, h5, h6, h7⟩
  · cases h2; rfl
  · simp only at h5
    subst h5
    exact ⟨(retEntries_mem g e).1 h4, h6, h7⟩

/-- the best entry is an option, if there is one -/
def BestOk (p : Proc) (best : Option BestEntry) : Prop :=
  ∀ b, best = some b → IsOption p b.unifiedSeq b.exp b.evidence

theorem better_ok {p : Proc} {best : Option BestEntry} {e : BestEntry} (h : BestOk p best)
    (he : IsOption p e.unifiedSeq e.exp e.evidence) : BestOk p (better best e) := by
  intro b hb
  unfold better at hb
  split at hb
  · split at hb
    · cases hb; exact he
    · cases hb; exact h _ rfl
  · cases hb; exact he

theorem bestByState_ok {p : Proc} {best best' : Option BestEntry} {i : Nat} (hi : i < p.perceptWindow)
    (h : bestByState p best i = .ok best') (hb : BestOk p best) : BestOk p best' := by
  unfold bestByState at h
  split at h
  · cases h; exact hb
  · rename_i ev hev
    obtain ⟨⟨x, found⟩, hf, h⟩ := R.bind_ok.1 h
    have hs := (selHighest_spec hf).2
    cases found with
    | none => cases h; exact hb
    | some es =>
      obtain ⟨e, seq⟩ := es
      cases h
      obtain ⟨h1, ⟨f, r, a, h2, h3, h4⟩, h5⟩ := hs
      exact better_ok hb (.inl ⟨e, ev, f, r, a, h1, recentEvent_recent hi hev, h2, h3, h4, h5, rfl⟩)

theorem retTv_unwrap {s : Sentence} {o : Option Tv} {tv : Tv} (h1 : retTv s = .ok o) (h2 : unwrap o = .ok tv) :
    HasTruth s tv := by
  rw [unwrap_ok.1 h2] at h1; exact h1

/-- a chain of rules from a state: each rule is applicable to the effect of the one before; the end is `last` -/
inductive RuleChain (heap : List Sentence) : Term → List Nat → Term → Prop
  | nil {t} : RuleChain heap t [] t
  | cons {t acts effect rs last r b} : heap[r]? = some b → b.term = rule t acts effect → RuleChain heap effect rs last →
      RuleChain heap t (r :: rs) last

theorem RuleChain.snoc {heap : List Sentence} {t m effect : Term} {rs : List Nat} {r : Nat} {b : Sentence}
    {as : List Term} (h : RuleChain heap t rs m) (hb : heap[r]? = some b) (ht : b.term = rule m as effect) :
    RuleChain heap t (rs ++ [r]) effect := by
  induction h with
  | nil => exact .cons hb ht .nil
  | cons h1 h2 _ ih => exact .cons h1 h2 (ih ht)

/-- carrying the goal back over a chain of rules gives a plan -/
theorem carryBack_spec {heap : List Sentence} {goal : Term} {T : Tv} {rs : List Nat} {st res : Term × Tv × Option Term}
    {start last : Term} (hc : RuleChain heap start rs last) (done : List Nat)
    (hp : Plan heap goal T last done st.2.1) (hst : st.1 = last)
    (h : rs.reverse.foldlM (carryBack heap) st = .ok res) :
    res.1 = start ∧ Plan heap goal T start (rs ++ done) res.2.1 ∧
      (rs = [] ∨ ∃ r rs' b acts effect, rs = r :: rs' ∧ heap[r]? = some b ∧ b.term = rule start acts effect ∧
        res.2.2 = some (.Seq (start :: acts))) := by
  induction hc generalizing res with
  | nil => cases foldlM_nil_ok.1 h; exact ⟨hst, by simpa using hp, .inl rfl⟩
  | @cons t acts effect rs last r b hb ht hc ih =>
    rw [List.reverse_cons, List.foldlM_append] at h
    obtain ⟨mid, hm, h⟩ := R.bind_ok.1 h
    obtain ⟨res', hr, h⟩ := foldlM_cons_ok.1 h
    cases foldlM_nil_ok.1 h
    obtain ⟨j1, j2, _⟩ := ih hp hst hm
    unfold carryBack at hr
    obtain ⟨b', hb', hr⟩ := R.bind_ok.1 hr
    have hb' := indexAt_ok.1 hb'
    rw [hb] at hb'; cases hb'
    obtain ⟨co, hco, hr⟩ := R.bind_ok.1 hr
    obtain ⟨concl, hcc, hr⟩ := R.bind_ok.1 hr
    have hcc := unwrap_ok.1 hcc
    rw [hcc] at hco
    obtain ⟨cond, ts, tb, k1, k2, k3, k4, k5, k6, k7, k8⟩ := infGoalBelief_some hco
    obtain ⟨tvo, htvo, hr⟩ := R.bind_ok.1 hr
    obtain ⟨tv, htv, hr⟩ := R.bind_ok.1 hr
    have hconcl := retTv_unwrap htvo htv
    obtain ⟨c2, hc2, hr⟩ := R.bind_ok.1 hr
    cases hr
    rw [ht] at k1
    unfold rule at k1
    injection k1 with _ e1 e2
    have hcond : concl.term = .Seq (t :: acts) := by rw [k5, ← e1]
    rw [hcond] at hc2
    have hc2 := indexAt_ok.1 (show indexAt (t :: acts) 0 = .ok c2 from hc2)
    simp at hc2
    subst hc2
    have hts : ts = mid.2.1 := by
      have : HasTruth (newEternalSentenceByTv mid.1 .GOAL mid.2.1 ⟨[-1]⟩) mid.2.1 := rfl
      unfold HasTruth at this k3
      rw [this] at k3; cases k3; rfl
    have htv2 : tv = Tv.dedGoal ts tb := by
      unfold HasTruth at hconcl k8
      rw [hconcl] at k8; cases k8; rfl
    refine ⟨rfl, ?_, .inr ⟨r, rs, b, acts, effect, rfl, hb, ht, by rw [hcond]⟩⟩
    subst hts htv2
    exact .step hb ht k4 j2

theorem goalQuery_some {g : GoalSystem} {t : Term} {e : Entry} (h : goalQuery g t = some e) :
    Stored g e ∧ e.sentence.term = t := by
  unfold goalQuery at h
  split at h
  · rename_i e' he
    cases h
    exact ⟨(retEntries_mem g e).1 (List.mem_of_find?_eq_some he),
      (checkEqTerm_iff _ _).1 (by simpa using List.find?_some he)⟩
  · exact ⟨.inl (List.mem_of_find?_eq_some h), (checkEqTerm_iff _ _).1 (by simpa using List.find?_some h)⟩

theorem decidePredicted_ok {p : Proc} {predicted : Term} {hit : Entry} {chain : List Nat} {best best' : Option BestEntry}
    {last : Event} (hl : p.trace.getLast? = some last) (hc : RuleChain p.mem.heap last.name chain predicted)
    (hh : Stored p.goals hit) (ht : hit.sentence.term = predicted) (hb : BestOk p best)
    (h : decidePredicted p.mem.heap predicted hit chain best = .ok best') : BestOk p best' := by
  unfold decidePredicted at h
  obtain ⟨tvo, h1, h⟩ := R.bind_ok.1 h
  obtain ⟨T, h2, h⟩ := R.bind_ok.1 h
  have hT := retTv_unwrap h1 h2
  obtain ⟨res, hr, h⟩ := R.bind_ok.1 h
  obtain ⟨k1, k2, k3⟩ := carryBack_spec (goal := hit.sentence.term) (T := T) hc [] (by rw [ht]; exact .done) rfl hr
  obtain ⟨c, tv, so⟩ := res
  cases so with
  | none => cases h; exact hb
  | some seq =>
    obtain ⟨first, hf, h⟩ := R.bind_ok.1 h
    obtain ⟨_, -, h⟩ := R.bind_ok.1 h
    cases h
    rcases k3 with rfl | ⟨r, rs', b, acts, effect, rfl, hbr, hbt, hseq⟩
    · have := indexAt_ok.1 hf; simp at this
    · have hf := indexAt_ok.1 hf
      simp at hf; subst hf
      simp only [Option.some.injEq] at hseq
      rw [List.append_nil] at k2
      refine better_ok hb (.inr ⟨hit, last, T, tv, r, rs', b, acts, effect, hh, hl, hT, k2, hbr, hbt, hseq, by simp [Tv.calcExp, mul_comm], rfl⟩)

theorem hasAntecedent_true {q : Term} {b : Sentence} (h : hasAntecedent q b = .ok true) :
    ∃ acts effect, b.term = rule q acts effect := by
  unfold hasAntecedent at h
  split at h
  · cases h
  · rename_i s0 acts effect heq
    have h := Except.ok.inj h
    rw [checkEqTerm_iff] at h
    subst h
    exact ⟨acts, effect, heq⟩
  · cases h

theorem queryByAntecedent_mem {q : Term} {m : PMem} {rs : List Nat} (h : queryByAntecedent q m = .ok rs) {r : Nat}
    (hr : r ∈ rs) : ∃ b acts effect, m.heap[r]? = some b ∧ b.term = rule q acts effect := by
  have := ((filterR_ok h r).1 hr).2
  obtain ⟨b, hb, h⟩ := R.bind_ok.1 this
  obtain ⟨acts, effect, he⟩ := hasAntecedent_true h
  exact ⟨b, acts, effect, indexAt_ok.1 hb, he⟩

theorem predict_ok {p : Proc} {last : Event} (hl : p.trace.getLast? = some last) (n : Nat) {predicted : Term}
    {chain : List Nat} {best best' : Option BestEntry} {rng rng' : List Nat}
    (hc : RuleChain p.mem.heap last.name chain predicted) (hb : BestOk p best)
    (h : predict p n predicted chain best rng = .ok (best', rng')) : BestOk p best' := by
  induction n generalizing predicted chain rng with
  | zero => rw [predict] at h; cases h; exact hb
  | succ n ih =>
    rw [predict] at h
    split at h
    · rename_i hit hhit
      obtain ⟨b1, h1, h⟩ := R.bind_ok.1 h
      cases h
      split at hhit
      · obtain ⟨g1, g2⟩ := goalQuery_some hhit
        exact decidePredicted_ok hl hc g1 g2 hb h1
      · cases hhit
    · obtain ⟨found, hf, h⟩ := R.bind_ok.1 h
      split at h
      · cases h; exact hb
      · obtain ⟨⟨i, rng1⟩, _, h⟩ := R.bind_ok.1 h
        obtain ⟨r, hr, h⟩ := R.bind_ok.1 h
        obtain ⟨b, hb1, h⟩ := R.bind_ok.1 h
        obtain ⟨pred, hp, h⟩ := R.bind_ok.1 h
        obtain ⟨b', acts, effect, k1, k2⟩ := queryByAntecedent_mem hf (List.mem_of_getElem? (indexAt_ok.1 hr))
        have hb1 := indexAt_ok.1 hb1
        rw [k1] at hb1; cases hb1
        obtain ⟨cond, hcond⟩ := retPred_ok hp
        have : effect = pred := by
          rw [k2] at hcond; unfold rule at hcond; injection hcond
        subst this
        exact ih (hc.snoc k1 k2) h

theorem predictAll_ok {p : Proc} {best best' : Option BestEntry} {rng rng' : List Nat} (hb : BestOk p best)
    (h : predictAll p best rng = .ok (best', rng')) : BestOk p best' := by
  unfold predictAll retLastEvents at h
  cases hl : p.trace.getLast? with
  | none => rw [hl] at h; cases h; exact hb
  | some e =>
    rw [hl] at h
    obtain ⟨st, h1, h⟩ := foldlM_cons_ok.1 h
    have := foldlM_nil_ok.1 h
    subst this
    exact predict_ok hl 3 .nil hb h1

theorem isSeqAndLastOp_true {t : Term} (h : isSeqAndLastOp t = .ok true) :
    ∃ acts op args name, t = .Seq (acts ++ [op]) ∧ IsCall op args name := by
  unfold isSeqAndLastOp at h
  split at h
  · rename_i seq
    split at h
    · rename_i op hop
      have h := Except.ok.inj h
      obtain ⟨acts, rfl⟩ := List.getLast?_eq_some_iff.1 hop
      obtain ⟨⟨args, name⟩, hd⟩ := Option.isSome_iff_exists.1 h
      exact ⟨acts, op, args, name, rfl, (decodeOp_iff _ _ _).1 hd⟩
    · cases h
  · cases h

theorem enforce_ok {b : Bool} {u : Unit} (h : enforce b = .ok u) : b = true := by
  unfold enforce at h
  split at h
  · assumption
  · cases h

theorem adoptBest_ok {p p' : Proc} {best : Option BestEntry} (hb : BestOk p best) (h : adoptBest p best = .ok p') :
    ∃ g, p' = { p with goals := g } ∧ Adopted p g := by
  unfold adoptBest at h
  split at h
  · cases h; exact ⟨p.goals, rfl, .inl rfl⟩
  · rename_i b
    split at h
    · rename_i hx
      split at h
      · cases h; exact ⟨p.goals, rfl, .inl rfl⟩
      · rename_i ev hev
        obtain ⟨_, -, h⟩ := R.bind_ok.1 h
        obtain ⟨_, _, h⟩ := R.bind_ok.1 h
        obtain ⟨lo, hlo, h⟩ := R.bind_ok.1 h
        obtain ⟨_, hen, h⟩ := R.bind_ok.1 h
        obtain ⟨opTerm, hop, h⟩ := R.bind_ok.1 h
        obtain ⟨picked, hp, h⟩ := R.bind_ok.1 h
        obtain ⟨_, -, h⟩ := R.bind_ok.1 h
        obtain ⟨tvo, ht1, h⟩ := R.bind_ok.1 h
        obtain ⟨tv, ht2, h⟩ := R.bind_ok.1 h
        obtain ⟨_, -, h⟩ := R.bind_ok.1 h
        obtain ⟨g, hg, h⟩ := R.bind_ok.1 h
        cases h
        have := enforce_ok hen
        subst this
        obtain ⟨acts, op, args, name, hseq, hcall⟩ := isSeqAndLastOp_true hlo
        have : op = opTerm := by
          rw [hseq] at hop
          simp [retSeqLast] at hop
          exact hop
        subst this
        refine ⟨g, rfl, .inr ⟨b.unifiedSeq, b.exp, ev, picked, acts, op, args, name, tv, ?_, hx, indexAt_ok.1 hp,
          retTv_unwrap ht1 ht2, hseq, hcall, hg⟩⟩
        rw [← hev]; exact hb b rfl
    · cases h; exact ⟨p.goals, rfl, .inl rfl⟩


/-! ### the executed action -/

theorem isDesired_iff (e : Entry) : isDesired e = true ↔ 1/10000 < e.desirability := by
  unfold isDesired; rw [decide_eq_true_eq]

theorem bestActiveStep_spec {th : Rat} {st st' : Rat × Option (Entry × Nat)} {ei : Entry × Nat}
    (h : bestActiveStep th st ei = .ok st') :
    (st' = st ∧ (1/10000 < ei.1.desirability → ∀ x, Expectation ei.1.sentence x → x ≤ st.1 ∨ x ≤ th)) ∨
    ∃ x, 1/10000 < ei.1.desirability ∧ Expectation ei.1.sentence x ∧ st.1 < x ∧ th < x ∧ st' = (x, some ei) := by
  unfold bestActiveStep at h
  split at h
  · rename_i hd
    obtain ⟨x, hx, h⟩ := R.bind_ok.1 h
    have hx := (expOf_iff _ _).1 hx
    have hd := (isDesired_iff _).1 hd
    split at h
    · rename_i hgt
      cases h
      exact .inr ⟨x, hd, hx, hgt.1, hgt.2, rfl⟩
    · rename_i hle
      cases h
      refine .inl ⟨rfl, fun _ x' hx' => ?_⟩
      rw [Expectation.unique hx' hx]
      by_contra hc
      rw [not_or, not_le, not_le] at hc
      exact hle hc
  · rename_i hd
    cases h
    exact .inl ⟨rfl, fun hd' => absurd ((isDesired_iff _).2 hd') hd⟩

theorem bestActive_fold {th : Rat} (es : List (Entry × Nat)) {st st' : Rat × Option (Entry × Nat)}
    (h : es.foldlM (bestActiveStep th) st = .ok st') :
    st.1 ≤ st'.1 ∧ (st' = st ∨ ∃ ei ∈ es, st'.2 = some ei ∧ 1/10000 < ei.1.desirability ∧
      Expectation ei.1.sentence st'.1 ∧ th < st'.1 ∧ st.1 < st'.1) ∧
    ∀ ei ∈ es, 1/10000 < ei.1.desirability → ∀ x, Expectation ei.1.sentence x → x ≤ st'.1 ∨ x ≤ th := by
  induction es generalizing st with
  | nil => cases foldlM_nil_ok.1 h; exact ⟨le_refl _, .inl rfl, by simp⟩
  | cons e es ih =>
    obtain ⟨r1, h1, h⟩ := foldlM_cons_ok.1 h
    obtain ⟨i1, i2, i3⟩ := ih h
    rcases bestActiveStep_spec h1 with ⟨rfl, hb⟩ | ⟨x, hd, hx, hlt, hth, rfl⟩
    · refine ⟨i1, ?_, ?_⟩
      · rcases i2 with h | ⟨e', h1, h2⟩
        · exact .inl h
        · exact .inr ⟨e', List.mem_cons_of_mem _ h1, h2⟩
      · intro e' he' hd x hx
        rcases List.mem_cons.1 he' with rfl | he'
        · exact (hb hd x hx).imp_left (fun h => h.trans i1)
        · exact i3 e' he' hd x hx
    · refine ⟨hlt.le.trans i1, ?_, ?_⟩
      · rcases i2 with h | ⟨e', h1, h2, h3, h4, h5, h6⟩
        · rw [h]; exact .inr ⟨e, by simp, rfl, hd, hx, hth, hlt⟩
        · exact .inr ⟨e', List.mem_cons_of_mem _ h1, h2, h3, h4, h5, hlt.trans h6⟩
      · intro e' he' hd' x' hx'
        rcases List.mem_cons.1 he' with rfl | he'
        · rw [Expectation.unique hx' hx]; exact .inl i1
        · exact i3 e' he' hd' x' hx'

theorem bestActive_spec {p : Proc} {best : Option (Entry × Nat)} (h : bestActive p = .ok best) :
    match best with
    | none => ∀ e, ¬ BestGoal p.goals p.threshold e
    | some (e, i) => BestGoal p.goals p.threshold e ∧ p.goals.activeSet[i]? = some e := by
  unfold bestActive at h
  obtain ⟨⟨x, o⟩, hf, h⟩ := R.bind_ok.1 h
  cases h
  obtain ⟨h1, h2, h3⟩ := bestActive_fold _ hf
  have key : ∀ e ∈ p.goals.activeSet, 1/10000 < e.desirability → ∀ y, Expectation e.sentence y → y ≤ x ∨ y ≤ p.threshold := by
    intro e he
    obtain ⟨i, hi, rfl⟩ := List.mem_iff_getElem.1 he
    exact h3 (p.goals.activeSet[i], i) (List.mem_zipIdx_iff_getElem?.2 (List.getElem?_eq_getElem hi))
  rcases h2 with h2 | ⟨ei, hm, h2, h4, h5, h6, h7⟩
  · cases h2
    rintro e ⟨hm, hd, y, hy, hth, hpos, _⟩
    rcases key e hm hd y hy with h | h
    · exact absurd hpos (not_lt.2 h)
    · exact absurd hth (not_lt.2 h)
  · simp only at h2
    subst h2
    obtain ⟨e, i⟩ := ei
    have hi := List.mem_zipIdx_iff_getElem?.1 hm
    refine ⟨⟨List.mem_of_getElem? hi, h4, x, h5, h6, h7, ?_⟩, hi⟩
    intro e' he' hd' y hy
    rcases key e' he' hd' y hy with h | h
    · exact h
    · exact h.trans h6.le

theorem deadlineOf_spec {p : Proc} {b : Sentence} {d : Int} (h : deadlineOf p b = .ok d) :
    ∃ interval, ExpectedAfter p b interval ∧ d = p.t + interval := by
  have key : ∀ k : Int, (if k < 0 then .error .index
      else do let interval ← indexAt p.table k.toNat; .ok (p.t + interval) : R Int) = .ok d →
      ∃ n : Nat, ∃ interval, k = n ∧ p.table[n]? = some interval ∧ d = p.t + interval := by
    intro k hk
    by_cases hneg : k < 0
    · rw [if_pos hneg] at hk; cases hk
    · rw [if_neg hneg] at hk
      obtain ⟨iv, hiv, hk⟩ := R.bind_ok.1 hk
      cases hk
      exact ⟨k.toNat, iv, by omega, indexAt_ok.1 hiv, rfl⟩
  unfold deadlineOf at h
  cases he : b.expDt with
  | none =>
    rw [he] at h
    obtain ⟨n, iv, h1, h2, h3⟩ := key _ h
    exact ⟨iv, ⟨n, h2, .inr ⟨he, by simp at h1; omega⟩⟩, h3⟩
  | some k =>
    rw [he] at h
    obtain ⟨n, iv, h1, h2, h3⟩ := key _ h
    exact ⟨iv, ⟨n, h2, .inl (by rw [he]; simpa using h1)⟩, h3⟩

/-- the state after the best executable goal was picked -/
theorem pickAction_spec {p p' : Proc} {best : Option (Entry × Nat)} {picked : Option Term}
    (h : pickAction p best = .ok (p', picked)) :
    (p' = p ∧ picked = none ∧ (best = none ∨ ∃ e i, best = some (e, i) ∧ (e.evidence = none ∨ ¬ Executable e.sentence))) ∨
    ∃ e i r b interval, best = some (e, i) ∧ e.evidence = some r ∧ Executable e.sentence ∧ p.mem.heap[r]? = some b ∧
      ExpectedAfter p b interval ∧ picked = some e.sentence.term ∧
      p' = { p with
        goals := { p.goals with activeSet := p.goals.activeSet.eraseIdx i }
        anticipated := if p.enAnticipation then p.anticipated ++ [⟨r, p.t + interval⟩] else p.anticipated } := by
  unfold pickAction at h
  split at h
  · cases h; exact .inl ⟨rfl, rfl, .inl rfl⟩
  · rename_i e i
    split at h
    · rename_i hev
      cases h; exact .inl ⟨rfl, rfl, .inr ⟨e, i, rfl, .inl hev⟩⟩
    · rename_i r hr
      split at h
      · rename_i hd
        cases h
        refine .inl ⟨rfl, rfl, .inr ⟨e, i, rfl, .inr ?_⟩⟩
        rw [executable_iff, hd]; simp
      · rename_i an hd
        obtain ⟨b, hb, h⟩ := R.bind_ok.1 h
        obtain ⟨d, hdl, h⟩ := R.bind_ok.1 h
        cases h
        obtain ⟨iv, hiv, rfl⟩ := deadlineOf_spec hdl
        refine .inr ⟨e, i, r, b, iv, rfl, hr, ?_, indexAt_ok.1 hb, hiv, rfl, rfl⟩
        rw [executable_iff, hd]; simp

theorem babble_spec {p : Proc} {picked picked' : Option Term} {rng rng' : List Nat}
    (h : babble p picked rng = .ok (picked', rng')) :
    picked' = picked ∨ (picked = none ∧ p.enBabbling = true ∧ ∃ op ∈ p.ops, op.babbleable = true ∧
      picked' = some (encodeOp [selfTerm] op.name)) := by
  unfold babble at h
  split at h
  · cases h; exact .inl rfl
  · split at h
    · rename_i hc
      obtain ⟨⟨d, rng1⟩, _, h⟩ := R.bind_ok.1 h
      simp only at h
      split at h
      · rename_i op hop
        split at h
        · rename_i hb
          cases h
          simp only [Bool.and_eq_true] at hc
          exact .inr ⟨rfl, hc.1, op, List.mem_of_getElem? hop, hb, rfl⟩
        · cases h; exact .inl rfl
      · cases h; exact .inl rfl
    · cases h; exact .inl rfl

theorem execute_spec {call : Call} (hcall : OnlyReports call) {p p' : Proc} {picked executed : Option Term}
    (h : execute call p picked = .ok (p', executed)) :
    (executed = none ∧ p' = p ∧ ∀ t, picked = some t → ¬ RegisteredCall p.ops t) ∨
    ∃ t args name p1 evs, picked = some t ∧ executed = some t ∧ IsCall t args name ∧ RegisteredCall p.ops t ∧
      call name args p = .ok p1 ∧ p1 = { p with trace := p.trace ++ evs } ∧
      p' = { p with trace := p.trace ++ evs ++ [⟨t, p.t, p.t⟩] } := by
  unfold execute at h
  split at h
  · cases h; exact .inl ⟨rfl, rfl, by simp⟩
  · rename_i t
    obtain ⟨⟨args, name⟩, hd, h⟩ := R.bind_ok.1 h
    have hd := (decodeOp_iff _ _ _).1 (unwrap_ok.1 hd)
    simp only at h
    split at h
    · rename_i op hop
      obtain ⟨p1, hp1, h⟩ := R.bind_ok.1 h
      obtain ⟨_, -, h⟩ := R.bind_ok.1 h
      cases h
      obtain ⟨evs, rfl⟩ := hcall _ _ _ _ hp1
      obtain ⟨h1, h2⟩ := retOpByName_some hop
      exact .inr ⟨t, args, name, _, evs, rfl, rfl, hd, ⟨args, name, hd, op, h1, h2⟩, hp1, rfl, rfl⟩
    · rename_i hn
      cases h
      refine .inl ⟨rfl, rfl, ?_⟩
      rintro t' ht' ⟨args', name', hd', o, ho, hn'⟩
      cases ht'
      have := hd.2.symm.trans hd'.2
      simp at this
      obtain ⟨o', ho'⟩ := retOpByName_isSome.1 ⟨o, ho, hn'⟩
      rw [← this.2, hn] at ho'
      cases ho'

end Nar
