import Verif.Lemmas.Proc7
/-! # Lemmas about the safety of the procedural reasoner: the second part of a step -/
namespace Nar
open Term

theorem newGoal_truth (t : Term) (tv : Tv) (st : Stamp) : HasTruth (newEternalSentenceByTv t .GOAL tv st) tv := rfl

/-! ## the goals -/

theorem GSafe.add {n : Nat} {g : GoalSystem} (h : GSafe n g) {t : Int} {goal : Sentence} {ev : Option Nat} {d : Int}
    (hp : goal.punct = .GOAL) (ht : ∃ tv, HasTruth goal tv) (hd : 0 ≤ d)
    (hev : ∀ r, ev = some r → r < n ∧ EndsInCall goal.term) (hx : Printable goal.term) : ∃ g', addEntry g t goal ev d = .ok g' ∧ GSafe n g' := by
  obtain ⟨g', h1, h2, h3⟩ := GoalOp.run_total (decay := fun _ => 0) (op := .add t goal ev d) h.inv h.depth h.cap h.usable
    ⟨hp, ht, hd⟩
  have h1 : addEntry g t goal ev d = .ok g' := h1
  refine ⟨g', h1, addEntry_inv h1 h.inv, ?_, h2, h3, ?_, ?_⟩
  · rw [(addEntry_spec h1).1.2.1]; exact h.depth
  · intro e he r hr
    rcases (addEntry_spec h1).2.2 e he with he | ⟨a, rfl⟩
    · exact h.ev e he r hr
    · exact hev r hr
  · intro e he
    rcases (addEntry_spec h1).2.2 e he with he | ⟨a, rfl⟩
    · exact h.text e he
    · exact hx

theorem GSafe.limit {n : Nat} {g : GoalSystem} (h : GSafe n g) (decay : Int → Rat) (t : Int) :
    ∃ g', goalLimitMemory decay g t = .ok g' ∧ GSafe n g' := by
  obtain ⟨g', h1, h2, h3⟩ := GoalOp.run_total (decay := decay) (op := .limit t) h.inv h.depth h.cap h.usable trivial
  have h1 : goalLimitMemory decay g t = .ok g' := h1
  refine ⟨g', h1, goalLimit_inv h1 h.inv, ?_, h2, h3, ?_, ?_⟩
  · rw [GoalOp.run_cfg (op := .limit t) h1]; exact h.depth
  · intro e he r hr
    obtain ⟨sorted, -, -, -, hs, -, hf⟩ := goalLimit_cases h1
    rcases (foldAdd_spec hf).2.2.2.1 e he with he | ⟨x, hx, a, rfl⟩
    · exact (flushed_stored _ _ he).elim
    · obtain ⟨y, u, hy, -, rfl⟩ := hs x (List.mem_of_mem_take hx)
      exact h.ev y hy r hr
  · intro e he
    obtain ⟨sorted, -, -, -, hs, -, hf⟩ := goalLimit_cases h1
    rcases (foldAdd_spec hf).2.2.2.1 e he with he | ⟨x, hx, a, rfl⟩
    · exact (flushed_stored _ _ he).elim
    · obtain ⟨y, u, hy, -, rfl⟩ := hs x (List.mem_of_mem_take hx)
      exact h.text y hy

theorem GoalStep.text {table : List Int} {m : PMem} (hm : ∀ b ∈ m.heap, RuleOk table b) {s c : Sentence} {ev : Option Nat}
    (h : GoalStep m s c ev) (hs : Printable s.term) : Printable c.term := by
  rcases h with ⟨-, first, rest, ts, h1, -, h2, -⟩ | ⟨r', b, -, hb, cond, ts, tb, h1, -, -, -, h2, -⟩
  · rw [h2]
    rw [h1] at hs
    exact (printable_seq.1 hs).2 _ (by simp)
  · have := (hm b (List.mem_of_getElem? hb)).text
    rw [h1] at this
    rw [h2]
    exact (printable_stmt.1 this).1

theorem GoalChain.text {table : List Int} {m : PMem} (hm : ∀ b ∈ m.heap, RuleOk table b) {s c : Sentence} {n : Nat}
    {ev : Option Nat} (h : GoalChain m s n c ev) (hs : Printable s.term) : Printable c.term := by
  induction h with
  | one h => exact h.text hm hs
  | more _ h ih => exact h.text hm ih

theorem GoalStep.ends {table : List Int} {m : PMem} (hm : ∀ b ∈ m.heap, RuleOk table b) {s c : Sentence} {ev : Option Nat}
    (h : GoalStep m s c ev) {r : Nat} (hr : ev = some r) : r < m.heap.length ∧ EndsInCall c.term := by
  rcases h with ⟨rfl, -⟩ | ⟨r', b, rfl, hb, cond, ts, tb, h1, -, -, -, h2, -⟩
  · cases hr
  · cases hr
    refine ⟨(List.getElem?_eq_some_iff.1 hb).1, ?_⟩
    obtain ⟨c', as, op, e, args, name, h3, h4⟩ := (hm b (List.mem_of_getElem? hb)).shape
    rw [h1] at h3
    injection h3 with _ h3 _
    right
    exact ⟨c' :: as, op, args, name, by rw [h2, h3]; rfl, h4⟩

theorem GSafe.infer {table : List Int} {m : PMem} (hm : ∀ b ∈ m.heap, RuleOk table b) (hr : m.RefsValid) {g : GoalSystem}
    (h : GSafe m.heap.length g) {t : Int} {d1 d2 : Rat} {rng : List Nat} (h2 : 0 ≤ d2) :
    ∃ g', sampleAndInference g t m d1 d2 rng = .ok g' ∧ GSafe m.heap.length g' := by
  obtain ⟨g', h1, k2, k3⟩ := GoalOp.run_total (decay := fun _ => 0) (op := .infer t m d1 d2 rng) h.inv h.depth h.cap h.usable
    ⟨⟨hr, fun b hb => (hm b hb).sane.truth⟩, h2⟩
  refine ⟨g', h1, GoalOp.run_inv (decay := fun _ => 0) (op := .infer t m d1 d2 rng) h1 h.inv, ?_, k2, k3, ?_, ?_⟩
  · rw [GoalOp.run_cfg (decay := fun _ => 0) (op := .infer t m d1 d2 rng) h1]; exact h.depth
  · intro e he r hr
    rcases (sampleAndInference_spec h1).2.2 e he with he | ⟨i, x, c, a, -, -, ⟨n, hc, -⟩, rfl⟩
    · exact h.ev e he r hr
    · cases hc with
      | one hs => exact hs.ends hm hr
      | more _ hs => exact hs.ends hm hr
  · intro e he
    rcases (sampleAndInference_spec h1).2.2 e he with he | ⟨i, x, c, a, hx, -, ⟨n, hc, -⟩, rfl⟩
    · exact h.text e he
    · exact hc.text hm (h.text x (.inr ⟨i, hx⟩))

theorem GSafe.infers {table : List Int} {m : PMem} (hm : ∀ b ∈ m.heap, RuleOk table b) (hr : m.RefsValid) {t : Int}
    {infs : List (Rat × Rat × List Nat)} (hi : ∀ d ∈ infs, 0 ≤ d.2.1) {g : GoalSystem} (h : GSafe m.heap.length g) :
    ∃ g', infs.foldlM (fun g d => sampleAndInference g t m d.1 d.2.1 d.2.2) g = .ok g' ∧ GSafe m.heap.length g' := by
  induction infs generalizing g with
  | nil => exact ⟨g, rfl, h⟩
  | cons d infs ih =>
    obtain ⟨g1, h1, k1⟩ := h.infer (t := t) (d1 := d.1) (rng := d.2.2) hm hr (hi d (by simp))
    obtain ⟨g2, h2, k2⟩ := ih (fun x hx => hi x (by simp [hx])) k1
    exact ⟨g2, foldlM_cons_ok.2 ⟨g1, h1, h2⟩, k2⟩

/-! ## the decision -/

theorem printTerm_ok {t : Term} (h : Printable t) : printTerm t = .ok () := by
  obtain ⟨x, hx⟩ := h
  unfold printTerm
  rw [hx]

theorem usable_exp {g : GoalSystem} (h : Usable g) {e : Entry} (he : Stored g e) : ∃ x, expOf e.sentence = .ok x :=
  HasTruth.exp (h e he).1

theorem selHighest_total {g : GoalSystem} (h : Usable g) (state : Term) : ∃ r, selHighestExpGoalByState g state = .ok r := by
  unfold selHighestExpGoalByState
  have : ∀ (es : List Entry), (∀ e ∈ es, Stored g e) → ∀ res, ∃ r, es.foldlM (selHighestStep state) res = .ok r := by
    intro es
    induction es with
    | nil => intro _ res; exact ⟨res, rfl⟩
    | cons e es ih =>
      intro he res
      have h1 : ∃ r, selHighestStep state res e = .ok r := by
        unfold selHighestStep
        split
        · split
          · obtain ⟨x, hx⟩ := usable_exp h (he e (by simp))
            simp only [bind, Except.bind, hx]
            split <;> exact ⟨_, rfl⟩
          · exact ⟨_, rfl⟩
        · exact ⟨_, rfl⟩
      obtain ⟨r1, h1⟩ := h1
      obtain ⟨r2, h2⟩ := ih (fun x hx => he x (by simp [hx])) r1
      exact ⟨r2, foldlM_cons_ok.2 ⟨r1, h1, h2⟩⟩
  exact this _ (fun e he => (retEntries_mem g e).1 he) _

theorem bestByStates_total {p : Proc} (h : Usable p.goals) (is : List Nat) (best : Option BestEntry) :
    ∃ b, is.foldlM (bestByState p) best = .ok b := by
  induction is generalizing best with
  | nil => exact ⟨best, rfl⟩
  | cons i is ih =>
    have h1 : ∃ b, bestByState p best i = .ok b := by
      unfold bestByState
      split
      · exact ⟨_, rfl⟩
      · rename_i ev _
        obtain ⟨⟨x, found⟩, hr⟩ := selHighest_total h ev.name
        simp only [bind, Except.bind, hr]
        cases found with
        | none => exact ⟨_, rfl⟩
        | some eu => exact ⟨_, rfl⟩
    obtain ⟨b1, h1⟩ := h1
    obtain ⟨b2, h2⟩ := ih b1
    exact ⟨b2, foldlM_cons_ok.2 ⟨b1, h1, h2⟩⟩

theorem carryBack_total {table : List Int} {heap : List Sentence} (hh : ∀ b ∈ heap, RuleOk table b) {start last : Term}
    {rs : List Nat} (hc : RuleChain heap start rs last) {st : Term × Tv × Option Term} (hst : st.1 = last) :
    ∃ res, rs.reverse.foldlM (carryBack heap) st = .ok res ∧ res.1 = start ∧
      ∀ u, res.2.2 = some u → st.2.2 = some u ∨ Printable u := by
  induction hc with
  | nil => exact ⟨st, rfl, hst, fun u h => .inl h⟩
  | @cons t acts effect rs last r b hb hterm _ ih =>
    obtain ⟨res1, h1, h2, -⟩ := ih hst
    have hok := hh b (List.mem_of_getElem? hb)
    obtain ⟨tb, htb⟩ := hok.sane.truth
    have hov : Stamp.checkOverlap (⟨[-1]⟩ : Stamp) b.stamp = false := by
      rw [Bool.eq_false_iff, Ne, Stamp.checkOverlap_iff]
      rintro ⟨i, hi, hi2⟩
      simp at hi
      subst hi
      exact hok.stamp hi2
    have hinf : infGoalBelief (newEternalSentenceByTv res1.1 .GOAL res1.2.1 ⟨[-1]⟩) b =
        .ok (some (newEternalSentenceByTv (.Seq (t :: acts)) .GOAL (Tv.dedGoal res1.2.1 tb)
          (Stamp.merge ⟨[-1]⟩ b.stamp))) := by
      unfold infGoalBelief
      rw [hterm]
      unfold rule
      have e1 : checkEqTerm (newEternalSentenceByTv res1.1 .GOAL res1.2.1 ⟨[-1]⟩).term effect = true := by
        rw [checkEqTerm_iff]; exact h2
      have htb : retTv b = .ok (some tb) := htb
      have hg : retTv (newEternalSentenceByTv res1.1 .GOAL res1.2.1 ⟨[-1]⟩) = .ok (some res1.2.1) := rfl
      have hov : Stamp.checkOverlap (newEternalSentenceByTv res1.1 .GOAL res1.2.1 ⟨[-1]⟩).stamp b.stamp = false := hov
      simp only [e1, hov, htb, hg, bind, Except.bind, unwrap]
      rfl
    refine ⟨(t, Tv.dedGoal res1.2.1 tb, some (.Seq (t :: acts))), ?_, rfl, ?_⟩
    case refine_2 =>
      intro u hu
      cases hu
      have := hok.text
      rw [hterm] at this
      exact .inr (printable_stmt.1 this).1
    rw [List.reverse_cons, List.foldlM_append, h1]
    show List.foldlM (carryBack heap) res1 [r] = _
    rw [foldlM_cons_ok]
    refine ⟨_, ?_, rfl⟩
    unfold carryBack
    simp only [bind, Except.bind, indexAt_ok.2 hb, hinf, unwrap]
    rfl

theorem predict_total {p : Proc} (hp : PSafe p) (n : Nat) {start predicted : Term} {chain : List Nat}
    (hc : RuleChain p.mem.heap start chain predicted) (best : Option BestEntry) (rng : List Nat) :
    ∃ r, predict p n predicted chain best rng = .ok r := by
  induction n generalizing predicted chain rng with
  | zero => exact ⟨_, rfl⟩
  | succ n ih =>
    rw [predict]
    split
    · rename_i hit hhit
      have hlen : chain.length > 0 ∧ goalQuery p.goals predicted = some hit := by
        split at hhit
        · rename_i h; exact ⟨h, hhit⟩
        · cases hhit
      obtain ⟨hs, ht⟩ := goalQuery_some hlen.2
      obtain ⟨T, hT⟩ := (hp.goals.usable hit hs).1
      have hT : retTv hit.sentence = .ok (some T) := hT
      obtain ⟨⟨c1, tv1, o1⟩, hres, -, htext⟩ := carryBack_total hp.heap hc (st := (predicted, T, none)) rfl
      have hd : ∃ b, decidePredicted p.mem.heap predicted hit chain best = .ok b := by
        unfold decidePredicted
        simp only [bind, Except.bind, hT, unwrap, hres]
        cases o1 with
        | none => exact ⟨_, rfl⟩
        | some seq =>
          have hpr : Printable seq := by
            rcases htext seq rfl with h | h
            · cases h
            · exact h
          simp only [indexAt_ok.2 (List.getElem?_eq_getElem hlen.1), printTerm_ok hpr]
          exact ⟨_, rfl⟩
      obtain ⟨b, hb⟩ := hd
      simp only [bind, Except.bind, hb]
      exact ⟨_, rfl⟩
    · have hq : ∃ found, queryByAntecedent predicted p.mem = .ok found := by
        unfold queryByAntecedent
        refine filterR_total ?_
        intro r hr
        have hlt := byTerms_refs hp.refs _ r hr
        obtain ⟨c, as, op, e, _, _, h, _⟩ := (hp.heap p.mem.heap[r] (List.getElem_mem _)).shape
        simp only [bind, Except.bind, indexAt_ok.2 (List.getElem?_eq_getElem hlt), hasAntecedent]
        rw [h]
        exact ⟨_, rfl⟩
      obtain ⟨found, hf⟩ := hq
      simp only [bind, Except.bind, hf]
      split
      · exact ⟨_, rfl⟩
      · rename_i hne
        have hlt : rng.headD 0 % found.length < found.length := Nat.mod_lt _ (by omega)
        obtain ⟨b, acts, effect, hb, hterm⟩ := queryByAntecedent_mem hf (List.getElem_mem hlt)
        have hr : retPred b.term = .ok effect := by rw [hterm]; rfl
        simp only [genRange, if_neg hne, indexAt_ok.2 (List.getElem?_eq_getElem hlt), indexAt_ok.2 hb, hr]
        exact ih (hc.snoc hb hterm) _

theorem predictAll_total {p : Proc} (hp : PSafe p) (best : Option BestEntry) (rng : List Nat) :
    ∃ r, predictAll p best rng = .ok r := by
  unfold predictAll retLastEvents
  cases p.trace.getLast? with
  | none => exact ⟨_, rfl⟩
  | some e =>
    obtain ⟨r, hr⟩ := predict_total hp 3 (start := e.name) (chain := []) .nil best rng
    exact ⟨r, foldlM_cons_ok.2 ⟨r, hr, rfl⟩⟩

theorem unifySubstL_append (a : List Asgnment) (l m : List Term) :
    unifySubstL a (l ++ m) = unifySubstL a l ++ unifySubstL a m := by
  induction l with
  | nil => rfl
  | cons t l ih => simp only [List.cons_append, unifySubstL, ih]

theorem IsCall.subst {t : Term} {args : List Term} {name : String} (h : IsCall t args name) (a : List Asgnment) :
    IsCall (unifySubst a t) (unifySubstL a args) name := by
  obtain ⟨h1, rfl⟩ := h
  refine ⟨?_, rfl⟩
  obtain ⟨x, xs, rfl⟩ := List.exists_cons_of_ne_nil h1
  simp [unifySubstL]

theorem IsOption.ends {p : Proc} (hp : PSafe p) {seq : Term} {x : Rat} {r : Nat} (h : IsOption p seq x (some r)) :
    r < p.mem.heap.length ∧ ∃ ini op args name, seq = .Seq (ini ++ [op]) ∧ IsCall op args name := by
  rcases h with ⟨e, event, first, rest, a, hs, -, h1, -, h2, -, h3⟩ | ⟨e, last, T, tv, r', rs, b, acts, effect, -, -, -, -, hb, h1, h2, -, h3⟩
  · obtain ⟨k1, k2⟩ := hp.goals.ev e hs r h3.symm
    refine ⟨k1, ?_⟩
    rcases k2 with ⟨args, name, -, k2⟩ | ⟨ini, op, args, name, k2, k3⟩
    · rw [h1] at k2; cases k2
    · refine ⟨unifySubstL a ini, unifySubst a op, unifySubstL a args, name, ?_, k3.subst a⟩
      rw [h2, k2]
      simp only [unifySubst, unifySubstL_append, unifySubstL]
  · cases h3
    refine ⟨(List.getElem?_eq_some_iff.1 hb).1, ?_⟩
    obtain ⟨c, as, op, e', args, name, h4, h5⟩ := (hp.heap b (List.mem_of_getElem? hb)).shape
    rw [h1] at h4
    injection h4 with _ h4 _
    exact ⟨c :: as, op, args, name, by rw [h2, h4]; rfl, h5⟩

theorem IsOption.text {p : Proc} (hp : PSafe p) {seq : Term} {x : Rat} {ev : Option Nat} (h : IsOption p seq x ev) :
    Printable seq := by
  rcases h with ⟨e, event, first, rest, a, hs, hrec, h1, hu, h2, -⟩ | ⟨e, last, T, tv, r', rs, b, acts, effect, -, -, -, -, hb, h1, h2, -⟩
  · rw [h2]
    exact printable_subst hu (hp.trace event ((newest_suffix _ _).subset hrec)).2.1 (hp.goals.text e hs)
  · have := (hp.heap b (List.mem_of_getElem? hb)).text
    rw [h1] at this
    rw [h2]
    exact (printable_stmt.1 this).1

theorem adoptBest_total {p : Proc} (hp : PSafe p) {best : Option BestEntry} (hb : BestOk p best) :
    ∃ g, adoptBest p best = .ok { p with goals := g } ∧ GSafe p.mem.heap.length g := by
  unfold adoptBest
  split
  · exact ⟨p.goals, rfl, hp.goals⟩
  · rename_i b
    split
    · split
      · exact ⟨p.goals, rfl, hp.goals⟩
      · rename_i r hev
        have ho := hb b rfl
        rw [hev] at ho
        obtain ⟨hlt, ini, op, args, name, hseq, hcall⟩ := ho.ends hp
        have htx := ho.text hp
        rw [hseq] at htx
        have hop : Printable op := (printable_seq.1 htx).2 op (by simp)
        have hpt : Printable p.mem.heap[r].term := (hp.heap _ (List.getElem_mem _)).text
        obtain ⟨tv, htv⟩ := (hp.heap p.mem.heap[r] (List.getElem_mem _)).sane.truth
        have htv : retTv p.mem.heap[r] = .ok (some tv) := htv
        obtain ⟨g, hg, hgs⟩ := hp.goals.add (t := p.t) (goal := newEternalSentenceByTv op .GOAL tv p.mem.heap[r].stamp)
          (ev := some r) (d := 0) rfl ⟨tv, rfl⟩ (le_refl _) (by rintro r' h; cases h; exact ⟨hlt, .inl ⟨args, name, hcall⟩⟩) hop
        refine ⟨g, ?_, hgs⟩
        have e1 : isSeqAndLastOp (.Seq (ini ++ [op])) = .ok true := by
          simp [isSeqAndLastOp, (decodeOp_iff op args name).2 hcall]
        have e2 : retSeqLast (.Seq (ini ++ [op])) = .ok op := by
          simp [retSeqLast]
        rw [hseq]
        simp only [isSeq, enforce, if_true, bind, Except.bind, printTerm_ok htx, printTerm_ok hop, printTerm_ok hpt, e1, e2,
          indexAt_ok.2 (List.getElem?_eq_getElem hlt), htv, unwrap, hg]
    · exact ⟨p.goals, rfl, hp.goals⟩

theorem bestActive_total {p : Proc} (h : Usable p.goals) : ∃ b, bestActive p = .ok b := by
  unfold bestActive
  have : ∀ (es : List (Entry × Nat)), (∀ e ∈ es, Stored p.goals e.1) → ∀ res, ∃ r,
      es.foldlM (bestActiveStep p.threshold) res = .ok r := by
    intro es
    induction es with
    | nil => intro _ res; exact ⟨res, rfl⟩
    | cons e es ih =>
      intro he res
      have h1 : ∃ r, bestActiveStep p.threshold res e = .ok r := by
        unfold bestActiveStep
        split
        · obtain ⟨x, hx⟩ := usable_exp h (he e (by simp))
          simp only [bind, Except.bind, hx]
          split <;> exact ⟨_, rfl⟩
        · exact ⟨_, rfl⟩
      obtain ⟨r1, h1⟩ := h1
      obtain ⟨r2, h2⟩ := ih (fun x hx => he x (by simp [hx])) r1
      exact ⟨r2, foldlM_cons_ok.2 ⟨r1, h1, h2⟩⟩
  obtain ⟨⟨x, o⟩, hr⟩ := this p.goals.activeSet.zipIdx (by
    rintro ⟨e, i⟩ he
    rw [List.mem_zipIdx_iff_getElem?] at he
    exact .inl (List.mem_of_getElem? he)) (0, none)
  exact ⟨o, by simp only [bind, Except.bind, hr]⟩

theorem GSafe.erase {n : Nat} {g : GoalSystem} (h : GSafe n g) (i : Nat) :
    GSafe n { g with activeSet := g.activeSet.eraseIdx i } := by
  have hsub : ∀ e, Stored { g with activeSet := g.activeSet.eraseIdx i } e → Stored g e := by
    rintro e (he | he)
    · exact .inl (List.mem_of_mem_eraseIdx he)
    · exact .inr he
  exact ⟨eraseIdx_inv i h.inv, h.depth, h.cap, fun e he => h.usable e (hsub e he), fun e he => h.ev e (hsub e he),
    fun e he => h.text e (hsub e he)⟩

theorem pickAction_total {p : Proc} (hp : PSafe p) {best : Option (Entry × Nat)}
    (hb : ∀ e i, best = some (e, i) → Stored p.goals e) :
    ∃ p' picked, pickAction p best = .ok (p', picked) ∧ PSafe p' ∧ p'.ops = p.ops ∧ p'.nOpsMax = p.nOpsMax ∧
      ∀ t, picked = some t → Printable t ∧ ∃ args name, IsCall t args name := by
  have triv : ∃ p' picked, (.ok (p, none) : R (Proc × Option Term)) = .ok (p', picked) ∧ PSafe p' ∧ p'.ops = p.ops ∧
      p'.nOpsMax = p.nOpsMax ∧ ∀ t, picked = some t → Printable t ∧ ∃ args name, IsCall t args name :=
    ⟨p, none, rfl, hp, rfl, rfl, by intro t h; cases h⟩
  unfold pickAction
  split
  · exact triv
  · rename_i e idx
    split
    · exact triv
    · rename_i r hev
      split
      · exact triv
      · rename_i an hd
        obtain ⟨hlt, -⟩ := hp.goals.ev e (hb e idx rfl) r hev
        obtain ⟨k, hk, hk'⟩ := (hp.heap p.mem.heap[r] (List.getElem_mem _)).delay
        have hdl : deadlineOf p p.mem.heap[r] = .ok (p.t + p.table[k]) := by
          unfold deadlineOf
          rw [hk']
          simp only [if_neg (show ¬ (k : Int) < 0 by omega), Int.toNat_natCast, bind, Except.bind,
            indexAt_ok.2 (List.getElem?_eq_getElem hk)]
        simp only [bind, Except.bind, indexAt_ok.2 (List.getElem?_eq_getElem hlt), hdl]
        refine ⟨_, _, rfl, ⟨hp.heap, hp.queue, hp.refs, ?_, hp.goals.erase idx, hp.trace, hp.time, hp.table, hp.alive,
          hp.weights⟩, rfl, rfl, ?_⟩
        · intro a ha
          show a.evi < p.mem.heap.length
          change a ∈ (if p.enAnticipation = true then p.anticipated ++ [⟨r, p.t + p.table[k]⟩] else p.anticipated) at ha
          split at ha
          · rcases List.mem_append.1 ha with ha | ha
            · exact hp.antic a ha
            · rw [List.mem_singleton] at ha; subst ha; exact hlt
          · exact hp.antic a ha
        · intro t ht
          cases ht
          exact ⟨hp.goals.text e (hb e idx rfl), _, _, (decodeOp_iff _ _ _).1 hd⟩

theorem babble_total {p : Proc} {picked : Option Term} {rng : List Nat}
    (h : ∀ t, picked = some t → Printable t ∧ ∃ args name, IsCall t args name) :
    ∃ picked' rng', babble p picked rng = .ok (picked', rng') ∧
      ∀ t, picked' = some t → Printable t ∧ ∃ args name, IsCall t args name := by
  unfold babble
  split
  · exact ⟨_, _, rfl, h⟩
  · split
    · rename_i hc
      have hne : ¬ p.ops.length * 9 = 0 := by
        simp at hc
        have := hc.2
        intro h0
        omega
      simp only [genRange, if_neg hne, bind, Except.bind]
      split
      · split
        · refine ⟨_, _, rfl, ?_⟩
          intro t ht
          cases ht
          exact ⟨⟨_, rfl⟩, _, _, by simp, rfl⟩
        · exact ⟨_, _, rfl, by intro t h; cases h⟩
      · exact ⟨_, _, rfl, by intro t h; cases h⟩
    · exact ⟨_, _, rfl, by intro t h; cases h⟩

theorem decideAction_total {p : Proc} (hp : PSafe p) (rng : List Nat) :
    ∃ p' picked rng', decideAction p rng = .ok (p', picked, rng') ∧ PSafe p' ∧ p'.ops = p.ops ∧ p'.nOpsMax = p.nOpsMax ∧
      ∀ t, picked = some t → Printable t ∧ ∃ args name, IsCall t args name := by
  obtain ⟨b0, h0⟩ := bestByStates_total hp.goals.usable (List.range p.perceptWindow) none
  have hb0 : BestOk p b0 := bestByState_fold_ok _ (by simp) h0 (by intro b hb; cases hb)
  obtain ⟨⟨b1, rng1⟩, h1⟩ := predictAll_total hp b0 rng
  have hb1 := predictAll_ok hb0 h1
  obtain ⟨g, h2, hg⟩ := adoptBest_total hp hb1
  have hp2 : PSafe { p with goals := g } :=
    ⟨hp.heap, hp.queue, hp.refs, hp.antic, hg, hp.trace, hp.time, hp.table, hp.alive, hp.weights⟩
  obtain ⟨b2, h3⟩ := bestActive_total hp2.goals.usable
  obtain ⟨p3, picked3, h4, hp3, ho3, hn3, hc3⟩ := pickAction_total hp2 (best := b2) (by
    rintro e i rfl
    exact .inl (bestActive_spec h3).1.1)
  obtain ⟨picked4, rng4, h5, hc4⟩ := babble_total (p := p3) (rng := rng1) hc3
  refine ⟨p3, picked4, rng4, ?_, hp3, ho3, hn3, hc4⟩
  unfold decideAction
  simp only [bind, Except.bind, h0, h1, h2, h3, h4, h5]

theorem call_plain {ops : List Op} {t : Term} {args : List Term} {name : String} (h : IsCall t args name)
    (ht : Printable t) : PlainEvent ops t := by
  refine ⟨ht, fun x ps hx => ?_⟩
  rw [h.2] at hx
  cases hx

theorem execute_total {call : Call} {p : Proc} (hcall : WellBehaved p.ops call) (hp : PSafe p) {picked : Option Term}
    (hc : ∀ t, picked = some t → Printable t ∧ ∃ args name, IsCall t args name) :
    ∃ p' ex, execute call p picked = .ok (p', ex) ∧ PSafe p' ∧ p'.ops = p.ops ∧ p'.nOpsMax = p.nOpsMax := by
  unfold execute
  split
  · exact ⟨p, none, rfl, hp, rfl, rfl⟩
  · rename_i t
    obtain ⟨htx, args, name, h⟩ := hc t rfl
    simp only [(decodeOp_iff t args name).2 h, unwrap, bind, Except.bind]
    split
    · obtain ⟨evs, he, hev⟩ := hcall name args p
      simp only [he, printTerm_ok htx]
      refine ⟨_, _, rfl, ⟨hp.heap, hp.queue, hp.refs, hp.antic, hp.goals, ?_, hp.time, hp.table, hp.alive, hp.weights⟩, rfl, rfl⟩
      intro e he
      rcases List.mem_append.1 he with he | he
      · rcases List.mem_append.1 he with he | he
        · exact hp.trace e he
        · obtain ⟨h1, h2⟩ := hev e he
          exact ⟨by rw [h1]; exact hp.time, h2⟩
      · rw [List.mem_singleton] at he
        subst he
        exact ⟨hp.time, call_plain h htx⟩
    · exact ⟨p, none, rfl, hp, rfl, rfl⟩

theorem ratingOfP_total {heap : List Sentence} {c : PConcept} (hr : ∀ r ∈ c.byExp, r < heap.length)
    (hk : ∀ b ∈ heap, ∃ tv, HasTruth b tv) : ∃ x, ratingOfP heap c = .ok x := by
  unfold ratingOfP
  generalize c.byExp = l at hr
  generalize (0 : Rat) = z
  induction l generalizing z with
  | nil => exact ⟨_, rfl⟩
  | cons r l ih =>
    have hlt := hr r (by simp)
    obtain ⟨x, hx⟩ := HasTruth.exp (hk heap[r] (List.getElem_mem _))
    obtain ⟨y, hy⟩ := ih (fun r hr' => hr r (by simp [hr'])) (max z x)
    refine ⟨y, foldlM_cons_ok.2 ⟨max z x, ?_, hy⟩⟩
    simp only [bind, Except.bind, indexAt_ok.2 (List.getElem?_eq_getElem hlt), hx]

theorem limitMemoryP_total {m : PMem} (hm : m.Valid) (n : Nat) : ∃ m', limitMemoryP m n = .ok m' := by
  unfold limitMemoryP
  split
  · exact ⟨_, rfl⟩
  · obtain ⟨l, hl⟩ := keyed_ok_of (key := ratingOfP m.heap) (l := m.concepts)
      (fun c hc => ratingOfP_total (fun r hr => hm.1 c hc r (.inl hr)) hm.2)
    simp only [bind, Except.bind, hl]
    exact ⟨_, rfl⟩

theorem limitAll_total {p : Proc} (hp : PSafe p) (decay : Int → Rat) :
    ∃ p', limitAll decay p = .ok p' ∧ PSafe p' ∧ p'.ops = p.ops ∧ p'.nOpsMax = p.nOpsMax := by
  have h1 : ∃ m, limitMem p = .ok m ∧ m.heap = p.mem.heap ∧ m.RefsValid := by
    unfold limitMem
    split
    · obtain ⟨m, hm⟩ := limitMemoryP_total hp.valid p.nConcepts
      obtain ⟨cs, rfl, -, hsub, -⟩ := limitMemoryP_spec hm
      exact ⟨_, hm, rfl, fun c hc => hp.refs c (hsub c hc)⟩
    · exact ⟨_, rfl, rfl, hp.refs⟩
  have h2 : ∃ g, limitGoals decay p = .ok g ∧ GSafe p.mem.heap.length g := by
    unfold limitGoals
    split
    · exact hp.goals.limit decay p.t
    · exact ⟨_, rfl, hp.goals⟩
  obtain ⟨m, hm, hh, hr⟩ := h1
  obtain ⟨g, hg, hgs⟩ := h2
  refine ⟨{ p with trace := traceLimit p.trace, mem := m, goals := g }, ?_, ?_, rfl, rfl⟩
  · unfold limitAll
    simp only [bind, Except.bind, hm, hg]
  · refine ⟨?_, hp.queue, hr, ?_, ?_, ?_, hp.time, hp.table, hp.alive, hp.weights⟩
    · show ∀ b ∈ m.heap, _
      rw [hh]; exact hp.heap
    · show ∀ a ∈ p.anticipated, a.evi < m.heap.length
      rw [hh]; exact hp.antic
    · show GSafe m.heap.length g
      rw [hh]; exact hgs
    · intro e he
      have he : e ∈ traceLimit p.trace := he
      rw [traceLimit_newest] at he
      exact hp.trace e ((newest_suffix _ _).subset he)

theorem narStep1_safe {call : Call} {decay : Int → Rat} {p : Proc} (hcall : WellBehaved p.ops call) (hp : PSafe p)
    (rng : List Nat) {infs : List (Rat × Rat × List Nat)} (hi : ∀ d ∈ infs, 0 ≤ d.2.1) :
    ∃ p' ex, narStep1 call decay p rng infs = .ok (p', ex) ∧ PSafe p' ∧ p'.ops = p.ops ∧ p'.nOpsMax = p.nOpsMax := by
  obtain ⟨p1, picked, rng1, h1, hp1, o1, n1, hc1⟩ := decideAction_total hp rng
  obtain ⟨p2, ex, h2, hp2, o2, n2⟩ := execute_total (call := call) (by rw [o1]; exact hcall) hp1 hc1
  obtain ⟨p3, h3, hp3, o3, n3⟩ := limitAll_total hp2 decay
  obtain ⟨g, h4, hg⟩ := GSafe.infers (t := p3.t) hp3.heap hp3.refs hi hp3.goals
  refine ⟨{ p3 with goals := g, t := p3.t + 1 }, ex, ?_, ?_, by rw [← o1, ← o2, ← o3], by rw [← n1, ← n2, ← n3]⟩
  · unfold narStep1 inferGoals
    simp only [bind, Except.bind, h1, h2, h3, h4]
  · refine ⟨hp3.heap, hp3.queue, hp3.refs, hp3.antic, hg, hp3.trace, ?_, hp3.table, hp3.alive, hp3.weights⟩
    show 0 ≤ p3.t + 1
    have := hp3.time
    omega

/-! ## histories -/

theorem workerStep_safe {p : Proc} (hp : PSafe p) {rng : List Nat} (hr : ∀ d ∈ rng, d % 16 ≠ 15) : PSafe (workerStep p rng) := by
  unfold workerStep
  rw [if_pos hp.alive]
  split
  · exact hp
  · rename_i s time rest hq
    have hs := hp.queue (s, time) (by rw [hq]; simp)
    obtain ⟨m', h1, h2, h3, h4⟩ := workerStore_total (n := p.nConceptBeliefs) (now := time) hp.refs hp.heap hs hr
    simp only [h1]
    refine ⟨h4, ?_, h2, ?_, hp.goals.mono h3, hp.trace, hp.time, hp.table, rfl, hp.weights⟩
    · intro x hx
      exact hp.queue x (by rw [hq]; exact List.mem_cons_of_mem _ hx)
    · intro a ha
      have := hp.antic a ha
      show a.evi < m'.heap.length
      omega

theorem workerStep_cfg (p : Proc) (rng : List Nat) : (workerStep p rng).ops = p.ops ∧ (workerStep p rng).nOpsMax = p.nOpsMax := by
  unfold workerStep
  split
  · split <;> exact ⟨rfl, rfl⟩
  · exact ⟨rfl, rfl⟩

theorem ProcOp.run_safe {call : Call} {decay : Int → Rat} {p : Proc} {op : ProcOp} (hcall : WellBehaved p.ops call)
    (hp : PSafe p) (ho : op.Harmless p.ops) :
    (∃ p', op.run call decay p = .ok p' ∧ PSafe p' ∧ p'.ops = p.ops ∧ p'.nOpsMax = p.nOpsMax) ∨
    (op.run call decay p = .error .fuel ∧ ¬ (p.nOpsMax = 1 ∧ op.Drawn)) := by
  cases op with
  | event t =>
    refine .inl ⟨_, rfl, ⟨hp.heap, hp.queue, hp.refs, hp.antic, hp.goals, ?_, hp.time, hp.table, hp.alive, hp.weights⟩, rfl, rfl⟩
    intro e he
    rcases List.mem_append.1 he with he | he
    · exact hp.trace e he
    · rw [List.mem_singleton] at he; subst he; exact ⟨hp.time, ho⟩
  | goal t tv id =>
    obtain ⟨g, h1, h2⟩ := hp.goals.add (t := p.t) (goal := newEternalSentenceByTv t .GOAL tv ⟨[id]⟩) (ev := none) (d := 0)
      rfl ⟨tv, rfl⟩ (le_refl _) (by intro r h; cases h) ho
    refine .inl ⟨{ p with goals := g }, ?_, ⟨hp.heap, hp.queue, hp.refs, hp.antic, h2, hp.trace, hp.time, hp.table, hp.alive,
      hp.weights⟩, rfl, rfl⟩
    simp only [ProcOp.run, inputGoal, bind, Except.bind, h1]
  | rule => exact ho.elim
  | step0 draws =>
    rcases narStep0_safe hp draws with h | ⟨h1, h2⟩
    · exact .inl h
    · refine .inr ⟨h1, ?_⟩
      rintro ⟨h3, h4⟩
      obtain ⟨i, hi⟩ := h2 h3
      exact h4 i hi
  | step1 rng infs =>
    obtain ⟨p', ex, h1, h2⟩ := narStep1_safe (decay := decay) hcall hp rng ho
    refine .inl ⟨p', ?_, h2⟩
    simp only [ProcOp.run, h1, Except.map]
  | worker rng =>
    exact .inl ⟨_, rfl, workerStep_safe hp ho, workerStep_cfg p rng⟩
  | flush =>
    exact .inl ⟨_, rfl, ⟨hp.heap, hp.queue, hp.refs, hp.antic, hp.goals, by intro e he; simp [traceFlush] at he, hp.time,
      hp.table, hp.alive, hp.weights⟩, rfl, rfl⟩

theorem runProc_safe {call : Call} {decay : Int → Rat} {p : Proc} {ops : List ProcOp} (hcall : WellBehaved p.ops call)
    (hp : PSafe p) (ho : ∀ op ∈ ops, op.Harmless p.ops) :
    (∃ p', runProc call decay p ops = .ok p' ∧ PSafe p') ∨
    (runProc call decay p ops = .error .fuel ∧ ¬ (p.nOpsMax = 1 ∧ ∀ op ∈ ops, op.Drawn)) := by
  unfold runProc
  induction ops generalizing p with
  | nil => exact .inl ⟨p, rfl, hp⟩
  | cons op ops ih =>
    rw [List.foldlM_cons]
    rcases ProcOp.run_safe (decay := decay) hcall hp (ho op (by simp)) with ⟨p1, h1, h2, h3, h4⟩ | ⟨h1, h2⟩
    · simp only [bind, Except.bind, h1]
      rcases ih (p := p1) (by rw [h3]; exact hcall) h2 (by rw [h3]; exact fun o h => ho o (by simp [h])) with h | ⟨k1, k2⟩
      · exact .inl h
      · refine .inr ⟨k1, ?_⟩
        rintro ⟨e1, e2⟩
        exact k2 ⟨by rw [h4]; exact e1, fun o h => e2 o (by simp [h])⟩
    · right
      refine ⟨by simp only [bind, Except.bind, h1], ?_⟩
      rintro ⟨e1, e2⟩
      exact h2 ⟨e1, e2 op (by simp)⟩

theorem Started.safe {p : Proc} (h : Started p) : PSafe p := by
  obtain ⟨n, d, hn, hd, hg⟩ := h.goals
  obtain ⟨h1, h2, h3⟩ := h.fresh
  have hst : ∀ e, ¬ Stored (makeGoalSystem n d) e := by
    rintro e (he | ⟨i, level, gr, hl, hgr, -⟩)
    · simp [makeGoalSystem] at he
    · simp [makeGoalSystem, List.getElem?_replicate] at hl
      rw [hl.2] at hgr; simp at hgr
  refine ⟨?_, ?_, ?_, ?_, ?_, ?_, h.time, h.table, h.alive, h.weights⟩
  · rw [h1]; simp [PMem.empty]
  · rw [h3]; simp
  · rw [h1]; intro c hc; simp [PMem.empty] at hc
  · rw [h2]; simp
  · rw [hg]
    exact ⟨makeGoalSystem_inv n d, hd, hn, fun e he => (hst e he).elim, fun e he => (hst e he).elim,
      fun e he => (hst e he).elim⟩
  · rw [h.trace]; simp

end Nar
