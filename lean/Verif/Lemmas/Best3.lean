import Verif.Lemmas.Best2
import Verif.Lemmas.Topics
/-! # Helper lemmas: a new reasoner which has thought to the end is asked -/
namespace Nar
open Term

/-! ## no questions -/

theorem addTask_questions {cfg : Cfg} {sh sh' : Shared} {s : Sentence} {cc : Bool} {mc : Rat} {now : Int}
    (h : memAddTask cfg sh s cc mc now = .ok sh') (hm : MemP Good sh.mem) (hs : Good s) : sh'.questionTasks = sh.questionTasks := by
  rcases memAddTask_cases h with ⟨_, rfl⟩ | ⟨hc, mem, rev, h1, h2⟩
  · rfl
  · obtain ⟨new, h3, h4⟩ := addTasks_questions h2
    have : new = [] := by
      rw [List.eq_nil_iff_forall_not_mem]
      intro q hq
      obtain ⟨_, _, _, x, hx, hp, _⟩ := h4 q hq
      rcases List.mem_cons.1 hx with rfl | hx
      · rw [hs.1] at hp; cases hp
      · rw [Option.mem_toList] at hx
        rw [((addBelief_P good_closed h1 hm (fun _ => hs)).2 x hx).1] at hp; cases hp
    rw [h3, this]
    simp

theorem silent_tasks {cfg : Cfg} (hn : cfg.nBeliefs = 20) {ops : List TaskOp} : ∀ {st st' : Shared × List AnswerCall},
    moreTasks cfg st ops = .ok st' → (∀ o ∈ ops, (∃ c, Good c ∧ o = .offer c) ∨ ∃ s cc mc now, Good s ∧ o = .add s cc mc now) → Recalls st.1 →
    st.1.questionTasks = [] → st'.1.questionTasks = [] ∧ st'.2 = st.2 := by
  induction ops with
  | nil => intro st st' h _ _ h0; cases h; exact ⟨h0, rfl⟩
  | cons o ops ih =>
    intro st st' h ho hr h0
    obtain ⟨st1, h1, h2⟩ := foldlM_cons_ok.1 h
    obtain ⟨⟨sh', calls⟩, h3, h4⟩ := R.bind_ok.1 h1
    cases h4
    have key : sh'.questionTasks = [] ∧ calls = [] := by
      rcases ho o List.mem_cons_self with ⟨c, hc, rfl⟩ | ⟨s, cc, mc, now, hs, rfl⟩
      · simp only [TaskOp.run] at h3
        unfold offerConclusion at h3
        split at h3
        · rw [R.bind_ok] at h3
          obtain ⟨⟨qs, cs⟩, g1, g2⟩ := h3
          cases g2
          obtain ⟨q1, _, q3⟩ := qaOffer_spec g1
          rw [h0] at q1
          refine ⟨List.length_eq_zero_iff.1 q1, ?_⟩
          rw [List.eq_nil_iff_forall_not_mem]
          intro call hcall
          obtain ⟨i, q, e, _⟩ := q3 call hcall
          rw [h0] at e; cases e
        · cases h3; exact ⟨h0, rfl⟩
      · obtain ⟨x, g1, g2⟩ := R.map_ok.1 h3
        cases g2
        exact ⟨(addTask_questions g1 hr.good.2.1 hs).trans h0, rfl⟩
    obtain ⟨k1, k2⟩ := ih h2 (fun o' ho' => ho o' (List.mem_cons_of_mem _ ho')) (hr.step hn h3 (by
      rcases ho o List.mem_cons_self with ⟨c, hc, rfl⟩ | ⟨s, cc, mc, now, hs, rfl⟩
      · exact hc
      · exact fun _ => hs)) key.1
    exact ⟨k1, by rw [k2, key.2]; simp⟩

theorem silent_sys {cfg : Cfg} (hn : cfg.nBeliefs = 20) {ops : List SysOp} : ∀ {s s' : Sys}, moreSys cfg s ops = .ok s' →
    (∀ x cc mc now, SysOp.input x cc mc now ∈ ops → Good x) → Recalls s.sh → s.sh.questionTasks = [] →
    s'.sh.questionTasks = [] ∧ s'.log = s.log := by
  induction ops with
  | nil => intro s s' h _ _ h0; cases h; exact ⟨h0, rfl⟩
  | cons op ops ih =>
    intro s s' h hi hr h0
    obtain ⟨s1, h1, h2⟩ := foldlM_cons_ok.1 h
    suffices key : s1.sh.questionTasks = [] ∧ s1.log = s.log by
      obtain ⟨k1, k2⟩ := ih h2 (fun x cc mc now hx => hi x cc mc now (List.mem_cons_of_mem _ hx))
        (hr.sys hn h1 (fun x cc mc now e _ => hi x cc mc now (by rw [e]; exact List.mem_cons_self))) key.1
      exact ⟨k1, k2.trans key.2⟩
    cases op with
    | input x cc mc now =>
      obtain ⟨sh1, g1, g2⟩ := R.bind_ok.1 h1
      cases Except.ok.inj g2
      exact ⟨(addTask_questions g1 hr.good.2.1 (hi x cc mc now List.mem_cons_self)).trans h0, rfl⟩
    | cycle v now =>
      obtain ⟨⟨sh1, msg, calls⟩, g1, g2⟩ := R.bind_ok.1 h1
      cases Except.ok.inj g2
      rcases (reasonCycle_asks g1).2 with ⟨_, e1, e⟩ | ⟨i, q, _, _, _, e, _⟩
      · exact ⟨e, by rw [e1]; simp⟩
      · rw [h0] at e; cases e
    | work =>
      simp only [SysOp.run] at h1
      cases hq : s.queue with
      | nil =>
        rw [hq] at h1
        rw [← Except.ok.inj h1]
        exact ⟨h0, rfl⟩
      | cons m rest =>
        rw [hq] at h1
        simp only at h1
        obtain ⟨⟨sh1, calls⟩, g1, g2⟩ := R.bind_ok.1 h1
        cases Except.ok.inj g2
        obtain ⟨concl, p, hconcl, _, hm⟩ := work_more [] g1
        suffices key : _ by
          obtain ⟨k1, k2⟩ := silent_tasks hn hm key hr h0
          have : calls = [] := by simpa using k2
          exact ⟨k1, by rw [this]; simp⟩
        intro o ho
        simp only [workOps, List.mem_append, List.mem_map] at ho
        rcases ho with ⟨c, hcm, rfl⟩ | ⟨c, hcm, rfl⟩
        · exact .inl ⟨_, workConclusions_P good_closed hconcl hcm hr.good, rfl⟩
        · exact .inr ⟨_, _, _, _, workConclusions_P good_closed hconcl hcm hr.good, rfl⟩
    | flush => cases Except.ok.inj h1; exact ⟨h0, rfl⟩
    | newStampId => cases Except.ok.inj h1; exact ⟨h0, rfl⟩
    | procMem m => cases Except.ok.inj h1; exact ⟨h0, rfl⟩

/-! ## asking and telling -/

theorem Recalls.addTask {cfg : Cfg} (hn : cfg.nBeliefs = 20) {sh sh' : Shared} {n : Int} {s : Sentence} {cc : Bool} {mc : Rat} {now : Int}
    (h0 : Recalls sh) (h : memAddTask cfg { sh with stampIdCounter := n } s cc mc now = .ok sh') (hs : s.punct = .JUGEMENT → Good s) : Recalls sh' := by
  have h1 : Recalls { sh with stampIdCounter := n } := ⟨h0.wf, h0.good, h0.all⟩
  exact h1.step (op := .add s cc mc now) (calls := []) hn (R.map_ok.2 ⟨sh', h, rfl⟩) hs

theorem ask_recalls {env : Env} {qs : List Term} : ∀ {r r' : Reasoner}, moreNar env r (askAll qs) = .ok r' → r.nConceptBeliefs = 20 →
    Recalls r.sh → Recalls r'.sh ∧ r'.nConceptBeliefs = 20 := by
  induction qs with
  | nil => intro r r' h hn h0; cases h; exact ⟨h0, hn⟩
  | cons q qs ih =>
    intro r r' h hn h0
    obtain ⟨r1, h1, h2⟩ := foldlM_cons_ok.1 h
    obtain ⟨sh', k1, rfl⟩ := inputT2_question h1
    exact ih h2 hn (h0.addTask (cfg := r.cfg env) hn k1 (fun hj => by cases hj))

theorem tell_recalls {env : Env} {sts : List (Term × Tv)} (ht : ∀ st ∈ sts, ¬ IsTemporal st.1 ∧ WellFormed st.1 ∧ Tv.Sane st.2) :
    ∀ {r r' : Reasoner}, moreNar env r (tellAll sts) = .ok r' → r.nConceptBeliefs = 20 → Recalls r.sh →
    Recalls r'.sh ∧ r'.nConceptBeliefs = 20 ∧ (r.sh.questionTasks = [] → r'.sh.questionTasks = []) := by
  induction sts with
  | nil => intro r r' h hn h0; cases h; exact ⟨h0, hn, id⟩
  | cons A sts ih =>
    intro r r' h hn h0
    obtain ⟨r1, h1, h2⟩ := foldlM_cons_ok.1 h
    obtain ⟨a1, a2, a3⟩ := ht A (by simp)
    obtain ⟨sh', k1, rfl⟩ := inputT2_statement a1 h1
    have hg : Good (newEternalSentenceByTv A.1 .JUGEMENT A.2 ⟨[r.sh.stampIdCounter]⟩) := ⟨rfl, ⟨A.2, rfl, a3⟩, a2⟩
    obtain ⟨i1, i2, i3⟩ := ih (fun st hst => ht st (List.mem_cons_of_mem _ hst)) h2 hn (h0.addTask (cfg := r.cfg env) hn k1 (fun _ => hg))
    exact ⟨i1, i2, fun e => i3 ((addTask_questions k1 h0.good.2.1 hg).trans e)⟩

/-- what a new reasoner which thinks knows, finds and answers -/
theorem new_best {env : Env} {k : Nat} {qs : List Term} {sts : List (Term × Tv)} (hq : ∀ q ∈ qs, Printable q ∧ calcComplexity q ≤ 64)
    (hs : Handful sts) {ts : List NarOp} (ht : ∀ op ∈ ts, op.Thinking) {r : Reasoner}
    (h : runNar env (.handlers k :: (askAll qs ++ tellAll sts) ++ ts) = .ok r) :
    ∃ (cfg : Cfg) (U : List Int), cfg.maxComplexity = 64 ∧ U.length ≤ 120 ∧
      Grounded cfg (fun s => ∃ i A, sts[i]? = some A ∧ s = toldAs (qs.length + i) A) U r.sys ∧ Recalls r.sh ∧
      (∀ call ∈ r.answers, ¬ IsTemporal call.question →
        Warranted cfg (fun s => ∃ i A, sts[i]? = some A ∧ s = toldAs (qs.length + i) A) call.answer) ∧
      (qs = [] → r.sh.questionTasks = [] ∧ r.answers = []) ∧ r.nGlobal = k ∧ Safe env r ∧ r.workerAlive = true := by
  obtain ⟨r0, h1, jt, hsafe, halive⟩ := asked_told (env := env) (k := k) hq hs
  have huse : ∀ op ∈ NarOp.handlers k :: (askAll qs ++ tellAll sts), SafeUse env op := by
    intro op hop
    rcases List.mem_cons.1 hop with rfl | hop
    · exact trivial
    rcases List.mem_append.1 hop with hop | hop
    · obtain ⟨q, hq', rfl⟩ := List.mem_map.1 hop
      exact ⟨(hq q hq').1, (by intro h; cases h), (by intro h; cases h)⟩
    · obtain ⟨st, hst, rfl⟩ := List.mem_map.1 hop
      exact hs.safe st hst
  have huse' : ∀ op ∈ NarOp.handlers k :: (askAll qs ++ tellAll sts) ++ ts, SafeUse env op := by
    intro op hop
    rcases List.mem_append.1 hop with hop | hop
    · exact huse op hop
    · rcases ht op hop with rfl | ⟨v, rfl⟩ <;> exact trivial
  obtain ⟨s1, s2⟩ := runNar_safe h (SafeUse.telling huse')
  have s3 : r.workerAlive = true := s2 (fun k => huse' _ k)
  obtain ⟨r0', g1, g2⟩ := moreNar_append.1 h
  have hr0 : r0' = r0 := Except.ok.inj (g1.symm.trans h1)
  subst hr0
  obtain ⟨c1, ops, f1, n1, d1, i1⟩ := thinking_sim ht h1 huse g2
  have hm : (r0'.cfg env).maxComplexity = 64 := jt.complexity
  have hn : (r0'.cfg env).nBeliefs = 20 := (runNar_WDecl h1).beliefs
  obtain ⟨told, htold⟩ : ∃ told : Sentence → Prop, told = fun s => ∃ i A, sts[i]? = some A ∧ s = toldAs (qs.length + i) A := ⟨_, rfl⟩
  obtain ⟨U, hUe⟩ : ∃ U : List Int, U = (List.range sts.length).map (fun i => ((qs.length + i : Nat) : Int)) := ⟨_, rfl⟩
  have hU : U.length ≤ 120 := by
    have := handful_length hs
    rw [hUe]; simp; omega
  have hP := justified_lasts (cfg := r0'.cfg env) (told := told) hU
  have hstart : ∀ i A, sts[i]? = some A → Justified (r0'.cfg env) told U (toldAs (qs.length + i) A) := by
    intro i A hA
    have hmem := List.mem_of_getElem? hA
    have hsafe := hs.safe A hmem
    obtain ⟨_, hw⟩ := hsafe.2.1 rfl rfl
    have hx : (calcComplexity A.1 : Int) ≤ (r0'.cfg env).maxComplexity := by
      have h4 := complexity_le_size A.1
      have h5 : Term.size A.1 ≤ (sts.map (fun st => Term.size st.1)).sum := List.le_sum_of_mem (List.mem_map.2 ⟨A, hmem, rfl⟩)
      have := hs.small
      rw [hm]; omega
    refine ⟨⟨rfl, ⟨A.2, rfl, hw.2⟩, hw.1⟩, hx, by simp [toldAs, newEternalSentenceByTv], ?_, _,
      .told _ (by rw [htold]; exact ⟨i, A, hA, rfl⟩) rfl hx, fun _ h => h⟩
    intro e he
    have : e = ((qs.length + i : Nat) : Int) := by simpa [toldAs, newEternalSentenceByTv] using he
    rw [this, hUe]
    exact List.mem_map.2 ⟨i, by simpa using (List.getElem?_eq_some_iff.1 hA).1, rfl⟩
  have g0 : Throughout (Justified (r0'.cfg env) told U) r0'.sh ∧ Recalls r0'.sh ∧ (qs = [] → r0'.sh.questionTasks = []) := by
    obtain ⟨ra, k1, k2⟩ := foldlM_cons_ok.1 (show List.foldlM (NarOp.run env) createNar _ = .ok r0' from h1)
    obtain ⟨rb, k3, k4⟩ := moreNar_append.1 k2
    have ea : ra.sh = createShared ∧ ra.nConceptBeliefs = 20 := by rw [← Except.ok.inj k1]; exact ⟨rfl, rfl⟩
    obtain ⟨a1, a2⟩ := ask_lasts hP k3 (by rw [ea.1]; exact ⟨by simp [createShared], by intro c hc; simp [createShared] at hc⟩)
    obtain ⟨b1, b2⟩ := ask_recalls k3 ea.2 (by rw [ea.1]; exact .init)
    obtain ⟨t1, _, t3⟩ := tell_recalls (fun st hst => (hs.safe st hst).2.1 rfl rfl) k4 b2 b1
    refine ⟨tell_lasts hP (fun st hst => ((hs.safe st hst).2.1 rfl rfl).1) k4 a1 (n := qs.length) ?_ hstart, t1, fun e => t3 ?_⟩
    · rw [a2, ea.1]
      simp [createShared]
    · subst e
      cases k3
      rw [ea.1]; rfl
  have hg : Grounded (r0'.cfg env) told U r0'.sys := ⟨g0.1, by
    intro m hm
    have : r0'.queue = [] := jt.queue
    rw [show r0'.sys.queue = r0'.queue from rfl, this] at hm
    cases hm⟩
  have hno : ∀ x cc mc now, SysOp.input x cc mc now ∈ ops → x.punct = .JUGEMENT →
      (calcComplexity x.term : Int) ≤ (r0'.cfg env).maxComplexity → Justified (r0'.cfg env) told U x :=
    fun x cc mc now hx => absurd hx (i1 x cc mc now)
  refine ⟨r0'.cfg env, U, hm, hU, ?_, ?_, ?_, ?_, ?_, s1, s3⟩
  · rw [← htold]
    exact grounded_more hU d1 hsafe.inv hg hno
  · exact Recalls.more (s := r0'.sys) hn d1 (fun x cc mc now hx => absurd hx (i1 x cc mc now)) g0.2.1
  · rw [← htold]
    intro call hc hnt
    rcases warranted_more hU d1 hsafe.inv hg hno call hc with k | k
    · have : r0'.answers = [] := jt.answers
      rw [show r0'.sys.log = r0'.answers from rfl, this] at k
      cases k
    · exact k hnt
  · intro e
    obtain ⟨k1, k2⟩ := silent_sys (s := r0'.sys) hn d1 (fun x cc mc now hx => absurd hx (i1 x cc mc now)) g0.2.1 (g0.2.2 e)
    exact ⟨k1, k2.trans jt.answers⟩
  · have : (r.cfg env).nGlobal = (r0'.cfg env).nGlobal := by rw [c1]
    exact (show r.nGlobal = r0'.nGlobal from this).trans jt.handlers

/-- from facts and general rules only facts and general rules can be deduced -/
theorem deducible_facts {cfg : Cfg} {told : Sentence → Prop} (hf : ∀ s, told s → FactOrRule s.term) {t : Term} {E : List Int}
    (h : Deducible cfg told t E) : FactOrRule t := by
  induction h with
  | told s h1 _ _ => exact hf s h1
  | alone a c E _ h1 _ ih => obtain ⟨_, _, hr⟩ := h1; exact rule1_facts hr ih
  | both a b c E F _ _ _ _ h3 _ ih1 ih2 => obtain ⟨_, _, _, hr⟩ := h3; exact rule2_facts hr ih1 ih2

theorem Deducible.weaken {cfg : Cfg} {told told' : Sentence → Prop} (hi : ∀ s, told s → told' s) {t : Term} {E : List Int}
    (h : Deducible cfg told t E) : Deducible cfg told' t E := by
  induction h with
  | told s h1 h2 h3 => exact .told s (hi s h1) h2 h3
  | alone a c E _ h1 h2 ih => exact .alone a c E ih h1 h2
  | both a b c E F _ _ h1 h2 h3 h4 ih1 ih2 => exact .both a b c E F ih1 ih2 h1 h2 h3 h4

/-- all questions of a history have the same weight -/
theorem runSys_shares {cfg : Cfg} {ops : List SysOp} {s : Sys} (h : runSys cfg ops = .ok s) : EqualShares s.sh.questionTasks := by
  obtain ⟨tops, ht⟩ := runSys_history' h
  refine foldlM_inv (fun st : Shared × List AnswerCall => EqualShares st.1.questionTasks) ht (by intro q hq; cases hq) ?_
  rintro op _ ⟨sh, log⟩ b h1 hstep
  obtain ⟨⟨sh', calls⟩, h3, h4⟩ := R.bind_ok.1 hstep
  cases h4
  exact (TaskOp.run_questions h3).shares h1

end Nar
