import Verif.Lemmas.Rest3
/-! # Helper lemmas: relations go round in circles -/
namespace Nar
open Term

theorem addOffer_grown {cfg : Cfg} {ops : List TaskOp} {st st' : Shared × List AnswerCall}
    (ho : ∀ op ∈ ops, (∃ c, op = .offer c) ∨ ∃ s cc mc now, op = .add s cc mc now) (h : moreTasks cfg st ops = .ok st') : Extended st.1 st'.1 := by
  refine foldlM_inv (fun x : Shared × List AnswerCall => Extended st.1 x.1) h (.refl _) ?_
  rintro op hop ⟨a, log⟩ b h1 hstep
  obtain ⟨⟨a', cs⟩, k3, k4⟩ := R.bind_ok.1 hstep
  cases k4
  refine h1.trans ?_
  rcases ho op hop with ⟨c, rfl⟩ | ⟨s, cc, mc, now, rfl⟩
  · obtain ⟨qs, hq⟩ := offerConclusion_frame k3
    simp only at hq ⊢
    rw [hq]
    exact .same rfl rfl rfl rfl
  · obtain ⟨x, m1, m2⟩ := R.map_ok.1 k3
    cases m2
    exact memAddTask_grown m1

theorem workOps_are {factor : Rat} {now : Int} {concl : List (Sentence × Rat)} {op : TaskOp} (h : op ∈ workOps factor now concl) :
    (∃ c, op = .offer c) ∨ ∃ s cc mc now, op = .add s cc mc now := by
  rcases List.mem_append.1 h with ho | ho
  · obtain ⟨c, _, rfl⟩ := List.mem_map.1 ho
    exact .inl ⟨_, rfl⟩
  · obtain ⟨c, _, rfl⟩ := List.mem_map.1 ho
    exact .inr ⟨_, _, _, _, rfl⟩

/-- a conclusion of the worker is pending afterwards -/
theorem work_pends {cfg : Cfg} {sh sh' : Shared} {msg : Msg} {calls : List AnswerCall} (h : work cfg sh msg = .ok (sh', calls))
    {c : Sentence} {w : Rat} (hc : Concludes sh msg c w) (hj : c.punct = .JUGEMENT) (hx : (calcComplexity c.term : Int) ≤ cfg.maxComplexity) :
    ∃ r ∈ sh'.judgementTasks, ∃ t, sh'.heap[r]? = some t ∧ t.sentence.term = c.term := by
  obtain ⟨concl, p, h1, h2, h3⟩ := work_more [] h
  obtain ⟨drawn, rfl, hd⟩ := workConclusions_iff h1
  obtain ⟨u, hu⟩ := nameCells_mem (cycle := msg.cycleCounter) ((hd c w).2 hc)
  have hin : TaskOp.add { c with usage := u } true (p.mulCredit * w) msg.cycleCounter ∈ workOps p.mulCredit msg.cycleCounter _ :=
    List.mem_append_right _ (List.mem_map.2 ⟨_, hu, rfl⟩)
  obtain ⟨pre, post, e⟩ := List.append_of_mem hin
  rw [e] at h3
  unfold moreTasks at h3
  rw [List.foldlM_append] at h3
  obtain ⟨st1, _, h4⟩ := R.bind_ok.1 h3
  obtain ⟨st2, h5, h6⟩ := foldlM_cons_ok.1 h4
  obtain ⟨⟨sh2, cs⟩, k1, k2⟩ := R.bind_ok.1 h5
  obtain ⟨x, m1, m2⟩ := R.map_ok.1 k1
  cases m2
  cases k2
  obtain ⟨r, hr, t, ht, e1, _⟩ := Props.C20_added_is_worked_on cfg _ _ { c with usage := u } true _ _ hj hx m1
  have he : Extended sh2 sh' := addOffer_grown (st := (sh2, _)) (fun op hop => workOps_are (by rw [e]; simp [hop])) h6
  obtain ⟨t', ht', hs⟩ := he.kept r t ht
  exact ⟨r, he.pending r hr, t', ht', by rw [hs.term]; exact e1⟩

/-- some task with a statement of the kind is pending or waits for the worker -/
def Busy (K : Term → Prop) (s : Sys) : Prop :=
  ∃ r t, s.sh.heap[r]? = some t ∧ K t.sentence.term ∧ (r ∈ s.sh.judgementTasks ∨ ∃ m ∈ s.queue, m.primary = r)

theorem Busy.not_rest {K : Term → Prop} {s : Sys} (h : Busy K s) : ¬ AtRest s := by
  rintro ⟨h1, h2⟩
  obtain ⟨r, t, _, _, h | ⟨m, hm, _⟩⟩ := h
  · rw [h1] at h; cases h
  · rw [h2] at hm; cases hm

/-- whatever is of the kind has a consequence of the kind -/
def Circular (cfg : Cfg) (K : Term → Prop) : Prop :=
  ∀ t, K t → ∃ c, K c ∧ (∃ ta tc, Rule1 t ta c tc) ∧ (calcComplexity c : Int) ≤ cfg.maxComplexity

theorem Busy.kept {K : Term → Prop} {s s' : Sys} (h : Busy K s) (hk : HeapKept s.sh.heap s'.sh.heap)
    (hp : ∀ r ∈ s.sh.judgementTasks, r ∈ s'.sh.judgementTasks ∨ ∃ m ∈ s'.queue, m.primary = r) (hq : ∀ m ∈ s.queue, m ∈ s'.queue) : Busy K s' := by
  obtain ⟨r, t, h1, h2, h3⟩ := h
  obtain ⟨t', h4, h5⟩ := hk r t h1
  refine ⟨r, t', h4, by rw [h5.term]; exact h2, ?_⟩
  rcases h3 with h3 | ⟨m, hm, e⟩
  · exact hp r h3
  · exact .inr ⟨m, hq m hm, e⟩

theorem busy_work {cfg : Cfg} {K : Term → Prop} (hK : Circular cfg K) {s s' : Sys} (hg : ∀ t ∈ s.sh.heap, Good t.sentence)
    (h : SysOp.work.run cfg s = .ok s') (hb : Busy K s) : Busy K s' := by
  simp only [SysOp.run] at h
  cases hq : s.queue with
  | nil =>
    rw [hq] at h
    rw [← Except.ok.inj h]
    exact hb
  | cons m rest =>
    rw [hq] at h
    simp only at h
    obtain ⟨⟨sh1, calls⟩, h1, h⟩ := R.bind_ok.1 h
    rw [← Except.ok.inj h]
    have he := work_grown h1
    obtain ⟨r, t, k1, k2, k3⟩ := hb
    obtain ⟨t', h4, h5⟩ := he.kept r t k1
    rcases k3 with k3 | ⟨m', hm, rfl⟩
    · exact ⟨r, t', h4, by rw [h5.term]; exact k2, .inl (he.pending r k3)⟩
    · rw [hq] at hm
      rcases List.mem_cons.1 hm with rfl | hm
      · obtain ⟨c, hc, hr, hx⟩ := hK _ k2
        obtain ⟨x, w, f1, rfl, f3, _⟩ := rule1_follows (hg t (List.mem_of_getElem? k1)) hr
        obtain ⟨r', hr', t2, ht2, e⟩ := work_pends h1 ⟨t, k1, .inl f1⟩ f3 hx
        exact ⟨r', t2, ht2, by rw [e]; exact hc, .inl hr'⟩
      · exact ⟨m'.primary, t', h4, by rw [h5.term]; exact k2, .inr ⟨m', hm, rfl⟩⟩

/-- any action but a flush and a trimming cycle -/
theorem busy_step {cfg : Cfg} {K : Term → Prop} (hK : Circular cfg K) {s s' : Sys} {op : SysOp} (hi : Inv cfg s.sh)
    (hg : ∀ t ∈ s.sh.heap, Good t.sentence) (h : op.run cfg s = .ok s') (hf : op ≠ .flush)
    (hc : cyclesIn [op] ≠ 0 → (s.sh.cycleCounter + 1) % 111 ≠ 0) (hb : Busy K s) : Busy K s' := by
  cases op with
  | input x cc mc now =>
    simp only [SysOp.run] at h
    obtain ⟨sh1, h1, h⟩ := R.bind_ok.1 h
    rw [← Except.ok.inj h]
    have he := memAddTask_grown h1
    exact hb.kept he.kept (fun r hr => .inl (he.pending r hr)) (fun _ k => k)
  | cycle v now =>
    simp only [SysOp.run] at h
    obtain ⟨⟨sh1, msg, calls⟩, h1, h⟩ := R.bind_ok.1 h
    rw [← Except.ok.inj h]
    obtain ⟨t1, _, _, _, t5⟩ := reasonCycle_taken h1 hi
    refine hb.kept t1 (fun r hr => ?_) (fun m hm => by simp [hm])
    rcases t5 with ⟨e1, _, _⟩ | ⟨m, l, rfl, p1, _, p4, _, _⟩
    · rw [e1] at hr; cases hr
    · simp only [p4 (hc (by simp [cyclesIn]))]
      rcases List.mem_cons.1 (p1.mem_iff.2 hr) with rfl | k
      · exact .inr ⟨m, by simp, rfl⟩
      · exact .inl k
  | work => exact busy_work hK hg h hb
  | flush => exact absurd rfl hf
  | newStampId =>
    simp only [SysOp.run] at h
    rw [← Except.ok.inj h]
    exact hb.kept (fun r t ht => ⟨t, ht, .rfl' t⟩) (fun r hr => .inl hr) (fun _ k => k)
  | procMem m =>
    simp only [SysOp.run] at h
    rw [← Except.ok.inj h]
    exact hb.kept (fun r t ht => ⟨t, ht, .rfl' t⟩) (fun r hr => .inl hr) (fun _ k => k)

theorem busy_run {cfg : Cfg} {K : Term → Prop} (hK : Circular cfg K) {pre : List SysOp} {x : Sentence} {cc : Bool} {mc : Rat} {now : Int}
    (hx : K x.term) (hj : x.punct = .JUGEMENT) (hc : (calcComplexity x.term : Int) ≤ cfg.maxComplexity) {post : List SysOp} :
    ∀ {s : Sys}, runSys cfg (pre ++ .input x cc mc now :: post) = .ok s → (∀ op ∈ pre ++ .input x cc mc now :: post, op.Sane) →
      SysOp.flush ∉ pre ++ .input x cc mc now :: post → cyclesIn (pre ++ .input x cc mc now :: post) < 111 → Busy K s := by
  induction post using List.reverseRecOn with
  | nil =>
    intro s h _ _ _
    unfold runSys at h
    rw [List.foldlM_append] at h
    obtain ⟨s1, _, h2⟩ := R.bind_ok.1 h
    obtain ⟨s2, h3, h4⟩ := foldlM_cons_ok.1 h2
    rw [foldlM_nil_ok] at h4
    subst h4
    simp only [SysOp.run] at h3
    obtain ⟨sh, h5, h6⟩ := R.bind_ok.1 h3
    rw [← Except.ok.inj h6]
    obtain ⟨r, hr, t, ht, e1, e2⟩ := Props.C20_added_is_worked_on cfg _ _ x cc mc now hj hc h5
    exact ⟨r, t, ht, by rw [e1]; exact hx, .inl hr⟩
  | append_singleton l op ih =>
    intro s h hs hf hcy
    have e : pre ++ SysOp.input x cc mc now :: (l ++ [op]) = (pre ++ SysOp.input x cc mc now :: l) ++ [op] := by simp
    rw [e] at h hs hf hcy
    rw [cyclesIn_append] at hcy
    unfold runSys at h
    rw [List.foldlM_append] at h
    obtain ⟨s1, h1, h2⟩ := R.bind_ok.1 h
    have h3 : op.run cfg s1 = .ok s := by
      obtain ⟨x, k1, k2⟩ := foldlM_cons_ok.1 h2
      rw [foldlM_nil_ok] at k2
      rw [k1, k2]
    have hs1 : ∀ o ∈ pre ++ SysOp.input x cc mc now :: l, o.Sane := fun o ho => hs o (List.mem_append_left _ ho)
    have hf1 : SysOp.flush ∉ pre ++ SysOp.input x cc mc now :: l := fun k => hf (List.mem_append_left _ k)
    have hb := ih (s := s1) h1 hs1 hf1 (by omega)
    have hclock := (fair_run (s := s1) h1 hf1 (by omega)).2
    obtain ⟨s', e1, e2, _⟩ := runSys_total (cfg := cfg) hs1
    have : s' = s1 := Except.ok.inj (e1.symm.trans h1)
    subst this
    exact busy_step hK (runSys_inv h1) e2.good.1 h3 (fun k => hf (by simp [k])) (fun hcy => by rw [hclock]; omega) hb

/-! ## a relation and nothing else -/

theorem relational_circular {cfg : Cfg} {x y rel : Term} (hc : ∀ t ∈ relational x y rel, (calcComplexity t : Int) ≤ cfg.maxComplexity) :
    Circular cfg (· ∈ relational x y rel) := by
  intro t ht
  have h1 : Term.Stmt .INH (.Prod [x, y]) rel ∈ relational x y rel := by simp [relational]
  have h2 : Term.Stmt .INH x (.Img rel 0 [y]) ∈ relational x y rel := by simp [relational]
  simp only [relational, List.mem_cons, List.not_mem_nil, or_false] at ht
  rcases ht with rfl | rfl | rfl
  · exact ⟨_, h2, ⟨⟨1, 1⟩, _, .productLeft _ _ _ _ _⟩, hc _ h2⟩
  · exact ⟨_, h1, ⟨⟨1, 1⟩, _, .imageLeft _ _ _ _⟩, hc _ h1⟩
  · exact ⟨_, h1, ⟨⟨1, 1⟩, _, .imageRight _ _ _ _⟩, hc _ h1⟩

/-- one of the three forms, with that piece of evidence -/
def OneRelation (x y rel : String) (e : Int) (s : Sentence) : Prop :=
  Good s ∧ s.term ∈ relational (.Name x) (.Name y) (.Name rel) ∧ s.stamp.ids = [e]

theorem oneRelation_closed (x y rel : String) (e : Int) : SentClosed (OneRelation x y rel e) where
  pool _ b s r hb hs _ hn _ := absurd ⟨e, by rw [hb.2.2]; simp, by rw [hs.2.2]; simp⟩ hn
  used s u h := h
  two p s c w hp hs h := by
    obtain ⟨cs, w', h, hc⟩ := h
    have := Props.C10_no_conclusion_on_shared_evidence p s cs w' h e (by rw [hp.2.2]; simp) (by rw [hs.2.2]; simp)
    rw [this] at hc; cases hc
  alone p c w hp h := by
    refine ⟨good_closed.alone _ _ _ hp.1 h, ?_, ?_⟩
    · obtain ⟨tv, h1, _⟩ := hp.1.truth
      have hsh : ¬ ∃ arr rel, p.term = .Stmt .INH (.Prod arr) rel ∧ arr.length < 2 := by
        rintro ⟨arr, rel, e, hl⟩
        have : Shaped (.Prod arr) := hp.1.2.2 _ (by rw [e]; exact .inside (by simp [parts]) (.refl _))
        simp only [Shaped] at this
        omega
      obtain ⟨cs, h2, h3⟩ := Props.C54_single_premise_conclusions_exact p tv hp.1.1 h1 hsh
      obtain ⟨cs', h4, h5⟩ := h
      cases Except.ok.inj (h2.symm.trans h4)
      obtain ⟨_, ⟨tc, hev, _⟩, _⟩ := good_closed.alone _ _ _ hp.1 ⟨cs, h4, h5⟩
      have hr := (h3 c.term tc).1 ⟨(c, w), h5, rfl, hev⟩
      have ht := hp.2.1
      simp only [relational, List.mem_cons, List.not_mem_nil, or_false] at ht ⊢
      generalize p.term = pt at ht hr
      generalize c.term = ct at hr
      rcases ht with rfl | rfl | rfl <;> cases hr <;> simp
    · obtain ⟨cs, h4, h5⟩ := h
      rw [Props.C10_single_premise_evidence p cs h4 _ h5]
      exact hp.2.2

/-- thinking about one relation goes on -/
theorem oneRelation_step {cfg : Cfg} {x y rel : String} {e : Int}
    (hc : ∀ t ∈ relational (.Name x) (.Name y) (.Name rel), (calcComplexity t : Int) ≤ cfg.maxComplexity) {s s' : Sys} {op : SysOp}
    (ho : op.Thinking) (h : op.run cfg s = .ok s') (hi : Inv cfg s.sh) (hp : AllP (OneRelation x y rel e) (fun _ => True) s.sh)
    (hb : Busy (· ∈ relational (.Name x) (.Name y) (.Name rel)) s) :
    AllP (OneRelation x y rel e) (fun _ => True) s'.sh ∧ Busy (· ∈ relational (.Name x) (.Name y) (.Name rel)) s' := by
  rcases ho with rfl | ⟨v, now, rfl⟩
  · refine ⟨?_, busy_work (relational_circular hc) (fun t ht => (hp.1 t ht).1) h hb⟩
    simp only [SysOp.run] at h
    cases hq : s.queue with
    | nil =>
      rw [hq] at h
      rw [← Except.ok.inj h]
      exact hp
    | cons m rest =>
      rw [hq] at h
      simp only at h
      obtain ⟨⟨sh1, calls⟩, h1, h⟩ := R.bind_ok.1 h
      rw [← Except.ok.inj h]
      exact (work_P (oneRelation_closed x y rel e) h1 hp).1
  · simp only [SysOp.run] at h
    obtain ⟨⟨sh1, msg, calls⟩, h1, h⟩ := R.bind_ok.1 h
    rw [← Except.ok.inj h]
    have hp' := (reasonCycle_P (oneRelation_closed x y rel e) h1 hp).1
    refine ⟨hp', ?_⟩
    obtain ⟨t1, _, _, _, t5⟩ := reasonCycle_taken h1 hi
    obtain ⟨r, t, k1, k2, k3⟩ := hb
    rcases t5 with ⟨e1, _, _⟩ | ⟨m, l, rfl, p1, _⟩
    · rcases k3 with k3 | ⟨m, hm, e⟩
      · rw [e1] at k3; cases k3
      · obtain ⟨t', ht', hs⟩ := t1 r t k1
        exact ⟨r, t', ht', by rw [hs.term]; exact k2, .inr ⟨m, by simp [hm], e⟩⟩
    · have hlt := hi.valid m.primary (p1.mem_iff.1 (by simp))
      obtain ⟨t', ht', _⟩ := t1 m.primary _ (List.getElem?_eq_getElem hlt)
      exact ⟨m.primary, t', ht', (hp'.1 t' (List.mem_of_getElem? ht')).2.1, .inr ⟨m, by simp, rfl⟩⟩

theorem oneRelation_run {cfg : Cfg} {x y rel : String} {e : Int}
    (hc : ∀ t ∈ relational (.Name x) (.Name y) (.Name rel), (calcComplexity t : Int) ≤ cfg.maxComplexity) {z : Sentence}
    (hz : OneRelation x y rel e z) {cc : Bool} {mc : Rat} {now : Int} {ops : List SysOp} :
    (∀ op ∈ ops, op.Thinking) → ∀ {s : Sys}, runSys cfg (.input z cc mc now :: ops) = .ok s →
      AllP (OneRelation x y rel e) (fun _ => True) s.sh ∧ Busy (· ∈ relational (.Name x) (.Name y) (.Name rel)) s := by
  induction ops using List.reverseRecOn with
  | nil =>
    intro _ s h
    unfold runSys at h
    obtain ⟨s2, h3, h4⟩ := foldlM_cons_ok.1 h
    rw [foldlM_nil_ok] at h4
    subst h4
    simp only [SysOp.run] at h3
    obtain ⟨sh, h5, h6⟩ := R.bind_ok.1 h3
    rw [← Except.ok.inj h6]
    refine ⟨memAddTask_P (oneRelation_closed x y rel e) h5 ?_ (fun _ => hz), ?_⟩
    · exact ⟨by simp [createShared], by intro c hc; simp [createShared] at hc, by intro c hc; simp [createShared] at hc⟩
    · obtain ⟨r, hr, t, ht, e1, e2⟩ := Props.C20_added_is_worked_on cfg _ _ z cc mc now hz.1.1 (hc _ hz.2.1) h5
      exact ⟨r, t, ht, by rw [e1]; exact hz.2.1, .inl hr⟩
  | append_singleton l op ih =>
    intro ho s h
    unfold runSys at h
    rw [← List.cons_append, List.foldlM_append] at h
    obtain ⟨s1, h1, h2⟩ := R.bind_ok.1 h
    have h3 : op.run cfg s1 = .ok s := by
      obtain ⟨x, k1, k2⟩ := foldlM_cons_ok.1 h2
      rw [foldlM_nil_ok] at k2
      rw [k1, k2]
    obtain ⟨i1, i2⟩ := ih (fun o k => ho o (List.mem_append_left _ k)) (s := s1) h1
    exact oneRelation_step hc (ho op (by simp)) h3 (runSys_inv h1) i1 i2

end Nar
