import Verif.Lemmas.Exact1
import Verif.Lemmas.Topics
/-! # Helper lemmas: everything known can be deduced -/
namespace Nar
open Term

theorem Throughout.of_eq {P : Sentence → Prop} {sh sh' : Shared} (h : Throughout P sh) (e1 : sh'.heap = sh.heap) (e2 : sh'.mem = sh.mem) :
    Throughout P sh' := by
  unfold Throughout
  rw [e1, e2]; exact h

/-- what is added has the property, if it is a judgement and simple enough -/
def TaskOp.Brings1 (cfg : Cfg) (P : Sentence → Prop) : TaskOp → Prop
  | .add s _ _ _ => s.punct = .JUGEMENT → (calcComplexity s.term : Int) ≤ cfg.maxComplexity → P s
  | _ => True

theorem AllP.of_throughout {P : Sentence → Prop} {sh : Shared} (h : Throughout P sh) : AllP P (fun _ => True) sh :=
  ⟨h.1, fun c hc => ⟨fun b hb => (h.2 c hc b (.inl hb)).1, fun b hb => (h.2 c hc b (.inr hb)).1⟩,
    fun _ _ => ⟨fun _ _ => trivial, fun _ _ => trivial⟩⟩

theorem TaskOp.run_lasts {P : Sentence → Prop} (hP : Lasts P) {cfg : Cfg} {sh sh' : Shared} {op : TaskOp} {calls : List AnswerCall}
    (h : op.run cfg sh = .ok (sh', calls)) (h0 : Throughout P sh) (hb : op.Brings1 cfg P) : Throughout P sh' := by
  cases op with
  | add s cc mc now =>
    obtain ⟨x, h1, h2⟩ := R.map_ok.1 h
    cases h2
    exact memAddTask_lasts hP h1 h0 hb
  | tick => cases h; exact h0
  | creditQuestions =>
    cases h
    exact ⟨(creditQuestions_P (AllP.of_throughout h0)).1, by rw [(creditQuestions_same sh).2.2.2.2.2]; exact h0.2⟩
  | baseCredit =>
    obtain ⟨x, h1, h2⟩ := R.map_ok.1 h
    cases h2
    exact ⟨(baseCredit_P h1 (AllP.of_throughout h0)).1, by rw [(baseCredit_same h1).2.2.2.2.2]; exact h0.2⟩
  | answer v =>
    simp only [TaskOp.run] at h
    unfold answerSampled at h
    split at h
    · simp only [R.bind_ok] at h
      obtain ⟨i, _, q, _, ⟨q', cs⟩, h1, h⟩ := h
      cases h
      exact h0
    · cases h; exact h0
  | offer c =>
    simp only [TaskOp.run] at h
    unfold offerConclusion at h
    split at h
    · rw [R.bind_ok] at h
      obtain ⟨⟨qs, cs⟩, h1, h⟩ := h
      cases h
      exact h0
    · cases h; exact h0
  | select =>
    obtain ⟨r', h1, h2⟩ := R.map_ok.1 h
    cases h2
    rcases selectPrimary_cases h1 with ⟨_, rfl⟩ | ⟨_, _, _, _, rfl⟩ <;> exact h0
  | usage msg now =>
    cases h
    refine updateUsage_inv (Throughout P) msg now h0 ?_
    intro sh' r hok
    rcases useTask_cases now sh' r with ⟨_, e⟩ | ⟨task, _, e⟩
    · rw [e]; exact hok
    · rw [e]
      refine ⟨?_, (UsageOnly.useCell _ _ _).inPlace hP hok.2⟩
      intro t ht
      obtain ⟨a, ha, rfl⟩ := List.mem_map.1 ht
      simp only
      rw [useCell_eq]; exact hP.used _ _ (hok.1 a ha)
  | cleanup =>
    obtain ⟨x, h1, h2⟩ := R.map_ok.1 h
    cases h2
    obtain ⟨_, _, _, _, rfl⟩ := cleanupTasks_spec h1
    exact h0
  | rebuild =>
    obtain ⟨x, h1, h2⟩ := R.map_ok.1 h
    cases h2
    unfold rebuildLookup at h1
    rw [R.bind_ok] at h1
    obtain ⟨_, _, h1⟩ := h1
    cases h1; exact h0
  | forget n =>
    obtain ⟨m, h1, h2⟩ := R.map_ok.1 h
    cases h2
    exact ⟨h0.1, fun c hc => h0.2 c (limitMemory_mem h1 c hc)⟩
  | flush => cases h; exact h0
  | newStampId => cases h; exact h0
  | procMem m => cases h; exact h0

theorem moreTasks_lasts {P : Sentence → Prop} (hP : Lasts P) {cfg : Cfg} {st st' : Shared × List AnswerCall} {ops : List TaskOp}
    (h : moreTasks cfg st ops = .ok st') (h0 : Throughout P st.1) (hb : ∀ op ∈ ops, op.Brings1 cfg P) : Throughout P st'.1 := by
  refine foldlM_inv (fun st : Shared × List AnswerCall => Throughout P st.1) h h0 ?_
  rintro op hop ⟨sh, log⟩ b h1 hstep
  obtain ⟨⟨sh', calls⟩, h3, h4⟩ := R.bind_ok.1 hstep
  cases h4
  exact TaskOp.run_lasts hP h3 h1 (hb op hop)

theorem reasonCycle_lasts {P : Sentence → Prop} (hP : Lasts P) {cfg : Cfg} {selVal : Rat} {now : Int} {sh sh' : Shared} {msg : Option Msg}
    {calls : List AnswerCall} (h : reasonCycle cfg selVal now sh = .ok (sh', msg, calls)) (h0 : Throughout P sh) : Throughout P sh' := by
  refine moreTasks_lasts hP (reasonCycle_more [] h) h0 ?_
  intro o ho
  simp only [cycleOps, maintenance] at ho
  split at ho <;> split at ho <;> cases msg <;> simp at ho <;>
    (try rcases ho with rfl | rfl | rfl | rfl | rfl | rfl | rfl | rfl | rfl) <;> simp_all [TaskOp.Brings1]

theorem work_lasts {P : Sentence → Prop} (hP : Lasts P) {cfg : Cfg} {sh sh' : Shared} {msg : Msg} {calls : List AnswerCall}
    (h : work cfg sh msg = .ok (sh', calls)) (h0 : Throughout P sh)
    (hc : ∀ c w, Concludes sh msg c w → (calcComplexity c.term : Int) ≤ cfg.maxComplexity → P c) : Throughout P sh' := by
  obtain ⟨concl, p, hconcl, _, hm⟩ := work_more [] h
  refine moreTasks_lasts hP hm h0 ?_
  intro o ho
  simp only [workOps, List.mem_append, List.mem_map] at ho
  rcases ho with ⟨c, hcm, rfl⟩ | ⟨c, hcm, rfl⟩
  · exact trivial
  · intro _ hx
    obtain ⟨c0, u, h1, e⟩ := workConclusions_mem hconcl hcm
    rw [e] at hx ⊢
    exact hP.used _ _ (hc _ _ h1 hx)

/-! ## what can be deduced -/

/-- A sane judgement, not too complex, which can be deduced with no more evidence than it rests on; the evidence is listed without
repetition and is among the given. -/
structure Justified (cfg : Cfg) (told : Sentence → Prop) (U : List Int) (s : Sentence) : Prop where
  good : Good s
  simple : (calcComplexity s.term : Int) ≤ cfg.maxComplexity
  once : s.stamp.ids.Nodup
  among : ∀ e ∈ s.stamp.ids, e ∈ U
  deduced : ∃ E, Deducible cfg told s.term E ∧ ∀ e ∈ E, e ∈ s.stamp.ids

/-- nothing is lost in merging different evidence -/
theorem merged {U : List Int} (hU : U.length ≤ 120) {a b : Stamp} (ha : a.ids.Nodup) (hb : b.ids.Nodup) (ha' : ∀ e ∈ a.ids, e ∈ U)
    (hb' : ∀ e ∈ b.ids, e ∈ U) (hd : ∀ e ∈ a.ids, e ∉ b.ids) :
    (Stamp.merge a b).ids.Nodup ∧ ∀ e, e ∈ (Stamp.merge a b).ids ↔ e ∈ a.ids ∨ e ∈ b.ids := by
  have hn : (a.ids ++ b.ids).Nodup := List.nodup_append.2 ⟨ha, hb, fun x hx y hy e => hd x hx (e ▸ hy)⟩
  have hl : (a.ids ++ b.ids).length ≤ U.length := by
    refine (List.subperm_of_subset hn ?_).length_le
    intro e he
    exact (List.mem_append.1 he).elim (ha' e) (hb' e)
  have hp := Props.C05_merge_lossless a b (by rw [List.length_append] at hl; omega)
  exact ⟨hp.nodup_iff.2 hn, fun e => by rw [hp.mem_iff, List.mem_append]⟩

theorem justified_lasts {cfg : Cfg} {told : Sentence → Prop} {U : List Int} (hU : U.length ≤ 120) : Lasts (Justified cfg told U) where
  pool cell b s r hb hs hsame hno h := by
    have hg := good_closed.pool cell b s r hb.good hs.good hsame hno h
    obtain ⟨ta, tb, tv, h1, h2, h3, rfl⟩ := revisedBelief_ok h
    obtain ⟨m1, m2⟩ := merged hU hb.once hs.once hb.among hs.among (fun e h1 h2 => hno ⟨e, h1, h2⟩)
    obtain ⟨E, d1, d2⟩ := hb.deduced
    exact ⟨hg, hb.simple, m1, fun e he => ((m2 e).1 he).elim (hb.among e) (hs.among e), E, d1, fun e he => (m2 e).2 (.inl (d2 e he))⟩
  used s u h := ⟨h.good, h.simple, h.once, h.among, h.deduced⟩

theorem Justified.alone {cfg : Cfg} {told : Sentence → Prop} {U : List Int} {p c : Sentence} {w : Rat} (hp : Justified cfg told U p)
    (h : FollowsAlone p c w) (hc : (calcComplexity c.term : Int) ≤ cfg.maxComplexity) : Justified cfg told U c := by
  have hst := followsAlone_stamp h
  obtain ⟨E, d1, d2⟩ := hp.deduced
  obtain ⟨_, hr⟩ := followsAlone_rule h
  exact ⟨good_closed.alone _ _ _ hp.good h, hc, by rw [hst]; exact hp.once, by rw [hst]; exact hp.among, E, .alone _ _ _ d1 hr hc,
    by rw [hst]; exact d2⟩

theorem Justified.two {cfg : Cfg} {told : Sentence → Prop} {U : List Int} (hU : U.length ≤ 120) {p s c : Sentence} {w : Rat}
    (hp : Justified cfg told U p) (hs : Justified cfg told U s) (h : Follows p s c w) (hx : ∃ x, IsSubterm x p.term ∧ IsSubterm x s.term)
    (hc : (calcComplexity c.term : Int) ≤ cfg.maxComplexity) : Justified cfg told U c := by
  obtain ⟨hno, hst⟩ := follows_stamp h
  obtain ⟨m1, m2⟩ := merged hU hp.once hs.once hp.among hs.among (fun e h1 h2 => hno ⟨e, h1, h2⟩)
  obtain ⟨E, d1, d2⟩ := hp.deduced
  obtain ⟨F, f1, f2⟩ := hs.deduced
  obtain ⟨x, x1, x2⟩ := hx
  refine ⟨good_closed.two _ _ _ _ hp.good hs.good h, hc, by rw [hst]; exact m1,
    by rw [hst]; exact fun e he => ((m2 e).1 he).elim (hp.among e) (hs.among e), ?_⟩
  rw [hst]
  obtain ⟨_, ta, tb, tc, hr | hr⟩ := follows_rule hp.good.1 hs.good.1 h
  · exact ⟨E ++ F, .both _ _ _ _ _ d1 f1 (fun e h1 h2 => hno ⟨e, d2 e h1, f2 e h2⟩) ⟨x, x1, x2⟩ ⟨ta, tb, tc, hr⟩ hc,
      fun e he => (m2 e).2 ((List.mem_append.1 he).imp (d2 e) (f2 e))⟩
  · exact ⟨F ++ E, .both _ _ _ _ _ f1 d1 (fun e h1 h2 => hno ⟨e, d2 e h2, f2 e h1⟩) ⟨x, x2, x1⟩ ⟨ta, tb, tc, hr⟩ hc,
      fun e he => (m2 e).2 ((List.mem_append.1 he).symm.imp (d2 e) (f2 e))⟩

/-- everything known is justified, and in every message the tasks have a term in common with the selected one -/
structure Grounded (cfg : Cfg) (told : Sentence → Prop) (U : List Int) (s : Sys) : Prop where
  all : Throughout (Justified cfg told U) s.sh
  messages : ∀ m ∈ s.queue, ∀ r ∈ m.secondary, Meet s.sh m.primary r

theorem Meet.kept {sh sh' : Shared} {a b : Nat} (h : Meet sh a b) (hk : HeapKept sh.heap sh'.heap) : Meet sh' a b := by
  obtain ⟨ta, tb, x, h1, h2, h3, h4⟩ := h
  obtain ⟨ta', k1, s1⟩ := hk a ta h1
  obtain ⟨tb', k2, s2⟩ := hk b tb h2
  exact ⟨ta', tb', x, k1, k2, by rw [s1.term]; exact h3, by rw [s2.term]; exact h4⟩

theorem grounded_step {cfg : Cfg} {told : Sentence → Prop} {U : List Int} (hU : U.length ≤ 120) {s s' : Sys} {op : SysOp}
    (h : op.run cfg s = .ok s') (hi : Inv cfg s.sh) (h0 : Grounded cfg told U s)
    (hin : ∀ x cc mc now, op = .input x cc mc now → x.punct = .JUGEMENT → (calcComplexity x.term : Int) ≤ cfg.maxComplexity →
      Justified cfg told U x) : Grounded cfg told U s' := by
  have hk := (SysOp.run_kept h).heap
  have hold : ∀ m ∈ s.queue, ∀ r ∈ m.secondary, Meet s'.sh m.primary r := fun m hm r hr => (h0.messages m hm r hr).kept hk
  cases op with
  | input x cc mc now =>
    simp only [SysOp.run] at h
    obtain ⟨sh, h1, h⟩ := R.bind_ok.1 h
    cases Except.ok.inj h
    exact ⟨memAddTask_lasts (justified_lasts hU) h1 h0.all (hin x cc mc now rfl), hold⟩
  | cycle v now =>
    simp only [SysOp.run] at h
    obtain ⟨⟨sh1, msg, calls⟩, h1, h⟩ := R.bind_ok.1 h
    cases Except.ok.inj h
    refine ⟨reasonCycle_lasts (justified_lasts hU) h1 h0.all, ?_⟩
    intro m hm r hr
    rcases List.mem_append.1 hm with hm | hm
    · exact hold m hm r hr
    · obtain ⟨t1, _, _, _, t5⟩ := reasonCycle_taken h1 hi
      rcases t5 with ⟨_, rfl, _⟩ | ⟨m', l, rfl, p1, _, _, _, honly⟩
      · simp at hm
      · simp only [Option.toList_some, List.mem_singleton] at hm
        subst hm
        have hlt := hi.valid m.primary (p1.mem_iff.1 (by simp))
        obtain ⟨x, refs, x1, x2, x3⟩ := honly _ (List.getElem?_eq_getElem hlt) r hr
        obtain ⟨q, hq, rfl⟩ := Option.map_eq_some_iff.1 x2
        obtain ⟨t, ht, hts⟩ := hi.sound q (List.mem_of_find?_eq_some hq) r (List.mem_of_mem_take x3)
        have hqx : q.1 = x := by
          have := List.find?_some hq
          simpa [checkEqTerm_iff] using this
        rw [hqx] at hts
        exact Meet.kept ⟨_, t, x, List.getElem?_eq_getElem hlt, ht, x1, hts⟩ t1
  | work =>
    simp only [SysOp.run] at h
    cases hq : s.queue with
    | nil =>
      rw [hq] at h
      rw [← Except.ok.inj h]
      exact h0
    | cons m rest =>
      rw [hq] at h
      simp only at h
      obtain ⟨⟨sh1, calls⟩, h1, h⟩ := R.bind_ok.1 h
      cases Except.ok.inj h
      refine ⟨work_lasts (justified_lasts hU) h1 h0.all ?_, fun m' hm' => hold m' (by rw [hq]; exact List.mem_cons_of_mem _ hm')⟩
      rintro c w ⟨p, hp, hc | ⟨r, hr, t, ht, hc⟩ | ⟨b, hb, hc⟩⟩ hx
      · exact (h0.all.1 p (List.mem_of_getElem? hp)).alone hc hx
      · obtain ⟨ta, tb, x, k1, k2, k3, k4⟩ := h0.messages m (by rw [hq]; simp) r hr
        rw [hp] at k1; cases k1
        rw [ht] at k2; cases k2
        exact (h0.all.1 p (List.mem_of_getElem? hp)).two hU (h0.all.1 t (List.mem_of_getElem? ht)) hc ⟨x, k3, k4⟩ hx
      · obtain ⟨b1, b2⟩ := h0.all.2.under hb
        exact (h0.all.1 p (List.mem_of_getElem? hp)).two hU b1 hc ⟨_, .refl _, b2⟩ hx
  | flush => cases Except.ok.inj h; exact ⟨h0.all, hold⟩
  | newStampId => cases Except.ok.inj h; exact ⟨h0.all, hold⟩
  | procMem m => cases Except.ok.inj h; exact ⟨h0.all, hold⟩

theorem grounded_more {cfg : Cfg} {told : Sentence → Prop} {U : List Int} (hU : U.length ≤ 120) {ops : List SysOp} : ∀ {s s' : Sys},
    moreSys cfg s ops = .ok s' → Inv cfg s.sh → Grounded cfg told U s →
    (∀ x cc mc now, SysOp.input x cc mc now ∈ ops → x.punct = .JUGEMENT → (calcComplexity x.term : Int) ≤ cfg.maxComplexity →
      Justified cfg told U x) → Grounded cfg told U s' := by
  induction ops with
  | nil => intro s s' h _ h0 _; cases h; exact h0
  | cons op ops ih =>
    intro s s' h hi h0 hin
    obtain ⟨s1, h1, h2⟩ := foldlM_cons_ok.1 h
    have g1 := grounded_step hU h1 hi h0 (fun x cc mc now e => hin x cc mc now (by rw [e]; simp))
    exact ih h2 ((SysOp.run_kept h1).inv hi) g1 (fun x cc mc now hm => hin x cc mc now (List.mem_cons_of_mem _ hm))

end Nar
