import Verif.Lemmas.Best1
import Verif.Lemmas.Asked
import Verif.Spec.Best
/-! # Helper lemmas: what can be deduced is found by questions; answers can be deduced -/
namespace Nar
open Term

theorem Deducible.more {cfg cfg' : Cfg} {told : Sentence → Prop} {t : Term} {E : List Int} (he : cfg.maxComplexity ≤ cfg'.maxComplexity)
    (h : Deducible cfg told t E) : Deducible cfg' told t E := by
  induction h with
  | told s h1 h2 h3 => exact .told s h1 h2 (le_trans h3 he)
  | alone a c E _ h1 h2 ih => exact .alone a c E ih h1 (le_trans h2 he)
  | both a b c E F _ _ h1 h2 h3 h4 ih1 ih2 => exact .both a b c E F ih1 ih2 h1 h2 h3 (le_trans h4 he)

theorem Justified.more {cfg cfg' : Cfg} {told : Sentence → Prop} {U : List Int} {s : Sentence} (he : cfg.maxComplexity ≤ cfg'.maxComplexity)
    (h : Justified cfg told U s) : Justified cfg' told U s :=
  ⟨h.good, le_trans h.simple he, h.once, h.among, by obtain ⟨E, h1, h2⟩ := h.deduced; exact ⟨E, h1.more he, h2⟩⟩

theorem Justified.warranted {cfg : Cfg} {told : Sentence → Prop} {U : List Int} {s : Sentence} {n : Int}
    (h : Justified { cfg with maxComplexity := n } told U s) : Warranted cfg told s := by
  obtain ⟨E, h1, h2⟩ := h.deduced
  exact ⟨n, E, h1, h2⟩

/-- what is found in memory is known under the part it was looked up under -/
theorem Recalls.found {sh : Shared} (h : Recalls sh) (hr : RoomEverywhere sh.mem) {t : Task} (ht : t ∈ sh.heap) {x : Term}
    (hx : IsSubterm x t.sentence.term) : ∃ b, BeliefUnder sh.mem x b ∧ b.term = t.sentence.term ∧ Good b := by
  obtain ⟨c, hc, e, b, hb, h1, _⟩ := (h.all hr).1 t ht x hx .expectation
  refine ⟨b, ⟨c, ?_, .inl hb⟩, h1, (h.good.2.1 c hc).1 b hb⟩
  rw [← e]
  exact Mem.get_of_mem h.wf hc

theorem good_expects {b : Sentence} (h : Good b) : ∃ e, Expectation b e ∧ 0 < e := by
  obtain ⟨_, ⟨tv, h1, a1, a2, a3, a4⟩, _⟩ := h
  exact ⟨_, ⟨tv, by unfold HasTruth retTv; rw [h1], rfl⟩, by nlinarith⟩

/-- what the worker tells is about its conclusions -/
theorem offers_calls {cfg : Cfg} {ops : List TaskOp} : ∀ {st st' : Shared × List AnswerCall}, moreTasks cfg st ops = .ok st' →
    (∀ o ∈ ops, (∃ c, o = .offer c) ∨ ∃ s cc mc now, o = .add s cc mc now) →
    ∀ call ∈ st'.2, call ∈ st.2 ∨ TaskOp.offer call.answer ∈ ops := by
  induction ops with
  | nil => intro st st' h _ call hc; cases h; exact .inl hc
  | cons o ops ih =>
    intro st st' h ho call hc
    obtain ⟨st1, h1, h2⟩ := foldlM_cons_ok.1 h
    obtain ⟨⟨sh', calls⟩, h3, h4⟩ := R.bind_ok.1 h1
    cases h4
    rcases ih h2 (fun o' ho' => ho o' (List.mem_cons_of_mem _ ho')) call hc with k | k
    · rcases List.mem_append.1 k with k1 | k1
      · exact .inl k1
      · right
        clear k
        rcases ho o List.mem_cons_self with ⟨c, rfl⟩ | ⟨s, cc, mc, now, rfl⟩
        · simp only [TaskOp.run] at h3
          unfold offerConclusion at h3
          split at h3
          · rw [R.bind_ok] at h3
            obtain ⟨⟨qs, cs⟩, g1, g2⟩ := h3
            cases g2
            obtain ⟨_, _, _, _, g5, _⟩ := (qaOffer_spec g1).2.2 call k1
            rw [g5]; exact List.mem_cons_self
          · cases h3; cases k1
        · obtain ⟨_, _, g2⟩ := R.map_ok.1 h3
          cases g2; cases k1
    · exact .inr (List.mem_cons_of_mem _ k)

/-- every answer which an action gives to a question not about time can be deduced -/
theorem warranted_step {cfg : Cfg} {told : Sentence → Prop} {U : List Int} (hU : U.length ≤ 120) {s s' : Sys} {op : SysOp}
    (h : op.run cfg s = .ok s') (h0 : Grounded cfg told U s) :
    ∀ call ∈ s'.log, call ∈ s.log ∨ (¬ IsTemporal call.question → Warranted cfg told call.answer) := by
  cases op with
  | input x cc mc now =>
    obtain ⟨sh, h1, h⟩ := R.bind_ok.1 h
    cases Except.ok.inj h
    exact fun call hc => .inl hc
  | cycle v now =>
    obtain ⟨⟨sh1, msg, calls⟩, h1, h⟩ := R.bind_ok.1 h
    cases Except.ok.inj h
    intro call hc
    rcases List.mem_append.1 hc with hc | hc
    · exact .inl hc
    · right
      intro ht
      rcases (reasonCycle_asks h1).2 with ⟨_, e, _⟩ | ⟨i, q, q', cands, _, _, g3, g4, _⟩
      · rw [e] at hc; cases hc
      · obtain ⟨_, _, _, _, _, _, as, _, hs, _, _, _, j6⟩ := qaTryAll_spec g4
        obtain ⟨j1, j2⟩ := j6 call hc
        rcases (g3 _).1 (hs.subset j2) with ⟨hq, _⟩ | ⟨_, x, _, hb⟩
        · rw [j1] at ht; exact absurd hq ht
        · exact ((h0.all.2.under hb).1.more (cfg' := { cfg with maxComplexity := cfg.maxComplexity }) (le_refl _)).warranted
  | work =>
    simp only [SysOp.run] at h
    cases hq : s.queue with
    | nil =>
      rw [hq] at h
      rw [← Except.ok.inj h]
      exact fun call hc => .inl hc
    | cons m rest =>
      rw [hq] at h
      simp only at h
      obtain ⟨⟨sh1, calls⟩, h1, h⟩ := R.bind_ok.1 h
      cases Except.ok.inj h
      intro call hc
      rcases List.mem_append.1 hc with hc | hc
      · exact .inl hc
      right
      intro _
      obtain ⟨concl, p, hconcl, _, hm⟩ := work_more [] h1
      have := offers_calls hm ?_ call (by simpa using hc)
      · rcases this with k | k
        · cases k
        · simp only [workOps, List.mem_append, List.mem_map] at k
          rcases k with ⟨c, hcm, e⟩ | ⟨c, hcm, e⟩
          · obtain ⟨c0, u, hcc, e2⟩ := workConclusions_mem hconcl hcm
            injection e with e
            rw [e2] at e
            rw [← e]
            obtain ⟨cfg', hcfg⟩ : ∃ cfg' : Cfg, cfg' = { cfg with maxComplexity := max cfg.maxComplexity (calcComplexity c0.term : Int) } := ⟨_, rfl⟩
            have hle : cfg.maxComplexity ≤ cfg'.maxComplexity := by rw [hcfg]; exact le_max_left _ _
            have hx : (calcComplexity c0.term : Int) ≤ cfg'.maxComplexity := by rw [hcfg]; exact le_max_right _ _
            have hj : Justified cfg' told U c0 := by
              obtain ⟨p, hp, hc | ⟨r, hr, t, ht, hc⟩ | ⟨b, hb, hc⟩⟩ := hcc
              · exact ((h0.all.1 p (List.mem_of_getElem? hp)).more hle).alone hc hx
              · obtain ⟨ta, tb, x, k1, k2, k3, k4⟩ := h0.messages m (by rw [hq]; simp) r hr
                rw [hp] at k1; cases k1
                rw [ht] at k2; cases k2
                exact ((h0.all.1 p (List.mem_of_getElem? hp)).more hle).two hU ((h0.all.1 t (List.mem_of_getElem? ht)).more hle) hc ⟨x, k3, k4⟩ hx
              · obtain ⟨b1, b2⟩ := h0.all.2.under hb
                exact ((h0.all.1 p (List.mem_of_getElem? hp)).more hle).two hU (b1.more hle) hc ⟨_, .refl _, b2⟩ hx
            rw [hcfg] at hj
            exact hj.warranted
          · cases e
      · intro o ho
        simp only [workOps, List.mem_append, List.mem_map] at ho
        rcases ho with ⟨c, _, rfl⟩ | ⟨c, _, rfl⟩
        · exact .inl ⟨_, rfl⟩
        · exact .inr ⟨_, _, _, _, rfl⟩
  | flush => cases Except.ok.inj h; exact fun call hc => .inl hc
  | newStampId => cases Except.ok.inj h; exact fun call hc => .inl hc
  | procMem m => cases Except.ok.inj h; exact fun call hc => .inl hc

theorem warranted_more {cfg : Cfg} {told : Sentence → Prop} {U : List Int} (hU : U.length ≤ 120) {ops : List SysOp} : ∀ {s s' : Sys},
    moreSys cfg s ops = .ok s' → Inv cfg s.sh → Grounded cfg told U s →
    (∀ x cc mc now, SysOp.input x cc mc now ∈ ops → x.punct = .JUGEMENT → (calcComplexity x.term : Int) ≤ cfg.maxComplexity →
      Justified cfg told U x) →
    ∀ call ∈ s'.log, call ∈ s.log ∨ (¬ IsTemporal call.question → Warranted cfg told call.answer) := by
  induction ops with
  | nil => intro s s' h _ h0 _ call hc; cases h; exact .inl hc
  | cons op ops ih =>
    intro s s' h hi h0 hin call hc
    obtain ⟨s1, h1, h2⟩ := foldlM_cons_ok.1 h
    have g1 := grounded_step hU h1 hi h0 (fun x cc mc now e => hin x cc mc now (by rw [e]; simp))
    rcases ih h2 ((SysOp.run_kept h1).inv hi) g1 (fun x cc mc now hm => hin x cc mc now (List.mem_cons_of_mem _ hm)) call hc with k | k
    · exact warranted_step hU h1 h0 call k
    · exact .inr k

end Nar
