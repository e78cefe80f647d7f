import Verif.Lemmas.Exact3
import Verif.Lemmas.Agree
/-! # Helper lemmas: what is known can be found in memory, under every part of the statement -/
namespace Nar
open Term

/-- the statement is listed under all its parts, in both rankings -/
def Recalled (m : Mem) (s : Sentence) : Prop := ∀ x, IsSubterm x s.term → ∀ k, Knows m x k s.term 0

theorem recalled_lasts (m : Mem) : Lasts (Recalled m) where
  pool cell b s r hb _ _ _ h := by
    obtain ⟨_, _, _, _, _, _, rfl⟩ := revisedBelief_ok h
    exact hb
  used _ _ h := h

theorem Recalled.kept {m m' : Mem} {s : Sentence} (h : Recalled m s) (hk : MemKept m m') (hw : m.WF) (hr : RoomEverywhere m') :
    Recalled m' s := by
  intro x hx k
  obtain ⟨c, hc, e, hb⟩ := h x hx k
  obtain ⟨_, h3⟩ := (hk hw).2 hr.1
  obtain ⟨c', hc', e', hl⟩ := h3 c hc
  exact ⟨c', hc', e'.trans e, (hl k (hr.2 c' hc' k)).2 _ _ hb⟩

theorem Throughout.kept {m m' : Mem} {sh : Shared} (h : Throughout (Recalled m) sh) (hk : MemKept m m') (hw : m.WF) (hr : RoomEverywhere m') :
    Throughout (Recalled m') sh :=
  ⟨fun t ht => (h.1 t ht).kept hk hw hr, fun c hc b hb => ⟨(h.2 c hc b hb).1.kept hk hw hr, (h.2 c hc b hb).2⟩⟩

theorem believes_zero {l : List Sentence} {b : Sentence} (hb : b ∈ l) (hg : Good b) {t : Term} (ht : b.term = t) : Believes l t 0 := by
  obtain ⟨_, ⟨tv, h1, h2⟩, _⟩ := hg
  exact ⟨b, hb, ht, tv, by unfold HasTruth retTv; rw [h1], h2.2.2.1⟩

/-- what is added is listed under all its parts, if nothing is full -/
theorem addBelief_recalled {m m' : Mem} {s : Sentence} {n : Nat} {now : Int} {r : Option Sentence} (hn : 20 ≤ n)
    (h : addBelief m s n now = .ok (m', r)) (hw : m.WF) (hg : MemP Good m) (hs : Good s) (hroom : RoomEverywhere m')
    (hm : ∀ c ∈ m, ∀ b, (b ∈ c.beliefsByExp ∨ b ∈ c.beliefsByUsage) → Recalled m b) : Recalled m' s := by
  have hk := addBelief_kept hn h hg (fun _ => hs)
  by_cases hnew : ∀ c ∈ m, (∀ b ∈ c.beliefsByExp, SameStatement b s → SharesEvidence b s) ∧
      ∀ b ∈ c.beliefsByUsage, SameStatement b s → SharesEvidence b s
  · obtain ⟨_, hf⟩ := Props.C17_added_belief_is_in_memory m m' s n now r hs.1 h hnew
    have hg' := (addBelief_P good_closed h hg (fun _ => hs)).1
    intro x hx k
    obtain ⟨c, hc, e, f1, f2⟩ := hf x hx
    refine ⟨c, hc, e, ?_⟩
    cases k with
    | expectation =>
      rcases f1 with f | ⟨b, hb, f, _⟩ | ⟨f, _⟩
      · exact believes_zero f hs rfl
      · exact believes_zero hb ((hg' c hc).1 b hb) f
      · have := hroom.2 c hc .expectation
        simp only [Concept.list] at this
        omega
    | use =>
      rcases f2 with f | ⟨b, hb, f, _⟩ | ⟨f, _⟩
      · exact believes_zero f hs rfl
      · exact believes_zero hb ((hg' c hc).2 b hb) f
      · have := hroom.2 c hc .use
        simp only [Concept.list] at this
        omega
  · have : ∃ c ∈ m, ∃ b, (b ∈ c.beliefsByExp ∨ b ∈ c.beliefsByUsage) ∧ SameStatement b s := by
      by_contra hno
      refine hnew fun c hc => ⟨fun b hb hsame => absurd ⟨c, hc, b, .inl hb, hsame⟩ hno, fun b hb hsame => absurd ⟨c, hc, b, .inr hb, hsame⟩ hno⟩
    obtain ⟨c, hc, b, hb, hsame⟩ := this
    have := (hm c hc b hb).kept hk hw hroom
    unfold Recalled at this
    rw [hsame] at this
    exact this

/-- an action of the system: judgements which are added are sane, and concepts are only forgotten down to 3000 -/
def TaskOp.Usual : TaskOp → Prop
  | .add s _ _ _ => s.punct = .JUGEMENT → Good s
  | .offer c => Good c
  | .forget n => n = 3000
  | _ => True

theorem memP_true (m : Mem) : MemP (fun _ => True) m := fun _ _ => ⟨fun _ _ => trivial, fun _ _ => trivial⟩

theorem TaskOp.Usual.brings {op : TaskOp} (h : op.Usual) : op.Brings Good (fun _ => True) := by
  cases op <;> first | exact h | exact trivial | exact memP_true _

theorem TaskOp.run_memKept {cfg : Cfg} (hn : cfg.nBeliefs = 20) {sh sh' : Shared} {op : TaskOp} {calls : List AnswerCall}
    (h : op.run cfg sh = .ok (sh', calls)) (hu : op.Usual) (hg : MemP Good sh.mem) : MemKept sh.mem sh'.mem := by
  have key : ∀ now, op ∈ cycleOps 0 0 now none → MemKept sh.mem sh'.mem := fun now hm => cycleOp_rel memKept_rel hm h
  have same : sh'.mem = sh.mem → MemKept sh.mem sh'.mem := fun e => by rw [e]; exact .refl _
  cases op with
  | add s cc mc now =>
    obtain ⟨x, h1, h2⟩ := R.map_ok.1 h
    cases h2
    exact memAddTask_rel memKept_rel (.inl hn) h1 hg hu
  | answer v => exact cycleOp_rel memKept_rel (cyc := 1) (v := v) (now := 0) (msg := none) (by simp [cycleOps]) h
  | usage m now => exact cycleOp_rel memKept_rel (cyc := 1) (v := 0) (now := now) (msg := some m) (by simp [cycleOps]) h
  | offer c => exact same (by obtain ⟨qs, e⟩ := offerConclusion_frame h; simp only at e; rw [e])
  | forget n =>
    obtain rfl : n = 3000 := hu
    obtain ⟨m, h1, h2⟩ := R.map_ok.1 h; cases h2
    exact memKept_rel.forget _ _ h1
  | flush => exact same (by cases h; rfl)
  | newStampId => exact same (by cases h; rfl)
  | procMem m => exact same (by cases h; rfl)
  | tick => exact key 0 (by simp [cycleOps])
  | creditQuestions => exact key 0 (by simp [cycleOps])
  | baseCredit => exact key 0 (by simp [cycleOps])
  | select => exact key 0 (by simp [cycleOps])
  | cleanup => exact key 0 (by simp [cycleOps, maintenance])
  | rebuild => exact key 0 (by simp [cycleOps, maintenance])

/-- the tables of memory are well formed, everything is sane, and as long as nothing is full everything known is listed under its parts -/
structure Recalls (sh : Shared) : Prop where
  wf : sh.mem.WF
  good : AllP Good (fun _ => True) sh
  all : RoomEverywhere sh.mem → Throughout (Recalled sh.mem) sh

theorem Recalls.init : Recalls createShared where
  wf := by simp [createShared, Mem.WF]
  good := ⟨by simp [createShared], by intro c hc; simp [createShared] at hc, memP_true _⟩
  all _ := ⟨by simp [createShared], by intro c hc; simp [createShared] at hc⟩

theorem Recalls.step {cfg : Cfg} (hn : cfg.nBeliefs = 20) {sh sh' : Shared} {op : TaskOp} {calls : List AnswerCall}
    (h : op.run cfg sh = .ok (sh', calls)) (hu : op.Usual) (h0 : Recalls sh) : Recalls sh' := by
  have hk := TaskOp.run_memKept hn h hu h0.good.2.1
  have hg := (TaskOp.run_P good_closed h h0.good hu.brings).1
  refine ⟨(hk h0.wf).1, hg, fun hr => ?_⟩
  have hr0 := hk.room h0.wf hr
  have ht := h0.all hr0
  refine TaskOp.run_lasts (recalled_lasts sh'.mem) h (ht.kept hk h0.wf hr) ?_
  cases op with
  | add s cc mc now =>
    intro hj hc
    obtain ⟨x, h1, h2⟩ := R.map_ok.1 h
    cases h2
    rcases memAddTask_cases h1 with ⟨hx, _⟩ | ⟨_, mem, rev, h3, h4⟩
    · omega
    · have e := addTasks_mem h4
      rw [e] at hr ⊢
      exact addBelief_recalled (by omega) h3 h0.wf h0.good.2.1 (hu hj) hr (fun c hc b hb => (ht.2 c hc b hb).1)
  | _ => exact trivial

theorem Recalls.steps {cfg : Cfg} (hn : cfg.nBeliefs = 20) {st st' : Shared × List AnswerCall} {ops : List TaskOp}
    (h : moreTasks cfg st ops = .ok st') (hu : ∀ op ∈ ops, op.Usual) (h0 : Recalls st.1) : Recalls st'.1 := by
  refine foldlM_inv (fun st : Shared × List AnswerCall => Recalls st.1) h h0 ?_
  rintro op hop ⟨sh, log⟩ b h1 hstep
  obtain ⟨⟨sh', calls⟩, h3, h4⟩ := R.bind_ok.1 hstep
  cases h4
  exact h1.step hn h3 (hu op hop)

theorem cycleOps_usual {cyc : Int} {v : Rat} {now : Int} {msg : Option Msg} : ∀ o ∈ cycleOps cyc v now msg, o.Usual := by
  intro o ho
  simp only [cycleOps, maintenance] at ho
  split at ho <;> split at ho <;> cases msg <;> simp at ho <;>
    (try rcases ho with rfl | rfl | rfl | rfl | rfl | rfl | rfl | rfl | rfl) <;> simp_all [TaskOp.Usual]

theorem Recalls.sys {cfg : Cfg} (hn : cfg.nBeliefs = 20) {s s' : Sys} {op : SysOp} (h : op.run cfg s = .ok s')
    (hs : ∀ x cc mc now, op = .input x cc mc now → x.punct = .JUGEMENT → Good x) (h0 : Recalls s.sh) : Recalls s'.sh := by
  cases op with
  | input x cc mc now =>
    obtain ⟨sh, h1, h2⟩ := R.bind_ok.1 h
    cases h2
    exact h0.step (op := .add x cc mc now) hn (R.map_ok.2 ⟨sh, h1, rfl⟩) (hs x cc mc now rfl)
  | cycle v now =>
    obtain ⟨⟨sh, msg, calls⟩, h1, h2⟩ := R.bind_ok.1 h
    cases h2
    exact Recalls.steps hn (reasonCycle_more [] h1) cycleOps_usual h0
  | work =>
    simp only [SysOp.run] at h
    split at h
    · cases h; exact h0
    · obtain ⟨⟨sh, calls⟩, h1, h2⟩ := R.bind_ok.1 h
      cases h2
      obtain ⟨concl, p, hconcl, _, hm⟩ := work_more [] h1
      refine Recalls.steps hn hm ?_ h0
      intro o ho
      simp only [workOps, List.mem_append, List.mem_map] at ho
      rcases ho with ⟨c, hcm, rfl⟩ | ⟨c, hcm, rfl⟩
      · exact workConclusions_P good_closed hconcl hcm h0.good
      · exact fun _ => workConclusions_P good_closed hconcl hcm h0.good
  | flush => cases h; exact h0.step (op := .flush) hn rfl trivial
  | newStampId => cases h; exact h0.step (op := .newStampId) hn rfl trivial
  | procMem m => cases h; exact h0.step (op := .procMem m) hn rfl trivial

theorem Recalls.more {cfg : Cfg} (hn : cfg.nBeliefs = 20) {ops : List SysOp} : ∀ {s s' : Sys}, moreSys cfg s ops = .ok s' →
    (∀ x cc mc now, SysOp.input x cc mc now ∈ ops → x.punct = .JUGEMENT → Good x) → Recalls s.sh → Recalls s'.sh := by
  induction ops with
  | nil => intro s s' h _ h0; cases h; exact h0
  | cons op ops ih =>
    intro s s' h hs h0
    obtain ⟨s1, h1, h2⟩ := foldlM_cons_ok.1 h
    refine ih h2 (fun x cc mc now hx => hs x cc mc now (List.mem_cons_of_mem _ hx)) (h0.sys hn h1 ?_)
    rintro x cc mc now rfl
    exact hs x cc mc now List.mem_cons_self

end Nar
