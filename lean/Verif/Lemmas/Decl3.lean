import Verif.Lemmas.Decl2
/-! # Cycles and rounds of the worker never crash -/
namespace Nar
open Term

/-- the declarative reasoner is in order: the lists are consistent and all its sentences are sane -/
structure DInv (cfg : Cfg) (sh : Shared) : Prop where
  inv : Inv cfg sh
  good : AllP Good HasExp sh

theorem DInv.init (cfg : Cfg) : DInv cfg createShared :=
  ⟨createShared_inv cfg, by simp [createShared], by intro c hc; simp [createShared] at hc, by intro c hc; simp [createShared] at hc⟩

theorem DInv.step {cfg : Cfg} {sh sh' : Shared} {op : TaskOp} {calls : List AnswerCall} (h : DInv cfg sh)
    (hr : op.run cfg sh = .ok (sh', calls)) (hb : op.Brings Good HasExp) : DInv cfg sh' :=
  ⟨TaskOp.run_inv hr h.inv, (TaskOp.run_P good_closed hr h.good hb).1⟩

/-! ## the heap of tasks only grows -/

theorem SameBut.length {a b : Shared} (h : SameBut a b) : b.heap.length = a.heap.length := by
  have := congrArg List.length h.1
  simpa using this

theorem SameUpTo.length {a b : Shared} (h : SameUpTo a b) : b.heap.length = a.heap.length := by
  have := congrArg List.length h.core
  simpa using this

theorem addTasks_heap {cc : Bool} {mc : Rat} {ss : List Sentence} {sh sh' : Shared}
    (h : addTasks sh cc mc ss = .ok sh') : sh.heap.length ≤ sh'.heap.length := by
  induction ss generalizing sh with
  | nil => cases h; exact le_refl _
  | cons s ss ih =>
    unfold addTasks at h
    cases hp : s.punct with
    | JUGEMENT =>
      rw [hp] at h
      simp only [R.bind_ok] at h
      obtain ⟨tasks, ht, h⟩ := h
      split at h
      · cases h; exact le_refl _
      · rw [R.bind_ok] at h
        obtain ⟨task, htask, h⟩ := h
        refine le_trans ?_ (ih h)
        simp
    | QUESTION => rw [hp] at h; have := ih h; exact this
    | GOAL => rw [hp] at h; exact ih h

theorem TaskOp.run_heap {cfg : Cfg} {sh sh' : Shared} {op : TaskOp} {calls : List AnswerCall}
    (h : op.run cfg sh = .ok (sh', calls)) : sh.heap.length ≤ sh'.heap.length := by
  cases op with
  | add s cc mc now =>
    obtain ⟨x, h1, h2⟩ := R.map_ok.1 h
    cases h2
    rcases memAddTask_cases h1 with ⟨_, rfl⟩ | ⟨_, mem, rev, _, h3⟩
    · exact le_refl _
    · have := addTasks_heap h3; exact this
  | tick => cases h; exact le_refl _
  | creditQuestions => cases h; exact (creditQuestions_same sh).length.ge
  | baseCredit =>
    obtain ⟨x, h1, h2⟩ := R.map_ok.1 h
    cases h2; exact (baseCredit_same h1).length.ge
  | answer v => obtain ⟨qs, hq⟩ := answerSampled_frame h; simp only at hq; rw [hq]
  | offer c => obtain ⟨qs, hq⟩ := offerConclusion_frame h; simp only at hq; rw [hq]
  | select =>
    obtain ⟨r', h1, h2⟩ := R.map_ok.1 h
    cases h2
    rcases selectPrimary_cases h1 with ⟨_, rfl⟩ | ⟨_, _, _, _, rfl⟩ <;> exact le_refl _
  | usage msg now => cases h; exact (updateUsage_same sh msg now).length.ge
  | cleanup =>
    obtain ⟨x, h1, h2⟩ := R.map_ok.1 h
    cases h2
    obtain ⟨_, _, _, _, rfl⟩ := cleanupTasks_spec h1
    exact le_refl _
  | rebuild =>
    obtain ⟨x, h1, h2⟩ := R.map_ok.1 h
    cases h2
    unfold rebuildLookup at h1
    rw [R.bind_ok] at h1
    obtain ⟨_, _, h1⟩ := h1
    cases h1; exact le_refl _
  | forget n => obtain ⟨m, h1, h2⟩ := R.map_ok.1 h; cases h2; exact le_refl _
  | flush => cases h; exact le_refl _
  | newStampId => cases h; exact le_refl _
  | procMem m => cases h; exact le_refl _

theorem moreTasks_heap {cfg : Cfg} {st st' : Shared × List AnswerCall} {ops : List TaskOp}
    (h : moreTasks cfg st ops = .ok st') : st.1.heap.length ≤ st'.1.heap.length := by
  refine foldlM_inv (fun s : Shared × List AnswerCall => st.1.heap.length ≤ s.1.heap.length) h (le_refl _) ?_
  rintro op hop ⟨sh, log⟩ b h1 hstep
  obtain ⟨⟨sh', calls⟩, h3, h4⟩ := R.bind_ok.1 hstep
  cases h4
  exact le_trans h1 (TaskOp.run_heap h3)

theorem reasonCycle_heap {cfg : Cfg} {selVal : Rat} {now : Int} {sh sh' : Shared} {msg : Option Msg}
    {calls : List AnswerCall} (h : reasonCycle cfg selVal now sh = .ok (sh', msg, calls)) :
    sh.heap.length ≤ sh'.heap.length := moreTasks_heap (reasonCycle_more [] h)

theorem work_heap {cfg : Cfg} {sh sh' : Shared} {msg : Msg} {calls : List AnswerCall}
    (h : work cfg sh msg = .ok (sh', calls)) : sh.heap.length ≤ sh'.heap.length := by
  obtain ⟨concl, p, hc, hp, hm⟩ := work_more [] h
  exact moreTasks_heap hm

/-! ## messages -/

/-- the tasks of the message exist -/
def WorkOk (sh : Shared) (m : Msg) : Prop := m.primary < sh.heap.length ∧ ∀ r ∈ m.secondary, r < sh.heap.length

theorem WorkOk.mono {sh sh' : Shared} {m : Msg} (h : WorkOk sh m) (hl : sh.heap.length ≤ sh'.heap.length) : WorkOk sh' m :=
  ⟨lt_of_lt_of_le h.1 hl, fun r hr => lt_of_lt_of_le (h.2 r hr) hl⟩

theorem buildMsg_total {cfg : Cfg} {sh : Shared} (h : DInv cfg sh) :
    ∃ sh' msg, buildMsg cfg sh = .ok (sh', msg) ∧ DInv cfg sh' ∧ sh'.heap = sh.heap ∧ ∀ m, msg = some m → WorkOk sh' m := by
  obtain ⟨⟨sh1, prim⟩, h1⟩ := selectPrimary_total h.inv.valid
  have hd : DInv cfg sh1 := h.step (op := .select) (calls := []) (by simp only [TaskOp.run]; rw [h1]; rfl) trivial
  have hp : sh1.heap = sh.heap ∧ ∀ p, prim = some p → p < sh.heap.length := by
    rcases selectPrimary_cases h1 with ⟨_, e⟩ | ⟨ts, p, _, hp, e⟩
    · cases e; exact ⟨rfl, by simp⟩
    · cases e
      refine ⟨rfl, ?_⟩
      rintro p' hp'; cases hp'
      exact h.inv.valid p (List.mem_of_getElem? hp)
  unfold buildMsg
  simp only [h1, bind, Except.bind]
  cases prim with
  | none => exact ⟨_, _, rfl, hd, hp.1, by simp⟩
  | some p =>
    have hpl : p < sh1.heap.length := by rw [hp.1]; exact hp.2 p rfl
    obtain ⟨sec, hs⟩ := secondaryElligable_total hd.inv hpl
    simp only [hs]
    refine ⟨_, _, rfl, hd, hp.1, ?_⟩
    rintro m hm; cases hm
    refine ⟨hpl, ?_⟩
    intro r hr
    unfold secondaryElligable at hs
    obtain ⟨pt, _, hs⟩ := R.bind_ok.1 hs
    obtain ⟨acc, hacc, hs⟩ := R.bind_ok.1 hs
    obtain ⟨arr, harr, hs⟩ := R.bind_ok.1 hs
    cases hs
    obtain ⟨x, hx, rfl⟩ := List.mem_map.1 hr
    have hx := (sortAsc_perm arr).mem_iff.1 (List.mem_of_mem_take hx)
    obtain ⟨y, hy, e⟩ := forall₂_right_mem (mapM_ok_iff.1 harr) hx
    obtain ⟨t, ht, e⟩ := R.bind_ok.1 e
    cases e
    exact (List.getElem?_eq_some_iff.1 (indexAt_ok.1 ht)).1

theorem everyCleanup_total {cfg : Cfg} {sh : Shared} (h : DInv cfg sh) :
    ∃ sh', everyCleanup cfg sh = .ok sh' ∧ DInv cfg sh' ∧ sh'.heap.length = sh.heap.length := by
  unfold everyCleanup
  split
  · obtain ⟨s1, h1⟩ := cleanupTasks_total h.inv.valid
    have d1 : DInv cfg s1 := h.step (op := .cleanup) (calls := []) (by simp only [TaskOp.run]; rw [h1]; rfl) trivial
    obtain ⟨s2, h2⟩ := rebuildLookup_total d1.inv.valid
    refine ⟨s2, by simp only [h1, bind, Except.bind, h2],
      d1.step (op := .rebuild) (calls := []) (by simp only [TaskOp.run]; rw [h2]; rfl) trivial, ?_⟩
    obtain ⟨_, _, _, _, rfl⟩ := cleanupTasks_spec h1
    unfold rebuildLookup at h2
    obtain ⟨_, _, h2⟩ := R.bind_ok.1 h2
    cases h2; rfl
  · exact ⟨sh, rfl, h, rfl⟩

theorem everyForget_total {cfg : Cfg} {sh : Shared} (h : DInv cfg sh) :
    ∃ sh', everyForget sh = .ok sh' ∧ DInv cfg sh' ∧ sh'.heap.length = sh.heap.length := by
  unfold everyForget
  split
  · obtain ⟨m, hm⟩ := Props.C16_limit_total sh.mem 3000 (by
      intro c hc b hb
      obtain ⟨e, he⟩ := ((h.good.2.1 c hc).1 b hb).exp
      exact ⟨e, (expOf_iff _ _).1 he⟩)
    exact ⟨{ sh with mem := m }, by simp only [hm, bind, Except.bind],
      h.step (op := .forget 3000) (calls := []) (by simp only [TaskOp.run]; rw [hm]; rfl) trivial, rfl⟩
  · exact ⟨sh, rfl, h, rfl⟩

/-- a cycle succeeds, keeps everything in order, and the message it sends names existing tasks -/
theorem reasonCycle_total {cfg : Cfg} {sh : Shared} (h : DInv cfg sh) (selVal : Rat) (now : Int) :
    ∃ sh' msg calls, reasonCycle cfg selVal now sh = .ok (sh', msg, calls) ∧ DInv cfg sh' ∧
      ∀ m, msg = some m → WorkOk sh' m := by
  have d0 : DInv cfg { sh with cycleCounter := sh.cycleCounter + 1 } := h.step (op := .tick) (calls := []) rfl trivial
  have d1 := d0.step (op := .creditQuestions) (calls := []) rfl trivial
  obtain ⟨s2, h2⟩ := baseCredit_total d1.inv.valid d1.good
  have d2 : DInv cfg s2 := d1.step (op := .baseCredit) (calls := []) (by simp only [TaskOp.run]; rw [h2]; rfl) trivial
  obtain ⟨⟨s3, calls⟩, h3⟩ := answerSampled_total (cfg := cfg) (v := selVal) d2.good
  have d3 : DInv cfg s3 := d2.step (op := .answer selVal) h3 trivial
  obtain ⟨s4, msg, h4, d4, _, hm⟩ := buildMsg_total d3
  have d5 : DInv cfg (useMsg s4 now msg) ∧ (useMsg s4 now msg).heap.length = s4.heap.length := by
    cases msg with
    | none => exact ⟨d4, rfl⟩
    | some m => exact ⟨d4.step (op := .usage m now) (calls := []) rfl trivial, (updateUsage_same s4 m now).length⟩
  obtain ⟨s6, h6, d6, l6⟩ := everyCleanup_total d5.1
  obtain ⟨s7, h7, d7, l7⟩ := everyForget_total d6
  refine ⟨s7, msg, calls, ?_, d7, ?_⟩
  · unfold reasonCycle
    simp only [h2, h3, h4, h6, h7, bind, Except.bind]
  · intro m e
    exact (hm m e).mono (by rw [l7, l6, d5.2])

/-! ## the worker -/

theorem infer_total {p s : Sentence} (hp : Good p) (hs : Good s) :
    ∃ r, (do let (cs, _) ← inference p s; .ok cs : R (List (Sentence × Rat))) = .ok r := by
  obtain ⟨ta, h1, _⟩ := hp.truth
  obtain ⟨tb, h2, _⟩ := hs.truth
  obtain ⟨⟨cs, w⟩, h⟩ := Props.C13_judgements_never_crash p s ta tb hp.1 hs.1 h1 h2
  exact ⟨cs, by rw [h]; rfl⟩

theorem single_total {p : Sentence} (hp : Good p) : ∃ r, infSinglePremise2 p = .ok r := by
  obtain ⟨ta, h1, _⟩ := hp.truth
  refine (Props.C13_single_premise_crash_exact p ta hp.1 h1).2 ?_
  rintro ⟨arr, rel, e, hl⟩
  have hw := hp.2.2
  rw [e, wf_stmt] at hw
  have := (wf_iff.1 hw.1).1
  simp only [Shaped] at this
  omega

theorem workConclusions_total {cfg : Cfg} {sh : Shared} (h : DInv cfg sh) {m : Msg} (hm : WorkOk sh m) :
    ∃ r, workConclusions sh m = .ok r := by
  have hg : ∀ t ∈ sh.heap, Good t.sentence := h.good.1
  have hp := hg _ (List.getElem_mem hm.1)
  obtain ⟨single, h1⟩ := single_total hp
  obtain ⟨secs, h2⟩ := derefs_total (sh := sh) hm.2
  have hsec : ∀ s ∈ secs, Good s.sentence := by
    intro s hs
    obtain ⟨r, _, e⟩ := forall₂_right_mem (derefs_iff.1 h2) hs
    exact hg s (List.mem_of_getElem? e)
  obtain ⟨partA, h3⟩ := mapM_total (l := (secs.zip m.secondary).take (m.secondary.length / 2))
    (f := fun (x : Task × Nat) => match x with
      | (s, r) => if r = m.primary then (.ok [] : R (List (Sentence × Rat))) else do
          let (cs, _) ← inference (sh.heap[m.primary]'hm.1).sentence s.sentence
          .ok cs) (by
      rintro ⟨s, r⟩ hx
      have hs := (List.of_mem_zip (List.mem_of_mem_take hx)).1
      simp only
      split
      · exact ⟨_, rfl⟩
      · exact infer_total hp (hsec s hs))
  obtain ⟨partB, h4⟩ := mapM_total (l := secs) (f := fun (s : Task) => (do
      let (cs, _) ← inference (sh.heap[m.primary]'hm.1).sentence s.sentence
      .ok cs : R (List (Sentence × Rat)))) (fun s hs => infer_total hp (hsec s hs))
  obtain ⟨partC, h5⟩ := mapM_total (l := match sh.mem.get (sh.heap[m.primary]'hm.1).sentence.term with
      | some c => c.beliefsByExp ++ c.beliefsByUsage
      | none => []) (f := fun (b : Sentence) => (do
      let (cs, _) ← inference (sh.heap[m.primary]'hm.1).sentence b
      .ok cs : R (List (Sentence × Rat)))) (by
      intro b hb
      refine infer_total hp ?_
      cases hc : sh.mem.get (sh.heap[m.primary]'hm.1).sentence.term with
      | none => rw [hc] at hb; simp at hb
      | some c =>
        rw [hc] at hb
        have := h.good.2.1 c (Mem.get_some hc).1
        rcases List.mem_append.1 hb with hb | hb
        · exact this.1 b hb
        · exact this.2 b hb)
  refine ⟨nameCells m.cycleCounter (single ++ partA.flatten ++ partB.flatten ++ partC.flatten), ?_⟩
  unfold workConclusions
  refine R.bind_ok.2 ⟨_, indexAt_ok.2 (List.getElem?_eq_getElem hm.1), ?_⟩
  refine R.bind_ok.2 ⟨_, h1, ?_⟩
  refine R.bind_ok.2 ⟨_, h2, ?_⟩
  refine R.bind_ok.2 ⟨_, h3, ?_⟩
  refine R.bind_ok.2 ⟨_, h4, ?_⟩
  refine R.bind_ok.2 ⟨_, h5, ?_⟩
  rfl

/-- a round of the worker succeeds and keeps everything in order -/
theorem work_total {cfg : Cfg} {sh : Shared} (h : DInv cfg sh) {m : Msg} (hm : WorkOk sh m) :
    ∃ sh' calls, work cfg sh m = .ok (sh', calls) ∧ DInv cfg sh' := by
  obtain ⟨concl, h1⟩ := workConclusions_total h hm
  have hg : ∀ c ∈ concl, Good c.1 := by
    rintro ⟨c, w⟩ hc
    exact workConclusions_P good_closed h1 hc h.good
  obtain ⟨⟨s2, calls⟩, h2⟩ := offerAll_total (cfg := cfg) (sh := sh) (cs := concl.map (·.1)) (by
    intro c hc
    obtain ⟨x, hx, rfl⟩ := List.mem_map.1 hc
    exact (hg x hx).exp)
  have d2 : DInv cfg s2 := by
    have hmore := offerAll_more [] h2
    refine (foldlM_inv (fun s : Shared × List AnswerCall => DInv cfg s.1) hmore h ?_)
    rintro op hop ⟨sh, log⟩ b hd hstep
    obtain ⟨⟨sh', calls⟩, h3, h4⟩ := R.bind_ok.1 hstep
    cases h4
    obtain ⟨c, hc, rfl⟩ := List.mem_map.1 hop
    obtain ⟨x, hx, rfl⟩ := List.mem_map.1 hc
    exact DInv.step hd h3 (hg x hx)
  obtain ⟨s3, h3, d3⟩ := foldlM_total (f := fun s (c : Sentence × Rat) =>
      memAddTask cfg s c.1 true (1 * (sh.heap[m.primary]'hm.1).mulCredit * c.2) m.cycleCounter) (DInv cfg) concl (by
    intro c hc s hs
    obtain ⟨s', h'⟩ := memAddTask_total (cfg := cfg) (cc := true)
      (mc := 1 * (sh.heap[m.primary]'hm.1).mulCredit * c.2) (now := m.cycleCounter) hs.inv hs.good (fun _ => hg c hc)
    exact ⟨s', h', hs.step (op := .add c.1 true _ _) (calls := []) (by simp only [TaskOp.run]; rw [h']; rfl) (fun _ => hg c hc)⟩) s2 d2
  refine ⟨s3, calls, ?_, d3⟩
  unfold work
  refine R.bind_ok.2 ⟨_, h1, ?_⟩
  refine R.bind_ok.2 ⟨_, indexAt_ok.2 (List.getElem?_eq_getElem hm.1), ?_⟩
  refine R.bind_ok.2 ⟨_, h2, ?_⟩
  refine R.bind_ok.2 ⟨_, h3, ?_⟩
  rfl

/-! ## histories of the declarative system -/

/-- every waiting message names existing tasks -/
def QueueOk (sh : Shared) (q : List Msg) : Prop := ∀ m ∈ q, WorkOk sh m

theorem QueueOk.mono {sh sh' : Shared} {q : List Msg} (h : QueueOk sh q) (hl : sh.heap.length ≤ sh'.heap.length) : QueueOk sh' q :=
  fun m hm => (h m hm).mono hl

end Nar
