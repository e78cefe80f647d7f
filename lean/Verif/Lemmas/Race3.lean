import Verif.Lemmas.Race2
import Verif.Lemmas.Decl3
/-! # Memory under simultaneous additions; nothing crashes -/
namespace Nar
open Term

/-! ## Properties of the tables -/

/-- one concept per term, and the tables have `P` -/
def MemTables (P : List Sentence → List Sentence → Prop) (m : Mem) : Prop :=
  m.WF ∧ ∀ c ∈ m, P c.beliefsByExp c.beliefsByUsage

/-- `P` survives filing and pooling -/
structure TableProp (n : Nat) (P : List Sentence → List Sentence → Prop) : Prop where
  new : ∀ s, P [s] [s]
  store : ∀ s now e u e' u', P e u → storeTable expOf e s n = .ok e' → storeTable (usefulOf now) u s n = .ok u' → P e' u'
  use : ∀ e u (f1 f2 : Nat → Sentence → Usage), P e u → P (e.mapIdx (fun i b => { b with usage := f1 i b }))
    (u.mapIdx (fun i b => { b with usage := f2 i b }))
  rev : ∀ cell1 cell2 s e u r1 r2, P e u → reviseTable cell1 e s = .ok r1 → reviseTable cell2 u s = .ok r2 → P r1.1 r2.1

theorem MemTables.usage {P : List Sentence → List Sentence → Prop} {n : Nat} (hP : TableProp n P) {m m' : Mem}
    (hm : MemTables P m) (h : UsageOnly m m') : MemTables P m' := by
  obtain ⟨g, rfl⟩ := h
  refine ⟨touchMem_wf hm.1, ?_⟩
  intro c hc
  obtain ⟨d, hd, rfl⟩ := List.mem_map.1 hc
  exact hP.use _ _ _ _ (hm.2 d hd)

theorem MemTables.store {P : List Sentence → List Sentence → Prop} {n : Nat} (hP : TableProp n P) {m m' : Mem} {s : Sentence}
    {now : Int} (h : storeInConcepts m s n now = .ok m') (hm : MemTables P m) : MemTables P m' := by
  refine ⟨storeInConcepts2_wf h hm.1, ?_⟩
  rcases storeInConcepts2_cases h with ⟨_, rfl⟩ | ⟨_, h⟩
  · exact hm.2
  · exact foldlM_inv (fun m : Mem => ∀ c ∈ m, P c.beliefsByExp c.beliefsByUsage) h hm.2
      (fun t _ a b ha hb => storeAt_inv P hb ha (hP.new s) (fun c hc _ e u he hu => hP.store s now _ _ e u (ha c hc) he hu))

theorem MemTables.revise {P : List Sentence → List Sentence → Prop} {n : Nat} (hP : TableProp n P)
    {s : Sentence} {t : Term} {st st' : Mem × Option Sentence} (h : reviseAt s st t = .ok st') (hm : MemTables P st.1) :
    MemTables P st'.1 :=
  ⟨reviseAt_wf h hm.1, reviseAt_inv P h hm.2 (fun c hc _ _ _ r1 r2 h1 h2 => hP.rev _ _ s _ _ r1 r2 (hm.2 c hc) h1 h2)⟩

theorem Adding.step_mem {P : List Sentence → List Sentence → Prop} {cfg : Cfg} (hP : TableProp cfg.nBeliefs P) {sh : Shared}
    {a : Adding} {r : Shared × Option Adding} (h : a.step cfg sh = .ok r) (hm : MemTables P sh.mem) : MemTables P r.1.mem := by
  unfold Adding.step at h
  split at h
  · obtain ⟨x, hx, h⟩ := R.bind_ok.1 h
    cases h; exact hm.revise hP hx
  · cases h; exact hm
  · obtain ⟨x, hx, h⟩ := R.bind_ok.1 h
    cases h; exact hm.store hP hx
  · cases h; exact hm
  · split at h
    · obtain ⟨x, hx, h⟩ := R.bind_ok.1 h
      cases h
      rcases makeTask_cases hx with rfl | ⟨task, rfl, _⟩ <;> exact hm
    · cases h; exact hm
    · cases h; exact hm
  · cases h; exact hm
  · cases h; exact hm

theorem addTasks_mem {cc : Bool} {mc : Rat} {ss : List Sentence} {sh sh' : Shared} (h : addTasks sh cc mc ss = .ok sh') :
    sh'.mem = sh.mem := by
  induction ss generalizing sh with
  | nil => cases h; rfl
  | cons s ss ih =>
    unfold addTasks at h
    cases hp : s.punct with
    | JUGEMENT =>
      rw [hp] at h
      simp only [R.bind_ok] at h
      obtain ⟨tasks, ht, h⟩ := h
      split at h
      · cases h; rfl
      · rw [R.bind_ok] at h
        obtain ⟨task, htask, h⟩ := h
        have := ih h; exact this
    | QUESTION => rw [hp] at h; have := ih h; exact this
    | GOAL => rw [hp] at h; have := ih h; exact this

theorem memAddTask_tables {P : List Sentence → List Sentence → Prop} {cfg : Cfg} (hP : TableProp cfg.nBeliefs P) {sh sh' : Shared}
    {s : Sentence} {cc : Bool} {mc : Rat} {now : Int} (h : memAddTask cfg sh s cc mc now = .ok sh') (hm : MemTables P sh.mem) :
    MemTables P sh'.mem := by
  rcases memAddTask_cases h with ⟨_, rfl⟩ | ⟨_, mem, rev, h1, h2⟩
  · exact hm
  · rw [addTasks_mem h2]
    have hrev : ∀ {st}, memReviseBelief sh.mem s = .ok st → MemTables P st.1 := by
      intro st h
      rcases memReviseBelief_cases h with ⟨_, rfl⟩ | ⟨_, h⟩
      · exact hm
      · exact foldlM_inv (fun st : Mem × Option Sentence => MemTables P st.1) h hm (fun t _ a b ha hb => ha.revise hP hb)
    rcases addBelief_cases h1 with ⟨x, rfl, h⟩ | ⟨rfl, m1, h1, h2⟩
    · exact hrev h
    · have := hrev h1
      exact MemTables.store hP h2 this

theorem TaskOp.run_tables {P : List Sentence → List Sentence → Prop} {cfg : Cfg} (hP : TableProp cfg.nBeliefs P) {sh : Shared}
    {op : TaskOp} {r : Shared × List AnswerCall} (h : op.run cfg sh = .ok r) (hm : MemTables P sh.mem) : MemTables P r.1.mem := by
  have hsame : ∀ sh', SameBut sh sh' → MemTables P sh'.mem := fun sh' hs => by rw [hs.2.2.2.2.2]; exact hm
  cases op with
  | add s cc mc now =>
    obtain ⟨sh', h1, rfl⟩ := R.map_ok.1 h
    exact memAddTask_tables hP h1 hm
  | tick => cases h; exact hm
  | creditQuestions => cases h; exact hsame _ (creditQuestions_same sh)
  | baseCredit =>
    obtain ⟨sh', h1, rfl⟩ := R.map_ok.1 h
    exact hsame _ (baseCredit_same h1)
  | answer v =>
    obtain ⟨qs, hq⟩ := answerSampled_frame h
    rw [hq]; exact hm
  | offer c =>
    obtain ⟨qs, hq⟩ := offerConclusion_frame h
    rw [hq]; exact hm
  | select =>
    obtain ⟨r', h1, rfl⟩ := R.map_ok.1 h
    rcases selectPrimary_cases h1 with ⟨_, rfl⟩ | ⟨tasks, p, _, hp, rfl⟩ <;> exact hm
  | usage msg now => cases h; exact hm.usage hP (updateUsage_same sh msg now).mem
  | cleanup =>
    obtain ⟨sh', h1, rfl⟩ := R.map_ok.1 h
    obtain ⟨sorted, hp, _, _, rfl⟩ := cleanupTasks_spec h1
    exact hm
  | rebuild =>
    obtain ⟨sh', h1, rfl⟩ := R.map_ok.1 h
    obtain ⟨m, rfl, _⟩ := rebuildLookup_facts h1
    exact hm
  | forget n =>
    obtain ⟨m, h1, rfl⟩ := R.map_ok.1 h
    exact ⟨limitMemory_wf h1 hm.1, fun c hc => hm.2 c (limitMemory_mem h1 c hc)⟩
  | flush => cases h; exact hm
  | newStampId => cases h; exact hm
  | procMem m => cases h; exact hm

theorem runRace_tables {P : List Sentence → List Sentence → Prop} {cfg : Cfg} (hP : TableProp cfg.nBeliefs P) {st : Race}
    {ops : List RaceOp} (h : runRace cfg ops = .ok st) : MemTables P st.sh.mem := by
  refine moreRace_inv (fun st => MemTables P st.sh.mem) h ⟨List.nodup_nil, nofun⟩ ?_
  intro op _ a b ha hb
  cases op with
  | begin k s cc mc now =>
    simp only [RaceOp.run] at hb
    split at hb <;> (cases hb; exact ha)
  | next k =>
    simp only [RaceOp.run] at hb
    split at hb
    · cases hb; exact ha
    · obtain ⟨x, hx, hb⟩ := R.bind_ok.1 hb
      cases hb; exact Adding.step_mem hP hx ha
  | other op =>
    obtain ⟨x, hx, hb⟩ := R.bind_ok.1 hb
    cases hb; exact TaskOp.run_tables hP hx ha

/-! ## Properties of sentences -/

/-- the judgements an addition may still turn into tasks have `P` -/
def Adding.HasP (P : Sentence → Prop) (a : Adding) : Prop :=
  (a.sentence.punct = .JUGEMENT → P a.sentence) ∧
  match a.stage with
  | .revise ts res => (ts ≠ [] → a.sentence.punct = .JUGEMENT) ∧ ∀ x, res = some x → P x
  | .each todo => ∀ s ∈ todo, s.punct = .JUGEMENT → P s
  | .push task _ todo => P task.sentence ∧ ∀ s ∈ todo, s.punct = .JUGEMENT → P s
  | .file _ _ todo => ∀ s ∈ todo, s.punct = .JUGEMENT → P s

theorem reviseAt_P {P : Sentence → Prop} (hP : SentClosed P) {s : Sentence} {t : Term} {a b : Mem × Option Sentence}
    (h : reviseAt s a t = .ok b) (hs : P s) (hab : MemP P a.1 ∧ ∀ x, a.2 = some x → P x) :
    MemP P b.1 ∧ ∀ x, b.2 = some x → P x := by
  rcases reviseAt_cases h with ⟨_, rfl⟩ | ⟨c, r1, r2, hg, g1, g2, rfl⟩
  · exact hab
  · have hc := hab.1 c (Mem.get_some hg).1
    have k1 := reviseTable_P hP g1 hc.1 hs
    have k2 := reviseTable_P hP g2 hc.2 hs
    refine ⟨?_, ?_⟩
    · intro d hd
      rcases Mem.mem_set hd with rfl | ⟨hd, _⟩
      · exact ⟨k1.1, k2.1⟩
      · exact hab.1 d hd
    · intro y hy
      simp only at hy
      cases e2 : r2.2 with
      | some z => rw [e2] at hy; simp at hy; subst hy; exact k2.2 _ e2
      | none =>
        rw [e2] at hy; simp only [Option.none_or] at hy
        cases e1 : r1.2 with
        | some z => rw [e1] at hy; simp at hy; subst hy; exact k1.2 _ e1
        | none => rw [e1] at hy; simp only [Option.none_or] at hy; exact hab.2 y hy

theorem makeTask_P {P : Sentence → Prop} {sh : Shared} {cc : Bool} {mc : Rat} {s : Sentence} {r : Shared × Option Task}
    (h : makeTask sh cc mc s = .ok r) (hs : P s) : ∀ t, r.2 = some t → P t.sentence := by
  obtain ⟨tasks, _, h⟩ := R.bind_ok.1 h
  split at h
  · rw [← Except.ok.inj h]; intro t ht; simp at ht
  · obtain ⟨task, htask, h⟩ := R.bind_ok.1 h
    rw [← Except.ok.inj h]
    intro t ht
    rw [← Option.some.inj ht]
    rw [payCredit_sentence htask]; exact hs

theorem Adding.step_P {P Q : Sentence → Prop} (hP : SentClosed P) (hj : ∀ s, P s → s.punct = .JUGEMENT) {cfg : Cfg} {sh : Shared}
    {a : Adding} {r : Shared × Option Adding} (h : a.step cfg sh = .ok r) (h0 : AllP P Q sh) (ha : a.HasP P) :
    AllP P Q r.1 ∧ ∀ a', r.2 = some a' → a'.HasP P := by
  obtain ⟨hs, hst⟩ := ha
  unfold Adding.step at h
  split at h
  · rename_i t ts res hstage
    rw [hstage] at hst
    obtain ⟨x, hx, h⟩ := R.bind_ok.1 h
    cases h
    have := reviseAt_P hP hx (hs (hst.1 (by simp))) ⟨h0.2.1, hst.2⟩
    refine ⟨⟨h0.1, this.1, h0.2.2⟩, ?_⟩
    rintro a' ha'; cases ha'
    exact ⟨hs, fun _ => hst.1 (by simp), this.2⟩
  · rename_i x hstage
    rw [hstage] at hst
    cases h
    refine ⟨h0, ?_⟩
    rintro a' ha'; cases ha'
    refine ⟨hs, ?_⟩
    intro y hy hyj
    simp only [List.mem_cons, List.not_mem_nil, or_false] at hy
    rcases hy with rfl | rfl
    · exact hs hyj
    · exact hst.2 y rfl
  · rename_i hstage
    obtain ⟨x, hx, h⟩ := R.bind_ok.1 h
    cases h
    refine ⟨⟨h0.1, storeInConcepts2_P hx h0.2.1 hs, h0.2.2⟩, ?_⟩
    rintro a' ha'; cases ha'
    refine ⟨hs, ?_⟩
    intro y hy hyj
    simp only [List.mem_cons, List.not_mem_nil, or_false] at hy
    subst hy; exact hs hyj
  · cases h; exact ⟨h0, fun a' ha' => by simp at ha'⟩
  · rename_i s todo hstage
    rw [hstage] at hst
    have htodo : ∀ x ∈ todo, x.punct = .JUGEMENT → P x := fun x hx => hst x (List.mem_cons_of_mem _ hx)
    split at h
    · rename_i hp
      obtain ⟨x, hx, h⟩ := R.bind_ok.1 h
      cases h
      have hsP := hst s (by simp) hp
      have hmP := makeTask_P (P := P) hx hsP
      rcases makeTask_cases hx with rfl | ⟨task, rfl, _⟩
      · exact ⟨h0, fun a' ha' => by simp at ha'⟩
      · refine ⟨h0, ?_⟩
        rintro a' ha'; cases ha'
        exact ⟨hs, hmP task rfl, htodo⟩
    · cases h
      refine ⟨h0, ?_⟩
      rintro a' ha'; cases ha'
      exact ⟨hs, htodo⟩
    · cases h
      refine ⟨h0, ?_⟩
      rintro a' ha'; cases ha'
      exact ⟨hs, htodo⟩
  · rename_i task term todo hstage
    rw [hstage] at hst
    cases h
    refine ⟨⟨?_, h0.2⟩, ?_⟩
    · intro t ht
      rcases List.mem_append.1 ht with ht | ht
      · exact h0.1 t ht
      · simp at ht; subst ht; exact hst.1
    · rintro a' ha'; cases ha'
      exact ⟨hs, hst.2⟩
  · rename_i x term todo hstage
    rw [hstage] at hst
    cases h
    refine ⟨h0, ?_⟩
    rintro a' ha'; cases ha'
    exact ⟨hs, hst⟩

/-- the sentences of the shared state and of all additions in progress -/
structure RaceP (P Q : Sentence → Prop) (st : Race) : Prop where
  all : AllP P Q st.sh
  adding : ∀ k a, st.adding k = some a → a.HasP P

theorem beginAdding_P {P : Sentence → Prop} {cfg : Cfg} {s : Sentence} {cc : Bool} {mc : Rat} {now : Int}
    (hs : s.punct = .JUGEMENT → P s) : ∀ a, beginAdding cfg s cc mc now = some a → a.HasP P := by
  intro a h
  unfold beginAdding at h
  split at h
  · cases h
  · cases h
    refine ⟨hs, ?_, nofun⟩
    intro hne
    by_contra hp
    exact hne (if_neg hp)

theorem RaceP.put {P Q : Sentence → Prop} {st : Race} (h : RaceP P Q st) {sh : Shared} {k : Nat} {a : Option Adding}
    (h1 : AllP P Q sh) (h2 : ∀ b, a = some b → b.HasP P) : RaceP P Q (st.put sh k a) := by
  refine ⟨h1, ?_⟩
  intro j b hb
  by_cases hj : j = k
  · subst hj; rw [Race.put_self] at hb; exact h2 b hb
  · rw [Race.put_ne _ _ _ hj] at hb; exact h.adding j b hb

/-- what an action brings in -/
def RaceOp.Brings (P Q : Sentence → Prop) : RaceOp → Prop
  | .begin _ s _ _ _ => s.punct = .JUGEMENT → P s
  | .next _ => True
  | .other op => op.Brings P Q

theorem RaceP.run {P Q : Sentence → Prop} (hP : SentClosed P) (hj : ∀ s, P s → s.punct = .JUGEMENT) {cfg : Cfg} {st st' : Race}
    {op : RaceOp} (h : RaceP P Q st) (hb : op.Brings P Q) (hr : op.run cfg st = .ok st') : RaceP P Q st' := by
  cases op with
  | begin k s cc mc now =>
    simp only [RaceOp.run] at hr
    split at hr
    · cases hr; exact h.put h.all (beginAdding_P hb)
    · cases hr; exact h
  | next k =>
    simp only [RaceOp.run] at hr
    split at hr
    · cases hr; exact h
    · rename_i a ha
      obtain ⟨x, hx, hr⟩ := R.bind_ok.1 hr
      cases hr
      have := Adding.step_P hP hj hx h.all (h.adding k a ha)
      exact h.put this.1 this.2
  | other op =>
    obtain ⟨x, hx, hr⟩ := R.bind_ok.1 hr
    cases hr
    exact ⟨(TaskOp.run_P hP hx h.all hb).1, h.adding⟩

/-! ## Nothing crashes -/

theorem reviseAt_total {m : Mem} {res : Option Sentence} {s : Sentence} (t : Term) (hm : SaneMem m) (hs : SaneBelief s) :
    ∃ st, reviseAt s (m, res) t = .ok st := by
  cases hg : m.get t with
  | none => exact ⟨(m, res), by unfold reviseAt; simp only [hg]⟩
  | some c =>
    have hc := hm c (Mem.get_some hg).1
    obtain ⟨r1, h1, hs1⟩ := reviseTable_total (nextCell s res) _ s hc.1 hs
    obtain ⟨r2, h2, hs2⟩ := reviseTable_total (nextCell s (r1.2.or res)) _ s hc.2 hs
    exact ⟨_, by unfold reviseAt; simp only [hg, h1, bind, Except.bind, h2]; exact rfl⟩

theorem makeTask_total {sh : Shared} {cc : Bool} {mc : Rat} {s : Sentence} (hv : ∀ r ∈ sh.judgementTasks, r < sh.heap.length)
    (hs : WellFormed s.term) : ∃ r, makeTask sh cc mc s = .ok r := by
  obtain ⟨ts, hts⟩ := derefs_total hv
  unfold makeTask
  simp only [hts, bind, Except.bind]
  split
  · exact ⟨_, rfl⟩
  · obtain ⟨t', ht'⟩ := payCredit_total (cc := cc)
      (t := { sentence := shallowCopySentence s, credit := 1, qaCredit := 0, mulCredit := mc,
              id := sh.taskIdCounter, derivTime := sh.cycleCounter }) hs
    simp only [ht']
    exact ⟨_, rfl⟩

theorem Adding.step_total {cfg : Cfg} {sh : Shared} {a : Adding} (hv : ∀ r ∈ sh.judgementTasks, r < sh.heap.length)
    (h0 : AllP Good HasExp sh) (ha : a.HasP Good) : ∃ r, a.step cfg sh = .ok r := by
  obtain ⟨hs, hst⟩ := ha
  unfold Adding.step
  split
  · rename_i t ts res hstage
    rw [hstage] at hst
    obtain ⟨x, hx⟩ := reviseAt_total (res := res) t h0.2.1.saneMem (hs (hst.1 (by simp))).sane
    exact ⟨_, by simp only [hx, bind, Except.bind]; rfl⟩
  · exact ⟨_, rfl⟩
  · obtain ⟨m, hm, _⟩ := store_total sh.mem a.sentence (retSubterms a.sentence.term) cfg.nBeliefs a.now h0.2.1.saneMem
      (fun h => (hs h).sane)
    exact ⟨_, by unfold storeInConcepts; simp only [hm, bind, Except.bind]; rfl⟩
  · exact ⟨_, rfl⟩
  · rename_i s todo hstage
    rw [hstage] at hst
    split
    · rename_i hp
      obtain ⟨x, hx⟩ := makeTask_total (cc := a.calcCredit) (mc := a.mulCredit) hv (hst s (by simp) hp).2.2
      exact ⟨_, by simp only [hx, bind, Except.bind]; rfl⟩
    · exact ⟨_, rfl⟩
    · exact ⟨_, rfl⟩
  · exact ⟨_, rfl⟩
  · exact ⟨_, rfl⟩

/-- the invariant of sane histories -/
structure RaceOk (cfg : Cfg) (st : Race) : Prop where
  inv : RaceInv cfg st
  good : RaceP Good HasExp st

theorem good_punct : ∀ s, Good s → s.punct = .JUGEMENT := fun _ h => h.1

theorem RaceOk.begin {cfg : Cfg} {st : Race} (h : RaceOk cfg st) {k : Nat} {s : Sentence} {cc : Bool} {mc : Rat} {now : Int}
    (hs : s.punct = .JUGEMENT → Good s) : ∃ st', (RaceOp.begin k s cc mc now).run cfg st = .ok st' ∧ RaceOk cfg st' := by
  have : ∃ st', (RaceOp.begin k s cc mc now).run cfg st = .ok st' := by
    simp only [RaceOp.run]; split <;> exact ⟨_, rfl⟩
  obtain ⟨st', h'⟩ := this
  exact ⟨st', h', h.inv.run h', h.good.run (op := .begin k s cc mc now) good_closed good_punct hs h'⟩

theorem RaceOk.next {cfg : Cfg} {st : Race} (h : RaceOk cfg st) (k : Nat) :
    ∃ st', (RaceOp.next k).run cfg st = .ok st' ∧ RaceOk cfg st' := by
  have : ∃ st', (RaceOp.next k).run cfg st = .ok st' := by
    simp only [RaceOp.run]; split
    · exact ⟨_, rfl⟩
    · rename_i a ha
      obtain ⟨x, hx⟩ := Adding.step_total (cfg := cfg) h.inv.valid h.good.all (h.good.adding k a ha)
      exact ⟨_, by simp only [hx, bind, Except.bind]; rfl⟩
  obtain ⟨st', h'⟩ := this
  exact ⟨st', h', h.inv.run h', h.good.run (op := .next k) good_closed good_punct trivial h'⟩

theorem RaceOk.solo {cfg : Cfg} {st : Race} (h : RaceOk cfg st) (k n : Nat) :
    ∃ st', moreRace cfg st (solo k n) = .ok st' ∧ RaceOk cfg st' := by
  induction n generalizing st with
  | zero => exact ⟨st, rfl, h⟩
  | succ n ih =>
    obtain ⟨s1, h1, k1⟩ := h.next k
    obtain ⟨s2, h2, k2⟩ := ih k1
    refine ⟨s2, ?_, k2⟩
    rw [show Nar.solo k (n + 1) = .next k :: Nar.solo k n from rfl, moreRace_cons, h1]; exact h2

theorem RaceOk.other {cfg : Cfg} {st : Race} (h : RaceOk cfg st) {op : TaskOp} (hb : op.Brings Good HasExp) :
    ∃ r, op.run cfg st.sh = .ok r := by
  cases op with
  | add s cc mc now =>
    obtain ⟨N, hN⟩ := h.inv.idle
    have hk := hN N (le_refl N)
    obtain ⟨n, hn⟩ := solo_add (cfg := cfg) hk s cc mc now
    obtain ⟨s1, h1, k1⟩ := h.begin (k := N) (cc := cc) (mc := mc) (now := now) hb
    obtain ⟨s2, h2, k2⟩ := k1.solo N n
    rw [moreRace_cons, h1] at hn
    have hn : moreRace cfg s1 (Nar.solo N n) = _ := hn
    rw [h2] at hn
    cases hm : memAddTask cfg st.sh s cc mc now with
    | ok sh => exact ⟨_, by simp only [TaskOp.run, hm]; rfl⟩
    | error e => rw [hm] at hn; cases hn
  | tick => exact ⟨_, rfl⟩
  | creditQuestions => exact ⟨_, rfl⟩
  | baseCredit =>
    obtain ⟨r, hr⟩ := baseCredit_total h.inv.valid h.good.all
    exact ⟨_, by simp only [TaskOp.run, hr]; rfl⟩
  | answer v => exact answerSampled_total h.good.all
  | offer c => exact offerConclusion_total hb.exp
  | select =>
    obtain ⟨r, hr⟩ := selectPrimary_total (cfg := cfg) h.inv.valid
    exact ⟨_, by simp only [TaskOp.run, hr]; rfl⟩
  | usage msg now => exact ⟨_, rfl⟩
  | cleanup =>
    obtain ⟨r, hr⟩ := cleanupTasks_total (cfg := cfg) h.inv.valid
    exact ⟨_, by simp only [TaskOp.run, hr]; rfl⟩
  | rebuild =>
    obtain ⟨r, hr⟩ := rebuildLookup_total h.inv.valid
    exact ⟨_, by simp only [TaskOp.run, hr]; rfl⟩
  | forget n =>
    obtain ⟨m, hm⟩ := Props.C16_limit_total st.sh.mem n (by
      intro c hc b hb
      obtain ⟨e, he⟩ := ((h.good.all.2.1 c hc).1 b hb).exp
      exact ⟨e, (expOf_iff b e).1 he⟩)
    exact ⟨_, by simp only [TaskOp.run, hm]; rfl⟩
  | flush => exact ⟨_, rfl⟩
  | newStampId => exact ⟨_, rfl⟩
  | procMem m => exact ⟨_, rfl⟩

theorem saneJudgement_good {s : Sentence} (h : SaneJudgement s) : Good s := by
  obtain ⟨h1, tv, h2, h3⟩ := h
  exact ⟨h1, ⟨tv, h2, h3.2⟩, h3.1⟩

theorem RaceOp.Sane.brings {op : RaceOp} (h : op.Sane) : op.Brings Good HasExp := by
  cases op with
  | begin k s cc mc now => exact fun hp => saneJudgement_good (h hp)
  | next k => trivial
  | other op =>
    cases op with
    | add s cc mc now => exact fun hp => saneJudgement_good (h hp)
    | offer c => exact saneJudgement_good h
    | procMem m =>
      intro c hc
      refine ⟨fun b hb => ?_, fun b hb => ?_⟩
      · obtain ⟨e, he⟩ := (h c hc).1 b hb
        exact ⟨e, (expOf_iff b e).2 he⟩
      · obtain ⟨e, he⟩ := (h c hc).2 b hb
        exact ⟨e, (expOf_iff b e).2 he⟩
    | _ => trivial

theorem RaceOk.run {cfg : Cfg} {st : Race} (h : RaceOk cfg st) {op : RaceOp} (hs : op.Sane) :
    ∃ st', op.run cfg st = .ok st' ∧ RaceOk cfg st' := by
  have : ∃ st', op.run cfg st = .ok st' := by
    cases op with
    | begin k s cc mc now => obtain ⟨st', h', _⟩ := h.begin (k := k) (cc := cc) (mc := mc) (now := now) hs.brings; exact ⟨st', h'⟩
    | next k => obtain ⟨st', h', _⟩ := h.next k; exact ⟨st', h'⟩
    | other op =>
      obtain ⟨r, hr⟩ := h.other (op := op) hs.brings
      exact ⟨_, by simp only [RaceOp.run, hr, bind, Except.bind]; rfl⟩
  obtain ⟨st', h'⟩ := this
  exact ⟨st', h', h.inv.run h', h.good.run good_closed good_punct hs.brings h'⟩

theorem runRace_ok {cfg : Cfg} {ops : List RaceOp} (hs : ∀ op ∈ ops, op.Sane) : ∃ st, runRace cfg ops = .ok st ∧ RaceOk cfg st := by
  refine foldlM_total (RaceOk cfg) ops (fun op hop st h => h.run (hs op hop)) _ ⟨RaceInv.start cfg, ?_⟩
  have := DInv.init cfg
  exact ⟨this.good, fun k a ha => by simp at ha⟩

end Nar
