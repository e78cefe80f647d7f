import Verif.Lemmas.Task3
/-! # A property of sentences kept by everything the declarative reasoner does -/
namespace Nar
open Term

/-- the property passes from premises to whatever the reasoner makes of them -/
structure SentClosed (P : Sentence → Prop) : Prop where
  pool : ∀ cell b s r, P b → P s → SameStatement b s → ¬ SharesEvidence b s → revisedBelief cell b s = .ok r → P r
  used : ∀ s u, P s → P { s with usage := u }
  two : ∀ p s c w, P p → P s → Follows p s c w → P c
  alone : ∀ p c w, P p → FollowsAlone p c w → P c

/-- all beliefs of a memory have the property -/
def MemP (P : Sentence → Prop) (m : Mem) : Prop :=
  ∀ c ∈ m, (∀ b ∈ c.beliefsByExp, P b) ∧ ∀ b ∈ c.beliefsByUsage, P b

/-- all sentences of the declarative reasoner have the property `P`, those of the linked procedural memory have `Q` -/
def AllP (P Q : Sentence → Prop) (sh : Shared) : Prop :=
  (∀ t ∈ sh.heap, P t.sentence) ∧ MemP P sh.mem ∧ MemP Q sh.procMem

/-- an answer has the property `P`, or it answers a temporal question and has the property `Q` -/
def AnsP (P Q : Sentence → Prop) (c : AnswerCall) : Prop := P c.answer ∨ (IsTemporal c.question ∧ Q c.answer)

theorem MemP.mono {P Q : Sentence → Prop} (h : ∀ s, P s → Q s) {m : Mem} (hm : MemP P m) : MemP Q m :=
  fun c hc => ⟨fun b hb => h b ((hm c hc).1 b hb), fun b hb => h b ((hm c hc).2 b hb)⟩

theorem AllP.mono {P P' Q : Sentence → Prop} (h : ∀ s, P s → P' s) {sh : Shared} (hm : AllP P Q sh) : AllP P' Q sh :=
  ⟨fun t ht => h _ (hm.1 t ht), hm.2.1.mono h, hm.2.2⟩

theorem UsageOnly.memP {P : Sentence → Prop} (hP : SentClosed P) {m m' : Mem} (h : UsageOnly m m') (hm : MemP P m) :
    MemP P m' := by
  obtain ⟨g, rfl⟩ := h
  intro c hc
  obtain ⟨d, hd, rfl⟩ := List.mem_map.1 hc
  have key : ∀ (l : List Sentence) (f : Nat → Sentence → Usage), (∀ b ∈ l, P b) →
      ∀ b ∈ l.mapIdx (fun i b => { b with usage := f i b }), P b := by
    intro l f hl b hb
    obtain ⟨i, hi, rfl⟩ := List.mem_mapIdx.1 hb
    exact hP.used _ _ (hl _ (List.getElem_mem _))
  exact ⟨key _ _ (hm d hd).1, key _ _ (hm d hd).2⟩

theorem MemP.under {P : Sentence → Prop} {m : Mem} (h : MemP P m) {t : Term} {b : Sentence}
    (hb : BeliefUnder m t b) : P b := by
  obtain ⟨c, hc, hb⟩ := hb
  rcases hb with hb | hb
  · exact (h c (Mem.get_some hc).1).1 b hb
  · exact (h c (Mem.get_some hc).1).2 b hb

theorem reviseTable_P {P : Sentence → Prop} (hP : SentClosed P) {cell : List Int} {table : List Sentence} {s : Sentence}
    {r : List Sentence × Option Sentence} (h : reviseTable cell table s = .ok r) (ht : ∀ b ∈ table, P b) (hs : P s) :
    (∀ b ∈ r.1, P b) ∧ ∀ x, r.2 = some x → P x := by
  rcases reviseTable_cases h with ⟨_, rfl⟩ | ⟨pre, b, post, add, rfl, hb, hn, _, hr, rfl⟩
  · exact ⟨ht, by simp⟩
  · have ha : P add := hP.pool _ b s add (ht b (by simp)) hs hb hn hr
    refine ⟨?_, by rintro x hx; cases hx; exact ha⟩
    intro x hx
    simp only [List.mem_append, List.mem_singleton] at hx
    rcases hx with (hx | hx) | rfl
    · exact ht x (by simp [hx])
    · exact ht x (by simp [hx])
    · exact ha

theorem memReviseBelief_P {P : Sentence → Prop} (hP : SentClosed P) {m : Mem} {s : Sentence}
    {st : Mem × Option Sentence} (h : memReviseBelief m s = .ok st) (hm : MemP P m)
    (hs : s.punct = .JUGEMENT → P s) : MemP P st.1 ∧ ∀ x, st.2 = some x → P x := by
  rcases memReviseBelief_cases h with ⟨_, rfl⟩ | ⟨hp, h⟩
  · exact ⟨hm, by simp⟩
  · refine foldlM_inv (fun st : Mem × Option Sentence => MemP P st.1 ∧ ∀ x, st.2 = some x → P x) h
      ⟨hm, by simp⟩ ?_
    intro t _ a b hab hstep
    rcases reviseAt_cases hstep with ⟨_, rfl⟩ | ⟨c, r1, r2, hg, g1, g2, rfl⟩
    · exact hab
    · have hc := hab.1 c (Mem.get_some hg).1
      have k1 := reviseTable_P hP g1 hc.1 (hs hp)
      have k2 := reviseTable_P hP g2 hc.2 (hs hp)
      refine ⟨?_, ?_⟩
      · intro d hd
        rcases Mem.mem_set hd with rfl | ⟨hd, _⟩
        · exact ⟨k1.1, k2.1⟩
        · exact hab.1 d hd
      · intro y hy
        simp only at hy
        cases e2 : r2.2 with
        | some z => rw [e2] at hy; simp at hy; subst hy; exact k2.2 _ e2
        | none =>
          rw [e2] at hy; simp only [Option.none_or] at hy
          cases e1 : r1.2 with
          | some z => rw [e1] at hy; simp at hy; subst hy; exact k1.2 _ e1
          | none => rw [e1] at hy; simp only [Option.none_or] at hy; exact hab.2 y hy

theorem storeAt_P {P : Sentence → Prop} {s : Sentence} {n : Nat} {now : Int} {m m' : Mem} {t : Term}
    (h : storeAt s n now m t = .ok m') (hm : MemP P m) (hs : P s) : MemP P m' := by
  refine storeAt_inv (fun e u => (∀ b ∈ e, P b) ∧ ∀ b ∈ u, P b) h hm ?_ ?_
  · constructor <;> (intro b hb; rw [List.mem_singleton] at hb; subst hb; exact hs)
  · intro c hc _ e u he hu
    constructor
    · intro b hb
      rcases storeTable_mem he b hb with h | rfl
      · exact (hm c hc).1 b h
      · exact hs
    · intro b hb
      rcases storeTable_mem hu b hb with h | rfl
      · exact (hm c hc).2 b h
      · exact hs

theorem storeInConcepts2_P {P : Sentence → Prop} {m m' : Mem} {s : Sentence} {sub : List Term} {n : Nat} {now : Int}
    (h : storeInConcepts2 m s sub n now = .ok m') (hm : MemP P m) (hs : s.punct = .JUGEMENT → P s) : MemP P m' := by
  rcases storeInConcepts2_cases h with ⟨_, rfl⟩ | ⟨hp, h⟩
  · exact hm
  · exact foldlM_inv (MemP P) h hm (fun t _ a b ha hb => storeAt_P hb ha (hs hp))

theorem addBelief_P {P : Sentence → Prop} (hP : SentClosed P) {m m' : Mem} {s : Sentence} {n : Nat} {now : Int}
    {r : Option Sentence} (h : addBelief m s n now = .ok (m', r)) (hm : MemP P m)
    (hs : s.punct = .JUGEMENT → P s) : MemP P m' ∧ ∀ x, r = some x → P x := by
  rcases addBelief_cases h with ⟨x, rfl, h1⟩ | ⟨rfl, m1, h1, h2⟩
  · exact memReviseBelief_P hP h1 hm hs
  · exact ⟨storeInConcepts2_P h2 (memReviseBelief_P hP h1 hm hs).1 hs, by simp⟩

theorem payCredit_sentence {cc : Bool} {t t' : Task} (h : payCredit cc t = .ok t') : t'.sentence = t.sentence := by
  unfold payCredit divCreditByComplexity at h
  split at h
  · split at h
    · cases h
    · cases h; rfl
  · cases h; rfl

theorem addTasks_P {P Q : Sentence → Prop} {cc : Bool} {mc : Rat} {ss : List Sentence} {sh sh' : Shared}
    (h : addTasks sh cc mc ss = .ok sh') (h0 : AllP P Q sh) (hs : ∀ s ∈ ss, s.punct = .JUGEMENT → P s) : AllP P Q sh' := by
  induction ss generalizing sh with
  | nil => cases h; exact h0
  | cons s ss ih =>
    have hs' : ∀ s ∈ ss, s.punct = .JUGEMENT → P s := fun x hx => hs x (List.mem_cons_of_mem _ hx)
    unfold addTasks at h
    cases hp : s.punct with
    | JUGEMENT =>
      rw [hp] at h
      simp only [R.bind_ok] at h
      obtain ⟨tasks, ht, h⟩ := h
      split at h
      · cases h; exact h0
      · rw [R.bind_ok] at h
        obtain ⟨task, htask, h⟩ := h
        refine ih h ⟨?_, h0.2⟩ hs'
        intro t ht
        rcases List.mem_append.1 ht with ht | ht
        · exact h0.1 t ht
        · simp at ht; subst ht
          rw [payCredit_sentence htask]
          exact hs s (by simp) hp
    | QUESTION => rw [hp] at h; exact ih h h0 hs'
    | GOAL => rw [hp] at h; exact ih h h0 hs'

theorem memAddTask_P {P Q : Sentence → Prop} (hP : SentClosed P) {cfg : Cfg} {sh sh' : Shared} {s : Sentence} {cc : Bool}
    {mc : Rat} {now : Int} (h : memAddTask cfg sh s cc mc now = .ok sh') (h0 : AllP P Q sh)
    (hs : s.punct = .JUGEMENT → P s) : AllP P Q sh' := by
  rcases memAddTask_cases h with ⟨_, rfl⟩ | ⟨_, mem, rev, h1, h2⟩
  · exact h0
  · obtain ⟨k1, k2⟩ := addBelief_P hP h1 h0.2.1 hs
    refine addTasks_P h2 ⟨h0.1, k1, h0.2.2⟩ ?_
    intro x hx hj
    rcases List.mem_cons.1 hx with rfl | hx
    · exact hs hj
    · rw [Option.mem_toList] at hx
      exact k2 x hx

theorem AllP.modify {P Q : Sentence → Prop} {sh : Shared} (h : AllP P Q sh) (r : Nat) (f : Task → Task)
    (hf : ∀ t, sh.heap[r]? = some t → P t.sentence → P (f t).sentence) : AllP P Q (sh.modifyTask r f) := by
  refine ⟨?_, h.2⟩
  intro t ht
  rcases mem_modify ht with ht | ⟨a, ha, rfl⟩
  · exact h.1 t ht
  · exact hf a ha (h.1 a (List.mem_of_getElem? ha))

theorem AllP.foldl {P Q : Sentence → Prop} {α} (f : Shared → α → Shared) (l : List α) {sh : Shared} (h : AllP P Q sh)
    (hf : ∀ sh a, AllP P Q sh → AllP P Q (f sh a)) : AllP P Q (l.foldl f sh) := by
  induction l generalizing sh with
  | nil => exact h
  | cons a l ih => exact ih (hf sh a h)

theorem creditQuestions_P {P Q : Sentence → Prop} {sh : Shared} (h : AllP P Q sh) : AllP P Q (creditQuestions sh) := by
  unfold creditQuestions
  refine AllP.foldl _ _ h ?_
  intro sh' q hok
  unfold creditQuestion
  refine AllP.foldl _ _ hok ?_
  intro sh' t hok
  split
  · refine AllP.foldl _ _ hok ?_
    intro sh' r hok
    exact hok.modify r _ (fun t _ ht => ht)
  · exact hok

theorem baseCredit_P {P Q : Sentence → Prop} {sh sh' : Shared} (h : baseCredit sh = .ok sh') (h0 : AllP P Q sh) : AllP P Q sh' := by
  unfold baseCredit at h
  refine foldlM_inv (AllP P Q) h ?_ ?_
  · refine AllP.foldl _ _ h0 ?_
    intro sh' r hok
    exact hok.modify r _ (fun t _ ht => ht)
  · intro r _ a b hok hstep
    rw [R.bind_ok] at hstep
    obtain ⟨t, ht, hstep⟩ := hstep
    rw [R.bind_ok] at hstep
    obtain ⟨t', ht', hstep⟩ := hstep
    cases hstep
    refine hok.modify r _ ?_
    intro u hu hu0
    rw [indexAt_ok] at ht
    rw [ht] at hu; cases hu
    have : payCredit true t = .ok t' := ht'
    rw [payCredit_sentence this]; exact hu0

/-- the action brings only sentences with the property -/
def TaskOp.Brings (P Q : Sentence → Prop) : TaskOp → Prop
  | .add s _ _ _ => s.punct = .JUGEMENT → P s
  | .offer c => P c
  | .procMem m => MemP Q m
  | _ => True

theorem TaskOp.run_P {P Q : Sentence → Prop} (hP : SentClosed P) {cfg : Cfg} {sh sh' : Shared} {op : TaskOp}
    {calls : List AnswerCall} (h : op.run cfg sh = .ok (sh', calls)) (h0 : AllP P Q sh) (hb : op.Brings P Q) :
    AllP P Q sh' ∧ ∀ c ∈ calls, AnsP P Q c := by
  cases op with
  | add s cc mc now =>
    obtain ⟨x, h1, h2⟩ := R.map_ok.1 h
    cases h2
    exact ⟨memAddTask_P hP h1 h0 hb, by simp⟩
  | tick => cases h; exact ⟨h0, by simp⟩
  | creditQuestions => cases h; exact ⟨creditQuestions_P h0, by simp⟩
  | baseCredit =>
    obtain ⟨x, h1, h2⟩ := R.map_ok.1 h
    cases h2; exact ⟨baseCredit_P h1 h0, by simp⟩
  | answer v =>
    simp only [TaskOp.run] at h
    unfold answerSampled at h
    split at h
    · simp only [R.bind_ok] at h
      obtain ⟨i, _, q, _, ⟨q', cs⟩, h1, h⟩ := h
      cases h
      refine ⟨h0, ?_⟩
      intro c hc
      obtain ⟨_, _, _, _, _, _, as, _, hs, _, _, _, j6⟩ := qaTryAll_spec h1
      have := hs.subset (j6 c hc).2
      rw [relevantBeliefs_iff] at this
      rcases this with ⟨hq, s, _, hu⟩ | ⟨_, s, _, hu⟩
      · exact .inr ⟨by rw [(j6 c hc).1]; exact hq, h0.2.2.under hu⟩
      · exact .inl (h0.2.1.under hu)
    · cases h; exact ⟨h0, by simp⟩
  | offer c =>
    simp only [TaskOp.run] at h
    unfold offerConclusion at h
    split at h
    · rw [R.bind_ok] at h
      obtain ⟨⟨qs, cs⟩, h1, h⟩ := h
      cases h
      refine ⟨h0, ?_⟩
      intro a ha
      obtain ⟨_, _, _, _, h5, _⟩ := (qaOffer_spec h1).2.2 a ha
      left; rw [h5]; exact hb
    · cases h; exact ⟨h0, by simp⟩
  | select =>
    obtain ⟨r', h1, h2⟩ := R.map_ok.1 h
    cases h2
    rcases selectPrimary_cases h1 with ⟨_, rfl⟩ | ⟨_, _, _, _, rfl⟩ <;> exact ⟨h0, by simp⟩
  | usage msg now =>
    cases h
    refine ⟨?_, by simp⟩
    refine updateUsage_inv (AllP P Q) msg now h0 ?_
    intro sh' r hok
    rcases useTask_cases now sh' r with ⟨_, e⟩ | ⟨task, _, e⟩
    · rw [e]; exact hok
    · rw [e]
      refine ⟨?_, (UsageOnly.useCell _ _ _).memP hP hok.2.1, hok.2.2⟩
      intro t ht
      obtain ⟨a, ha, rfl⟩ := List.mem_map.1 ht
      simp only
      rw [useCell_eq]; exact hP.used _ _ (hok.1 a ha)
  | cleanup =>
    obtain ⟨x, h1, h2⟩ := R.map_ok.1 h
    cases h2
    obtain ⟨_, _, _, _, rfl⟩ := cleanupTasks_spec h1
    exact ⟨h0, by simp⟩
  | rebuild =>
    obtain ⟨x, h1, h2⟩ := R.map_ok.1 h
    cases h2
    unfold rebuildLookup at h1
    rw [R.bind_ok] at h1
    obtain ⟨_, _, h1⟩ := h1
    cases h1; exact ⟨h0, by simp⟩
  | forget n =>
    obtain ⟨m, h1, h2⟩ := R.map_ok.1 h
    cases h2
    exact ⟨⟨h0.1, fun c hc => h0.2.1 c (limitMemory_mem h1 c hc), h0.2.2⟩, by simp⟩
  | flush => cases h; exact ⟨h0, by simp⟩
  | newStampId => cases h; exact ⟨h0, by simp⟩
  | procMem m => cases h; exact ⟨⟨h0.1, h0.2.1, hb⟩, by simp⟩

theorem moreTasks_P {P Q : Sentence → Prop} (hP : SentClosed P) {cfg : Cfg} {st st' : Shared × List AnswerCall}
    {ops : List TaskOp} (h : moreTasks cfg st ops = .ok st') (h0 : AllP P Q st.1) (hl : ∀ c ∈ st.2, AnsP P Q c)
    (hb : ∀ op ∈ ops, op.Brings P Q) : AllP P Q st'.1 ∧ ∀ c ∈ st'.2, AnsP P Q c := by
  refine foldlM_inv (fun st : Shared × List AnswerCall => AllP P Q st.1 ∧ ∀ c ∈ st.2, AnsP P Q c) h ⟨h0, hl⟩ ?_
  rintro op hop ⟨sh, log⟩ b ⟨h1, h2⟩ hstep
  obtain ⟨⟨sh', calls⟩, h3, h4⟩ := R.bind_ok.1 hstep
  cases h4
  obtain ⟨k1, k2⟩ := TaskOp.run_P hP h3 h1 (hb op hop)
  refine ⟨k1, ?_⟩
  intro c hc
  rcases List.mem_append.1 hc with hc | hc
  · exact h2 c hc
  · exact k2 c hc

theorem reasonCycle_P {P Q : Sentence → Prop} (hP : SentClosed P) {cfg : Cfg} {selVal : Rat} {now : Int}
    {sh sh' : Shared} {msg : Option Msg} {calls : List AnswerCall}
    (h : reasonCycle cfg selVal now sh = .ok (sh', msg, calls)) (h0 : AllP P Q sh) :
    AllP P Q sh' ∧ ∀ c ∈ calls, AnsP P Q c := by
  have := moreTasks_P hP (reasonCycle_more [] h) h0 (by simp) ?_
  · simpa using this
  · intro o ho
    simp only [cycleOps, maintenance] at ho
    split at ho <;> split at ho <;> cases msg <;> simp at ho <;>
      (try rcases ho with rfl | rfl | rfl | rfl | rfl | rfl | rfl | rfl | rfl) <;> simp_all [TaskOp.Brings]

theorem concludes_P {P Q : Sentence → Prop} (hP : SentClosed P) {sh : Shared} {msg : Msg} {c : Sentence} {w : Rat}
    (h : Concludes sh msg c w) (h0 : AllP P Q sh) : P c := by
  obtain ⟨p, hp, h | ⟨r, _, s, hs, h⟩ | ⟨b, hb, h⟩⟩ := h
  · exact hP.alone _ _ _ (h0.1 p (List.mem_of_getElem? hp)) h
  · exact hP.two _ _ _ _ (h0.1 p (List.mem_of_getElem? hp)) (h0.1 s (List.mem_of_getElem? hs)) h
  · exact hP.two _ _ _ _ (h0.1 p (List.mem_of_getElem? hp)) (h0.2.1.under hb) h

theorem workConclusions_P {P Q : Sentence → Prop} (hP : SentClosed P) {sh : Shared} {msg : Msg} {concl : List (Sentence × Rat)}
    (h : workConclusions sh msg = .ok concl) {c : Sentence × Rat} (hc : c ∈ concl) (h0 : AllP P Q sh) : P c.1 := by
  obtain ⟨c0, u, h1, e⟩ := workConclusions_mem h hc
  rw [e]
  exact hP.used _ _ (concludes_P hP h1 h0)

theorem work_P {P Q : Sentence → Prop} (hP : SentClosed P) {cfg : Cfg} {sh sh' : Shared} {msg : Msg}
    {calls : List AnswerCall} (h : work cfg sh msg = .ok (sh', calls)) (h0 : AllP P Q sh) :
    AllP P Q sh' ∧ ∀ c ∈ calls, AnsP P Q c := by
  obtain ⟨concl, p, hc, hp, hm⟩ := work_more [] h
  have := moreTasks_P hP hm h0 (by simp) ?_
  · simpa using this
  · intro o ho
    simp only [workOps, List.mem_append, List.mem_map] at ho
    rcases ho with ⟨c, hcm, rfl⟩ | ⟨c, hcm, rfl⟩
    · exact workConclusions_P hP hc hcm h0
    · exact fun _ => workConclusions_P hP hc hcm h0

/-! ## the counter of evidence ids and the link to procedural memory -/

/-- the counter of evidence ids, the time and the link to procedural memory -/
def Shared.outer3 (sh : Shared) : Int × Mem × Int := (sh.stampIdCounter, sh.procMem, sh.cycleCounter)

theorem addTasks_outer3 {cc : Bool} {mc : Rat} {ss : List Sentence} {sh sh' : Shared}
    (h : addTasks sh cc mc ss = .ok sh') : sh'.outer3 = sh.outer3 := by
  induction ss generalizing sh with
  | nil => cases h; rfl
  | cons s ss ih =>
    unfold addTasks at h
    cases hp : s.punct with
    | JUGEMENT =>
      rw [hp] at h
      simp only [R.bind_ok] at h
      obtain ⟨tasks, ht, h⟩ := h
      split at h
      · cases h; rfl
      · rw [R.bind_ok] at h
        obtain ⟨task, htask, h⟩ := h
        exact (ih h).trans rfl
    | QUESTION => rw [hp] at h; exact (ih h).trans rfl
    | GOAL => rw [hp] at h; exact ih h

theorem memAddTask_outer3 {cfg : Cfg} {sh sh' : Shared} {s : Sentence} {cc : Bool}
    {mc : Rat} {now : Int} (h : memAddTask cfg sh s cc mc now = .ok sh') : sh'.outer3 = sh.outer3 := by
  rcases memAddTask_cases h with ⟨_, rfl⟩ | ⟨_, mem, rev, h1, h2⟩
  · rfl
  · exact (addTasks_outer3 h2).trans rfl

theorem foldl_outer3 {α} (f : Shared → α → Shared) (hf : ∀ sh a, (f sh a).outer3 = sh.outer3) (l : List α) (sh : Shared) :
    (l.foldl f sh).outer3 = sh.outer3 := by
  induction l generalizing sh with
  | nil => rfl
  | cons a l ih => rw [List.foldl_cons, ih, hf]

/-- the action concerns neither evidence ids nor the link to procedural memory nor the time -/
def TaskOp.Still : TaskOp → Prop
  | .newStampId => False
  | .tick => False
  | .procMem _ => False
  | _ => True

theorem TaskOp.run_outer3 {cfg : Cfg} {sh sh' : Shared} {op : TaskOp} {calls : List AnswerCall}
    (h : op.run cfg sh = .ok (sh', calls)) (hi : op.Still) : sh'.outer3 = sh.outer3 := by
  cases op with
  | add s cc mc now =>
    obtain ⟨x, h1, h2⟩ := R.map_ok.1 h
    cases h2
    exact memAddTask_outer3 h1
  | tick => exact hi.elim
  | creditQuestions =>
    cases h
    unfold Nar.creditQuestions
    refine foldl_outer3 _ ?_ _ _
    intro sh q
    unfold creditQuestion
    refine foldl_outer3 _ ?_ _ _
    intro sh t
    split
    · refine foldl_outer3 _ ?_ _ _; intro _ _; rfl
    · rfl
  | baseCredit =>
    obtain ⟨x, h1, h2⟩ := R.map_ok.1 h
    cases h2
    unfold Nar.baseCredit at h1
    refine foldlM_inv (fun s => s.outer3 = sh.outer3) h1 ?_ ?_
    · refine foldl_outer3 _ ?_ _ _; intro _ _; rfl
    · intro r _ a b hab hstep
      obtain ⟨t, _, hstep⟩ := R.bind_ok.1 hstep
      obtain ⟨t', _, hstep⟩ := R.bind_ok.1 hstep
      cases hstep; exact hab
  | answer v => obtain ⟨qs, hq⟩ := answerSampled_frame h; simp only at hq; rw [hq]; rfl
  | offer c => obtain ⟨qs, hq⟩ := offerConclusion_frame h; simp only at hq; rw [hq]; rfl
  | select =>
    obtain ⟨r', h1, h2⟩ := R.map_ok.1 h
    cases h2
    rcases selectPrimary_cases h1 with ⟨_, rfl⟩ | ⟨_, _, _, _, rfl⟩ <;> rfl
  | usage msg now =>
    cases h
    refine updateUsage_inv (fun x => x.outer3 = sh.outer3) msg now rfl ?_
    intro a r h
    rcases useTask_cases now a r with ⟨_, e⟩ | ⟨task, _, e⟩ <;> rw [e] <;> exact h
  | cleanup =>
    obtain ⟨x, h1, h2⟩ := R.map_ok.1 h
    cases h2
    obtain ⟨_, _, _, _, rfl⟩ := cleanupTasks_spec h1
    rfl
  | rebuild =>
    obtain ⟨x, h1, h2⟩ := R.map_ok.1 h
    cases h2
    unfold rebuildLookup at h1
    rw [R.bind_ok] at h1
    obtain ⟨_, _, h1⟩ := h1
    cases h1; rfl
  | forget n => obtain ⟨m, h1, h2⟩ := R.map_ok.1 h; cases h2; rfl
  | flush => cases h; rfl
  | newStampId => exact hi.elim
  | procMem m => exact hi.elim

theorem moreTasks_outer3 {cfg : Cfg} {st st' : Shared × List AnswerCall} {ops : List TaskOp}
    (h : moreTasks cfg st ops = .ok st') (hi : ∀ op ∈ ops, op.Still) : st'.1.outer3 = st.1.outer3 := by
  refine foldlM_inv (fun s : Shared × List AnswerCall => s.1.outer3 = st.1.outer3) h rfl ?_
  rintro op hop ⟨sh, log⟩ b h1 hstep
  obtain ⟨⟨sh', calls⟩, h3, h4⟩ := R.bind_ok.1 hstep
  cases h4
  exact (TaskOp.run_outer3 h3 (hi op hop)).trans h1

/-- evidence ids and the link to procedural memory -/
def Shared.outer (sh : Shared) : Int × Mem := (sh.stampIdCounter, sh.procMem)

theorem outer_of_outer3 {a b : Shared} (h : a.outer3 = b.outer3) : a.outer = b.outer ∧ a.cycleCounter = b.cycleCounter := by
  obtain ⟨h1, h2⟩ := Prod.mk.inj h
  obtain ⟨h2, h3⟩ := Prod.mk.inj h2
  exact ⟨by unfold Shared.outer; rw [h1, h2], h3⟩

theorem memAddTask_outer {cfg : Cfg} {sh sh' : Shared} {s : Sentence} {cc : Bool}
    {mc : Rat} {now : Int} (h : memAddTask cfg sh s cc mc now = .ok sh') : sh'.outer = sh.outer :=
  (outer_of_outer3 (memAddTask_outer3 h)).1

theorem reasonCycle_more3 {cfg : Cfg} {selVal : Rat} {now : Int} {sh sh' : Shared} {msg : Option Msg}
    {calls : List AnswerCall} (h : reasonCycle cfg selVal now sh = .ok (sh', msg, calls)) :
    sh'.outer3 = Shared.outer3 { sh with cycleCounter := sh.cycleCounter + 1 } := by
  have hm := reasonCycle_more [] h
  unfold moreTasks cycleOps at hm
  rw [List.cons_append, List.cons_append, List.foldlM_cons] at hm
  obtain ⟨⟨sh1, c1⟩, h1, hm⟩ := R.bind_ok.1 hm
  obtain ⟨⟨sh2, c2⟩, h2, h1⟩ := R.bind_ok.1 h1
  cases h2
  cases h1
  refine (moreTasks_outer3 hm ?_).trans rfl
  intro o ho
  simp only [maintenance] at ho
  split at ho <;> split at ho <;> cases msg <;> simp at ho <;>
    (try rcases ho with rfl | rfl | rfl | rfl | rfl | rfl | rfl | rfl) <;> simp_all [TaskOp.Still]

theorem reasonCycle_outer {cfg : Cfg} {selVal : Rat} {now : Int} {sh sh' : Shared} {msg : Option Msg}
    {calls : List AnswerCall} (h : reasonCycle cfg selVal now sh = .ok (sh', msg, calls)) : sh'.outer = sh.outer :=
  ((outer_of_outer3 (reasonCycle_more3 h)).1).trans rfl

theorem reasonCycle_time {cfg : Cfg} {selVal : Rat} {now : Int} {sh sh' : Shared} {msg : Option Msg}
    {calls : List AnswerCall} (h : reasonCycle cfg selVal now sh = .ok (sh', msg, calls)) :
    sh'.cycleCounter = sh.cycleCounter + 1 := (outer_of_outer3 (reasonCycle_more3 h)).2

theorem work_outer3 {cfg : Cfg} {sh sh' : Shared} {msg : Msg} {calls : List AnswerCall}
    (h : work cfg sh msg = .ok (sh', calls)) : sh'.outer3 = sh.outer3 := by
  obtain ⟨concl, p, hc, hp, hm⟩ := work_more [] h
  refine moreTasks_outer3 hm ?_
  intro o ho
  simp only [workOps, List.mem_append, List.mem_map] at ho
  rcases ho with ⟨c, hcm, rfl⟩ | ⟨c, hcm, rfl⟩ <;> trivial

theorem work_outer {cfg : Cfg} {sh sh' : Shared} {msg : Msg} {calls : List AnswerCall}
    (h : work cfg sh msg = .ok (sh', calls)) : sh'.outer = sh.outer := (outer_of_outer3 (work_outer3 h)).1

end Nar
