import Verif.Lemmas.Attention2
import Verif.Lemmas.Programs2
/-! # Lemmas about whose turn it is -/
namespace Nar
open Term

/-! ## the factor of tasks -/

/-- no task has a factor above one -/
def MulOk (sh : Shared) : Prop := ∀ t ∈ sh.heap, t.mulCredit ≤ 1

theorem payCredit_mul {cc : Bool} {t t' : Task} (h : payCredit cc t = .ok t') : t'.mulCredit = t.mulCredit ∧ t'.derivTime = t.derivTime ∧
    t'.sentence = t.sentence := by
  unfold payCredit at h
  split at h
  · rw [(divCredit_eq h).1]; exact ⟨rfl, rfl, rfl⟩
  · cases h; exact ⟨rfl, rfl, rfl⟩

theorem addTasks_mul {cc : Bool} {mc : Rat} {ss : List Sentence} {sh sh' : Shared} (h : addTasks sh cc mc ss = .ok sh') (hm : mc ≤ 1)
    (hc : MulOk sh) : MulOk sh' := by
  induction ss generalizing sh with
  | nil => cases h; exact hc
  | cons s ss ih =>
    unfold addTasks at h
    cases hp : s.punct with
    | JUGEMENT =>
      rw [hp] at h
      simp only [R.bind_ok] at h
      obtain ⟨tasks, ht, h⟩ := h
      split at h
      · cases h; exact hc
      · rw [R.bind_ok] at h
        obtain ⟨task, htask, h⟩ := h
        refine ih h ?_
        intro t ht
        rcases List.mem_append.1 ht with ht | ht
        · exact hc t ht
        · rw [List.mem_singleton.1 ht, (payCredit_mul htask).1]; exact hm
    | QUESTION => rw [hp] at h; exact ih h hc
    | GOAL => rw [hp] at h; exact ih h hc

theorem memAddTask_mul {cfg : Cfg} {sh sh' : Shared} {s : Sentence} {cc : Bool} {mc : Rat} {now : Int}
    (h : memAddTask cfg sh s cc mc now = .ok sh') (hm : mc ≤ 1) (hc : MulOk sh) : MulOk sh' := by
  rcases memAddTask_cases h with ⟨_, rfl⟩ | ⟨_, mem, rev, _, h2⟩
  · exact hc
  · exact addTasks_mul h2 hm hc

theorem modify_mul {sh : Shared} {r : Nat} {f : Task → Task} (hf : ∀ t, (f t).mulCredit = t.mulCredit) (hc : MulOk sh) :
    MulOk (sh.modifyTask r f) := by
  intro t ht
  rcases mem_modify ht with ht | ⟨a, ha, rfl⟩
  · exact hc t ht
  · rw [hf]; exact hc a (List.mem_of_getElem? ha)

theorem foldl_modify_mul (l : List Nat) {f : Task → Task} (hf : ∀ t, (f t).mulCredit = t.mulCredit) {sh : Shared} (hc : MulOk sh) :
    MulOk (l.foldl (fun sh r => sh.modifyTask r f) sh) := by
  induction l generalizing sh with
  | nil => exact hc
  | cons r l ih => exact ih (modify_mul hf hc)

theorem creditQuestions_mul {sh : Shared} (hc : MulOk sh) : MulOk (creditQuestions sh) := by
  have key : ∀ (q : Task2) (sh : Shared), MulOk sh → MulOk (creditQuestion sh q) := by
    intro q
    unfold creditQuestion
    generalize retSubterms q.sentence.term = l
    induction l with
    | nil => exact fun _ h => h
    | cons x l ih =>
      intro sh h
      rw [List.foldl_cons]
      refine ih _ ?_
      split
      · exact foldl_modify_mul _ (by intro t; rfl) h
      · exact h
  unfold creditQuestions
  generalize sh.questionTasks = qs
  induction qs generalizing sh with
  | nil => exact hc
  | cons q qs ih => exact ih (key q _ hc)

theorem baseCredit_mul {sh sh' : Shared} (h : baseCredit sh = .ok sh') (hc : MulOk sh) : MulOk sh' := by
  unfold baseCredit at h
  refine foldlM_inv MulOk h (foldl_modify_mul _ (by intro t; rfl) hc) ?_
  intro r _ a b ha hstep
  obtain ⟨t, ht, hstep⟩ := R.bind_ok.1 hstep
  obtain ⟨t', ht', hstep⟩ := R.bind_ok.1 hstep
  cases hstep
  intro u hu
  rcases mem_modify hu with hu | ⟨w, hw, rfl⟩
  · exact ha u hu
  · rw [(divCredit_eq ht').1]
    exact ha t (List.mem_of_getElem? (indexAt_ok.1 ht))

theorem reasonCycle_mul {cfg : Cfg} {v : Rat} {now : Int} {sh sh' : Shared} {msg : Option Msg} {calls : List AnswerCall}
    (h : reasonCycle cfg v now sh = .ok (sh', msg, calls)) (hc : MulOk sh) : MulOk sh' := by
  have hm := reasonCycle_more [] h
  refine (foldlM_inv (fun st : Shared × List AnswerCall => MulOk st.1) hm hc ?_ : MulOk (sh', [] ++ calls).1)
  rintro op hop ⟨a, log⟩ b ha hstep
  obtain ⟨⟨a', calls⟩, h3, h4⟩ := R.bind_ok.1 hstep
  cases h4
  have hquiet := cycleOps_quiet op hop
  cases op with
  | add s cc mc now => exact absurd rfl (hquiet s cc mc now)
  | tick => cases h3; exact ha
  | creditQuestions => cases h3; exact creditQuestions_mul ha
  | baseCredit => obtain ⟨x, h1, h2⟩ := R.map_ok.1 h3; cases h2; exact baseCredit_mul h1 ha
  | answer v => obtain ⟨qs, hq⟩ := answerSampled_frame h3; simp only at hq; rw [hq]; exact ha
  | offer c => obtain ⟨qs, hq⟩ := offerConclusion_frame h3; simp only at hq; rw [hq]; exact ha
  | select =>
    obtain ⟨r', h1, h2⟩ := R.map_ok.1 h3
    cases h2
    rcases selectPrimary_cases h1 with ⟨e, he⟩ | ⟨tasks, p, _, hp, he⟩ <;> rw [he] <;> exact ha
  | usage msg now =>
    cases h3
    refine updateUsage_inv MulOk msg now ha ?_
    intro x r hx
    rcases useTask_cases now x r with ⟨_, h⟩ | ⟨task, _, h⟩
    · rw [h]; exact hx
    · rw [h]
      intro t ht
      obtain ⟨u, hu, rfl⟩ := List.mem_map.1 ht
      exact hx u hu
  | cleanup =>
    obtain ⟨x, h1, h2⟩ := R.map_ok.1 h3
    cases h2
    obtain ⟨sorted, _, _, _, rfl⟩ := cleanupTasks_spec h1
    exact ha
  | rebuild =>
    obtain ⟨x, h1, h2⟩ := R.map_ok.1 h3
    cases h2
    unfold MulOk
    simp only
    rw [(rebuildLookup_frame h1).2]; exact ha
  | forget n => obtain ⟨m, h1, h2⟩ := R.map_ok.1 h3; cases h2; exact ha
  | flush => cases h3; exact ha
  | newStampId => cases h3; exact ha
  | procMem m => cases h3; exact ha

theorem work_mul {cfg : Cfg} {sh sh' : Shared} {m : Msg} {calls : List AnswerCall} (h : Nar.work cfg sh m = .ok (sh', calls))
    (hcr : CreditOk sh) (hc : MulOk sh) : MulOk sh' := by
  unfold Nar.work at h
  obtain ⟨concl, a1, h⟩ := R.bind_ok.1 h
  obtain ⟨p, a2, h⟩ := R.bind_ok.1 h
  obtain ⟨⟨sh2, c2⟩, a3, h⟩ := R.bind_ok.1 h
  obtain ⟨sh3, a4, h⟩ := R.bind_ok.1 h
  obtain ⟨rfl, _⟩ := Prod.mk.inj (Except.ok.inj h)
  obtain ⟨qs, hq⟩ := offerAll_outer a3
  have hp := List.mem_of_getElem? (indexAt_ok.1 a2)
  refine foldlM_inv MulOk a4 (by rw [hq]; exact hc) ?_
  intro c hcm a b ha hb
  refine memAddTask_mul hb ?_ ha
  obtain ⟨w0, w1⟩ := workConclusions_weight a1 hcm
  have := hc p hp
  have := (hcr.1 p hp).2.2
  nlinarith

theorem mul_kept (env : Env) : DKept env MulOk where
  add := fun _ _ hc h => memAddTask_mul h (le_refl _) hc
  cycle := fun _ _ hc h => reasonCycle_mul h hc
  work := fun _ _ hcr hc h => work_mul h hcr hc
  flush := fun h => h
  newId := fun h => h
  procMem := fun _ h => h

theorem runNar_mul {env : Env} {ops : List NarOp} {r : Reasoner} (h : runNar env ops = .ok r) : MulOk r.sh :=
  runNar_kept (mul_kept env) (fun t ht => by cases ht) h

/-! ## what was just told waits -/

theorem addTasks_prefix {cc : Bool} {mc : Rat} {ss : List Sentence} {sh sh' : Shared} (h : addTasks sh cc mc ss = .ok sh') :
    sh.heap <+: sh'.heap ∧ sh.judgementTasks <+: sh'.judgementTasks ∧ sh'.cycleCounter = sh.cycleCounter := by
  induction ss generalizing sh with
  | nil => cases h; exact ⟨List.prefix_refl _, List.prefix_refl _, rfl⟩
  | cons s ss ih =>
    unfold addTasks at h
    cases hp : s.punct with
    | JUGEMENT =>
      rw [hp] at h
      simp only [R.bind_ok] at h
      obtain ⟨tasks, ht, h⟩ := h
      split at h
      · cases h; exact ⟨List.prefix_refl _, List.prefix_refl _, rfl⟩
      · rw [R.bind_ok] at h
        obtain ⟨task, htask, h⟩ := h
        obtain ⟨k1, k2, k3⟩ := ih h
        exact ⟨(List.prefix_append _ _).trans k1, (List.prefix_append _ _).trans k2, k3⟩
    | QUESTION => rw [hp] at h; have := ih h; exact this
    | GOAL => rw [hp] at h; have := ih h; exact this

theorem addTasks_fresh {cc : Bool} {mc : Rat} {s : Sentence} {ss : List Sentence} {sh sh' : Shared}
    (h : addTasks sh cc mc (s :: ss) = .ok sh') (hj : s.punct = .JUGEMENT) (hn : ∀ t ∈ sh.heap, t.sentence.stamp ≠ s.stamp) :
    ∃ i ∈ sh'.judgementTasks, ∃ u, sh'.heap[i]? = some u ∧ u.sentence.term = s.term ∧ u.derivTime = sh'.cycleCounter ∧ u.mulCredit = mc := by
  unfold addTasks at h
  rw [hj] at h
  simp only [R.bind_ok] at h
  obtain ⟨tasks, g1, h⟩ := h
  split at h
  · rename_i hex
    exfalso
    unfold taskExists at hex
    obtain ⟨t, htm, hb⟩ := List.any_eq_true.1 hex
    rw [Bool.and_eq_true, Stamp.checkSame_iff] at hb
    obtain ⟨a, _, ha⟩ := forall₂_right_mem (derefs_iff.1 g1) htm
    exact hn t (List.mem_of_getElem? ha) hb.2.symm
  · rw [R.bind_ok] at h
    obtain ⟨task, htask, h⟩ := h
    obtain ⟨k1, k2, k3⟩ := addTasks_prefix h
    obtain ⟨p1, p2, p3⟩ := payCredit_mul htask
    refine ⟨sh.heap.length, k2.subset (by simp), task, ?_, by rw [p3]; rfl, by rw [p2]; exact k3.symm, p1⟩
    obtain ⟨rest, hrest⟩ := k1
    rw [← hrest]
    simp

theorem told_waits {env : Env} {ops : List NarOp} {r r' : Reasoner} {term : Term} {tv : Tv} {rng : List Nat} (hr : runNar env ops = .ok r)
    (h : inputT2 env r term .JUGEMENT tv false rng = .ok r') (ht : ¬ IsTemporal term) (hc : calcComplexity term ≤ 64) :
    ∃ i ∈ r'.sh.judgementTasks, ∃ u, r'.sh.heap[i]? = some u ∧ u.sentence.term = term ∧ u.derivTime = r'.sh.cycleCounter ∧ u.mulCredit = 1 := by
  have hst := (runNar_stamps hr).all.1
  have hlim := (runNar_WDecl hr).complexity
  unfold inputT2 at h
  obtain ⟨_, _, h⟩ := R.bind_ok.1 h
  simp only [Bool.false_eq_true, if_false] at h
  unfold inputEternalT at h
  rw [if_neg (by rw [← isTemporal_iff] at ht; exact ht)] at h
  obtain ⟨sh, hs, h⟩ := R.bind_ok.1 h
  cases h
  rcases memAddTask_cases hs with ⟨hgt, _⟩ | ⟨_, mem, rev, _, h2⟩
  · exfalso
    have : (calcComplexity term : Int) > r.maxComplexity := hgt
    rw [hlim] at this; omega
  · refine addTasks_fresh h2 rfl ?_
    intro t ht he
    have := (hst t ht).2.2.2 r.sh.stampIdCounter (by rw [he]; simp [newEternalSentenceByTv])
    omega

theorem ownCredit_older {c : Nat} (hc : 2 ≤ c) {k l : Nat} (h : k ≤ l) : ownCredit c l ≤ ownCredit c k := by
  have hc' : (2 : Rat) ≤ c := by exact_mod_cast hc
  have h0 : (0 : Rat) < c := by linarith
  have step : ∀ k, ownCredit c (k + 1) ≤ ownCredit c k := by
    intro k
    induction k with
    | zero =>
      have h2 : (1 : Rat) / c ≤ 1 / 2 := one_div_le_one_div_of_le (by norm_num) hc'
      exact div_le_div_of_nonneg_right (by show (1 : Rat) / c + 1/2 ≤ 1; linarith) h0.le
    | succ k ih => exact div_le_div_of_nonneg_right (by linarith) h0.le
  induction h with
  | refl => exact le_refl _
  | step _ ih => exact (step _).trans ih

/-! ## talking without asking -/

/-- a statement is told, or there is a cycle, or the worker does a round -/
def Calm (op : NarOp) : Prop := ∃ s tv, op = .tell s .JUGEMENT tv false [] ∨ (∃ v, op = .cycle v) ∨ op = .declWork

theorem moreNar_calm {env : Env} {ops : List NarOp} {log : List AnswerCall} {r r' : Reasoner} (h : moreNar env r ops = .ok r')
    (hp : ∀ op ∈ ops, Calm op) (h0 : Quiet log r) : Quiet log r' := by
  unfold moreNar at h
  refine foldlM_inv (Quiet log) h h0 ?_
  intro op hop a b ha hs
  obtain ⟨s, tv, rfl | ⟨v, rfl⟩ | rfl⟩ := hp op hop
  · exact inputT2_quiet hs (by simp) ha
  · exact cycle_quiet hs ha
  · cases hs; exact declWork_quiet ha

end Nar
