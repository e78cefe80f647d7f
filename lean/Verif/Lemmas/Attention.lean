import Verif.Spec.Attention
import Verif.Lemmas.Thinks2
import Verif.Lemmas.Best3
/-! # Helper lemmas: how credit changes -/
namespace Nar
open Term

/-! ## how often a task is found under a term -/

def refCount (m : List (Term × List Nat)) (x : Term) (i : Nat) : Nat := ((lookupRefs m x).getD []).count i

theorem pushRef_count (m : List (Term × List Nat)) (t x : Term) (r i : Nat) :
    refCount (pushRef m t r) x i = refCount m x i + if x = t ∧ i = r then 1 else 0 := by
  unfold refCount
  rw [lookupRefs_pushRef]
  by_cases h : x = t
  · subst h
    rw [if_pos rfl, Option.getD_some, List.count_append]
    by_cases hi : i = r
    · subst hi; simp
    · simp [hi, List.count_singleton, Ne.symm hi]
  · simp [h]

theorem populate_count (m : List (Term × List Nat)) (term x : Term) (r i : Nat) :
    refCount (populateTaskByTermLookup m term r) x i = refCount m x i + if i = r then (retSubterms term).count x else 0 := by
  unfold populateTaskByTermLookup
  generalize retSubterms term = l
  induction l generalizing m with
  | nil => simp
  | cons t l ih =>
    rw [List.foldl_cons, ih, pushRef_count, List.count_cons]
    by_cases hi : i = r
    · by_cases hx : x = t
      · subst hx; simp [hi]; omega
      · simp [hi, hx, Ne.symm hx]
    · simp [hi]

/-- working tasks are found under each sub-term as often as it occurs in them -/
def RefsCounted (sh : Shared) : Prop :=
  ∀ i ∈ sh.judgementTasks, ∀ t, sh.heap[i]? = some t → ∀ x, refCount sh.judgementTasksByTerm x i = (retSubterms t.sentence.term).count x

theorem RefsCounted.of_core {sh sh' : Shared} (h : RefsCounted sh) (hh : sh'.heap.map Task.core = sh.heap.map Task.core)
    (hj : ∀ i ∈ sh'.judgementTasks, i ∈ sh.judgementTasks) (hb : sh'.judgementTasksByTerm = sh.judgementTasksByTerm) : RefsCounted sh' := by
  intro i hi t ht x
  have h1 : (sh'.heap.map Task.core)[i]? = some t.core := by rw [List.getElem?_map, ht]; rfl
  rw [hh, List.getElem?_map, Option.map_eq_some_iff] at h1
  obtain ⟨u, hu, hc⟩ := h1
  rw [hb, h i (hj i hi) u hu x, (core_eq_iff.1 hc).2.1]

theorem refCount_fresh {cfg : Cfg} {sh : Shared} (hi : Inv cfg sh) (x : Term) {i : Nat} (h : sh.heap.length ≤ i) :
    refCount sh.judgementTasksByTerm x i = 0 := by
  unfold refCount
  rw [List.count_eq_zero]
  intro hm
  cases hl : lookupRefs sh.judgementTasksByTerm x with
  | none => rw [hl] at hm; cases hm
  | some refs =>
    rw [hl] at hm
    obtain ⟨t, ht, _⟩ := hi.lookup.1 x refs hl i hm
    rw [List.getElem?_eq_none h] at ht; cases ht

theorem addTasks_counted {cfg : Cfg} {cc : Bool} {mc : Rat} {ss : List Sentence} {sh sh' : Shared} (h : addTasks sh cc mc ss = .ok sh')
    (hi : Inv cfg sh) (hcx : ∀ s ∈ ss, (calcComplexity s.term : Int) ≤ cfg.maxComplexity) (hc : RefsCounted sh) : RefsCounted sh' := by
  induction ss generalizing sh with
  | nil => cases h; exact hc
  | cons s ss ih =>
    have hcx' : ∀ s ∈ ss, (calcComplexity s.term : Int) ≤ cfg.maxComplexity := fun u hu => hcx u (by simp [hu])
    unfold addTasks at h
    cases hp : s.punct with
    | JUGEMENT =>
      rw [hp] at h
      simp only [R.bind_ok] at h
      obtain ⟨tasks, ht, h⟩ := h
      split at h
      · cases h; exact hc
      · rename_i hno
        rw [R.bind_ok] at h
        obtain ⟨task, htask, h⟩ := h
        have hcore := payCredit_core htask
        refine ih h (hi.push s task (by rw [hcore]; rfl) tasks ht (by simpa using hno) (hcx s (by simp))) hcx' ?_
        intro i hin t hget x
        simp only at hin hget ⊢
        rw [populate_count]
        rcases getElem?_append_singleton hget with ⟨hlt, hg⟩ | ⟨he, rfl⟩
        · rw [if_neg (by omega), Nat.add_zero]
          refine hc i ?_ t hg x
          rcases List.mem_append.1 hin with hin | hin
          · exact hin
          · simp at hin; omega
        · rw [if_pos he, refCount_fresh hi x (by omega), Nat.zero_add, (core_eq_iff.1 hcore).2.1]; rfl
    | QUESTION => rw [hp] at h; exact ih h (hi.of_core rfl rfl rfl rfl) hcx' (hc.of_core rfl (fun _ h => h) rfl)
    | GOAL => rw [hp] at h; exact ih h hi hcx' hc

theorem memAddTask_counted {cfg : Cfg} {sh sh' : Shared} {s : Sentence} {cc : Bool} {mc : Rat} {now : Int}
    (h : memAddTask cfg sh s cc mc now = .ok sh') (hi : Inv cfg sh) (hc : RefsCounted sh) : RefsCounted sh' := by
  rcases memAddTask_cases h with ⟨_, rfl⟩ | ⟨hcx, mem, rev, h1, h2⟩
  · exact hc
  · refine addTasks_counted h2 (hi.of_core rfl rfl rfl rfl) ?_ (hc.of_core rfl (fun _ h => h) rfl)
    intro x hx
    rcases List.mem_cons.1 hx with rfl | hx
    · exact hcx
    · rw [Option.mem_toList] at hx
      rcases addBelief_cases h1 with ⟨y, hy, h⟩ | ⟨hy, _⟩
      · rw [hy] at hx; cases hx
        rw [memRevise_result_term h]; exact hcx
      · rw [hy] at hx; cases hx

theorem rebuildLookup_counted {cfg : Cfg} {sh sh' : Shared} (h : rebuildLookup sh = .ok sh') (hi : Inv cfg sh) : RefsCounted sh' := by
  unfold rebuildLookup at h
  rw [R.bind_ok] at h
  obtain ⟨terms, ht, h⟩ := h
  cases h
  rw [mapM_ok_iff] at ht
  have h1 : terms.map (·.2) = sh.judgementTasks ∧
      ∀ p ∈ terms, ∃ t, sh.heap[p.2]? = some t ∧ t.sentence.term = p.1 := by
    generalize sh.judgementTasks = l at ht
    induction ht with
    | nil => simp
    | @cons a b l1 l2 hab _ ih =>
      rw [R.bind_ok] at hab
      obtain ⟨t, ht, hab⟩ := hab
      cases hab
      refine ⟨by simp [ih.1], ?_⟩
      intro p hp
      rcases List.mem_cons.1 hp with rfl | hp
      · exact ⟨t, indexAt_ok.1 ht, rfl⟩
      · exact ih.2 p hp
  have key : ∀ (l : List (Term × Nat)) (m : List (Term × List Nat)) (x : Term) (i : Nat), (l.map (·.2)).Nodup →
      (i ∉ l.map (·.2) → refCount (l.foldl (fun m p => populateTaskByTermLookup m p.1 p.2) m) x i = refCount m x i) ∧
      ∀ p ∈ l, p.2 = i → refCount (l.foldl (fun m p => populateTaskByTermLookup m p.1 p.2) m) x i =
        refCount m x i + (retSubterms p.1).count x := by
    intro l
    induction l with
    | nil => intro m x i _; exact ⟨fun _ => rfl, fun p hp => by cases hp⟩
    | cons a l ih =>
      intro m x i hn
      rw [List.map_cons, List.nodup_cons] at hn
      obtain ⟨i1, i2⟩ := ih (populateTaskByTermLookup m a.1 a.2) x i hn.2
      rw [List.foldl_cons]
      refine ⟨?_, ?_⟩
      · intro hni
        rw [List.map_cons, List.mem_cons, not_or] at hni
        rw [i1 hni.2, populate_count, if_neg hni.1, Nat.add_zero]
      · intro p hp hpi
        rcases List.mem_cons.1 hp with rfl | hp
        · rw [i1 (by rw [← hpi]; exact hn.1), populate_count, if_pos hpi.symm]
        · have hne : i ≠ a.2 := by
            intro e
            exact hn.1 (List.mem_map.2 ⟨p, hp, by rw [hpi, e]⟩)
          rw [i2 p hp hpi, populate_count, if_neg hne, Nat.add_zero]
  intro i hin t hget x
  simp only at hin hget ⊢
  have hin' : i ∈ terms.map (·.2) := by rw [h1.1]; exact hin
  obtain ⟨p, hp, rfl⟩ := List.mem_map.1 hin'
  obtain ⟨u, hu, he⟩ := h1.2 p hp
  rw [hget] at hu; cases hu
  rw [(key terms [] x p.2 (by rw [h1.1]; exact hi.nodup)).2 p hp rfl, he]
  simp [refCount, lookupRefs]

theorem TaskOp.run_counted {cfg : Cfg} {sh : Shared} {op : TaskOp} {r : Shared × List AnswerCall}
    (h : op.run cfg sh = .ok r) (hi : Inv cfg sh) (hc : RefsCounted sh) : RefsCounted r.1 := by
  have hsame : ∀ sh', SameBut sh sh' → RefsCounted sh' := fun sh' hs => hc.of_core hs.1 (fun i h => by rw [← hs.2.1]; exact h) hs.2.2.1
  cases op with
  | add s cc mc now =>
    obtain ⟨sh', h1, rfl⟩ := R.map_ok.1 h
    exact memAddTask_counted h1 hi hc
  | tick => cases h; exact hc.of_core rfl (fun _ h => h) rfl
  | creditQuestions => cases h; exact hsame _ (creditQuestions_same sh)
  | baseCredit =>
    obtain ⟨sh', h1, rfl⟩ := R.map_ok.1 h
    exact hsame _ (baseCredit_same h1)
  | answer v =>
    obtain ⟨qs, hq⟩ := answerSampled_frame h
    rw [hq]; exact hc.of_core rfl (fun _ h => h) rfl
  | offer c =>
    obtain ⟨qs, hq⟩ := offerConclusion_frame h
    rw [hq]; exact hc.of_core rfl (fun _ h => h) rfl
  | select =>
    obtain ⟨r', h1, rfl⟩ := R.map_ok.1 h
    rcases selectPrimary_cases h1 with ⟨e, he⟩ | ⟨tasks, p, _, hp, he⟩
    · rw [he]; exact hc
    · rw [he]
      refine hc.of_core rfl (fun i hi => ?_) rfl
      have hlt := (List.getElem?_eq_some_iff.1 hp).1
      exact List.mem_of_mem_eraseIdx ((swapRemove_perm _ _ hlt).mem_iff.1 hi)
  | usage msg now =>
    cases h
    have hs := updateUsage_same sh msg now
    exact hc.of_core hs.core (fun i h => by rw [← hs.working]; exact h) hs.byTerm
  | cleanup =>
    obtain ⟨sh', h1, rfl⟩ := R.map_ok.1 h
    obtain ⟨sorted, hp, _, _, rfl⟩ := cleanupTasks_spec h1
    refine hc.of_core rfl (fun i hi => ?_) rfl
    exact hp.mem_iff.1 (((List.filter_sublist.trans (List.take_sublist _ _)).map _).subset hi)
  | rebuild =>
    obtain ⟨sh', h1, rfl⟩ := R.map_ok.1 h
    exact rebuildLookup_counted h1 hi
  | forget n =>
    obtain ⟨m, h1, rfl⟩ := R.map_ok.1 h
    exact hc.of_core rfl (fun _ h => h) rfl
  | flush => cases h; intro i hi; cases hi
  | newStampId => cases h; exact hc.of_core rfl (fun _ h => h) rfl
  | procMem m => cases h; exact hc.of_core rfl (fun _ h => h) rfl

theorem runSys_counted {cfg : Cfg} {ops : List SysOp} {s : Sys} (h : runSys cfg ops = .ok s) : RefsCounted s.sh := by
  obtain ⟨tops, ht⟩ := runSys_history' h
  exact (runTasks_inv (fun st => RefsCounted st.1) ht (fun i hi => by cases hi)
    (fun _ _ _ _ _ _ hi hP hrun => by have := TaskOp.run_counted hrun hi hP; exact this)).2

/-! ## one cycle -/

theorem creditRefs_get (refs : List Nat) (p : Rat) (sh : Shared) (i : Nat) :
    (refs.foldl (fun sh r => sh.modifyTask r (fun t => { t with qaCredit := t.qaCredit + p })) sh).heap[i]? =
      sh.heap[i]?.map (fun t => { t with qaCredit := t.qaCredit + refs.count i * p }) ∧
    (refs.foldl (fun sh r => sh.modifyTask r (fun t => { t with qaCredit := t.qaCredit + p })) sh).judgementTasksByTerm =
      sh.judgementTasksByTerm := by
  induction refs generalizing sh with
  | nil =>
    refine ⟨?_, rfl⟩
    cases h : sh.heap[i]? <;> simp [h]
  | cons r refs ih =>
    rw [List.foldl_cons]
    obtain ⟨i1, i2⟩ := ih (sh.modifyTask r (fun t => { t with qaCredit := t.qaCredit + p }))
    refine ⟨?_, i2⟩
    rw [i1]
    show Option.map _ ((sh.heap.modify r _)[i]?) = _
    rw [List.getElem?_modify]
    cases h : sh.heap[i]? with
    | none => simp
    | some t =>
      by_cases hr : r = i
      · subst hr
        simp only [if_true, Option.map_some, List.count_cons_self]
        have : t.qaCredit + p + (refs.count r : Rat) * p = t.qaCredit + ((refs.count r + 1 : Nat) : Rat) * p := by push_cast; ring
        simp only [Option.map_eq_map, Option.map_some, this]
      · simp only [hr, if_false, Option.map_some, List.count_cons_of_ne hr]
        rfl

theorem creditQuestion_get (sh : Shared) (q : Task2) (i : Nat) :
    (creditQuestion sh q).heap[i]? = sh.heap[i]?.map (fun t => { t with qaCredit := t.qaCredit +
      (((retSubterms q.sentence.term).map fun x => refCount sh.judgementTasksByTerm x i).sum : Nat) * q.prio }) ∧
    (creditQuestion sh q).judgementTasksByTerm = sh.judgementTasksByTerm := by
  unfold creditQuestion
  generalize retSubterms q.sentence.term = l
  induction l generalizing sh with
  | nil =>
    refine ⟨?_, rfl⟩
    cases h : sh.heap[i]? <;> simp [h]
  | cons x l ih =>
    rw [List.foldl_cons]
    cases hl : lookupRefs sh.judgementTasksByTerm x with
    | none =>
      obtain ⟨i1, i2⟩ := ih sh
      simp only
      refine ⟨?_, i2⟩
      rw [i1, List.map_cons, List.sum_cons]
      have : refCount sh.judgementTasksByTerm x i = 0 := by simp [refCount, hl]
      rw [this, Nat.zero_add]
    | some refs =>
      simp only
      obtain ⟨k1, k2⟩ := creditRefs_get refs q.prio sh i
      obtain ⟨i1, i2⟩ := ih (refs.foldl (fun sh r => sh.modifyTask r (fun t => { t with qaCredit := t.qaCredit + q.prio })) sh)
      refine ⟨?_, i2.trans k2⟩
      rw [i1, k1, k2, List.map_cons, List.sum_cons]
      have : refCount sh.judgementTasksByTerm x i = refs.count i := by simp [refCount, hl]
      rw [this]
      cases sh.heap[i]? with
      | none => rfl
      | some t =>
        simp only [Option.map_some]
        congr 2
        push_cast; ring

theorem creditQuestions_get (sh : Shared) (i : Nat) :
    (creditQuestions sh).heap[i]? = sh.heap[i]?.map (fun t => { t with qaCredit := t.qaCredit +
      (sh.questionTasks.map fun q =>
        ((((retSubterms q.sentence.term).map fun x => refCount sh.judgementTasksByTerm x i).sum : Nat) : Rat) * q.prio).sum }) := by
  unfold creditQuestions
  have key : ∀ (qs : List Task2) (sh : Shared), (qs.foldl creditQuestion sh).heap[i]? =
      sh.heap[i]?.map (fun t => { t with qaCredit := t.qaCredit + (qs.map fun q =>
        ((((retSubterms q.sentence.term).map fun x => refCount sh.judgementTasksByTerm x i).sum : Nat) : Rat) * q.prio).sum }) := by
    intro qs
    induction qs with
    | nil => intro sh; cases h : sh.heap[i]? <;> simp [h]
    | cons q qs ih =>
      intro sh
      obtain ⟨k1, k2⟩ := creditQuestion_get sh q i
      rw [List.foldl_cons, ih, k1, k2]
      cases sh.heap[i]? with
      | none => rfl
      | some t =>
        simp only [Option.map_some, List.map_cons, List.sum_cons]
        congr 2
        ring
  exact key _ sh

theorem baseAdd_get (l : List Nat) (hn : l.Nodup) (sh : Shared) (i : Nat) :
    (l.foldl (fun sh r => sh.modifyTask r (fun t => { t with credit := t.credit + 1/2 })) sh).heap[i]? =
      if i ∈ l then sh.heap[i]?.map (fun t => { t with credit := t.credit + 1/2 }) else sh.heap[i]? := by
  induction l generalizing sh with
  | nil => simp
  | cons r l ih =>
    rw [List.nodup_cons] at hn
    rw [List.foldl_cons, ih hn.2]
    have e : (sh.modifyTask r (fun t => { t with credit := t.credit + 1/2 })).heap[i]? =
        if i = r then sh.heap[i]?.map (fun t => { t with credit := t.credit + 1/2 }) else sh.heap[i]? := by
      show (sh.heap.modify r _)[i]? = _
      rw [List.getElem?_modify]
      by_cases h : r = i
      · subst h; cases sh.heap[r]? <;> simp
      · rw [if_neg (Ne.symm h)]; cases sh.heap[i]? <;> simp [h]
    rw [e]
    by_cases h : i = r
    · subst h; simp [hn.1]
    · by_cases hl : i ∈ l <;> simp [h, hl]

/-- a task divided by its complexity -/
def Task.divided (t : Task) : Task :=
  { t with credit := t.credit / (calcComplexity t.sentence.term : Rat), qaCredit := t.qaCredit / (calcComplexity t.sentence.term : Rat) }

theorem divCredit_eq {t t' : Task} (h : divCreditByComplexity t = .ok t') : t' = t.divided ∧ calcComplexity t.sentence.term ≠ 0 := by
  unfold divCreditByComplexity at h
  split at h
  · cases h
  · rename_i hc
    cases h; exact ⟨rfl, hc⟩

theorem baseDiv_get {l : List Nat} (hn : l.Nodup) {sh sh' : Shared}
    (h : l.foldlM (fun sh r => do
      let t ← indexAt sh.heap r
      let t' ← divCreditByComplexity t
      .ok (sh.modifyTask r (fun _ => t'))) sh = (.ok sh' : R Shared)) (i : Nat) :
    sh'.heap[i]? = (if i ∈ l then sh.heap[i]?.map Task.divided else sh.heap[i]?) ∧
    (i ∈ l → ∀ t, sh.heap[i]? = some t → calcComplexity t.sentence.term ≠ 0) := by
  induction l generalizing sh with
  | nil => cases h; simp
  | cons r l ih =>
    rw [List.nodup_cons] at hn
    rw [List.foldlM_cons] at h
    obtain ⟨sh1, h1, h⟩ := R.bind_ok.1 h
    obtain ⟨t, ht, h1⟩ := R.bind_ok.1 h1
    obtain ⟨t', ht', h1⟩ := R.bind_ok.1 h1
    obtain ⟨hd, hc⟩ := divCredit_eq ht'
    have ht := indexAt_ok.1 ht
    obtain ⟨i1, i2⟩ := ih hn.2 h
    have e : sh1.heap[i]? = if i = r then sh.heap[i]?.map Task.divided else sh.heap[i]? := by
      rw [← Except.ok.inj h1]
      show (sh.heap.modify r _)[i]? = _
      rw [List.getElem?_modify]
      by_cases hr : r = i
      · subst hr; rw [ht]; simp [hd]
      · rw [if_neg (Ne.symm hr)]; cases sh.heap[i]? <;> simp [hr]
    rw [e] at i1 i2
    by_cases hr : i = r
    · subst hr
      refine ⟨by rw [i1]; simp [hn.1], fun _ u hu => ?_⟩
      rw [ht] at hu; cases hu; exact hc
    · rw [if_neg hr] at i1 i2
      refine ⟨by rw [i1]; simp [hr], fun hm u hu => i2 ?_ u hu⟩
      rcases List.mem_cons.1 hm with h | h
      · exact absurd h hr
      · exact h

theorem foldl_modify_working (l : List Nat) (f : Task → Task) (sh : Shared) :
    (l.foldl (fun sh r => sh.modifyTask r f) sh).judgementTasks = sh.judgementTasks := by
  induction l generalizing sh with
  | nil => rfl
  | cons r l ih => rw [List.foldl_cons, ih]; rfl

theorem baseCredit_get {sh sh' : Shared} (h : baseCredit sh = .ok sh') (hn : sh.judgementTasks.Nodup) (i : Nat) :
    sh'.heap[i]? = (if i ∈ sh.judgementTasks then sh.heap[i]?.map (fun t => Task.divided { t with credit := t.credit + 1/2 })
      else sh.heap[i]?) ∧
    (i ∈ sh.judgementTasks → ∀ t, sh.heap[i]? = some t → calcComplexity t.sentence.term ≠ 0) := by
  unfold baseCredit at h
  simp only at h
  rw [foldl_modify_working] at h
  obtain ⟨k1, k2⟩ := baseDiv_get hn h i
  rw [baseAdd_get _ hn] at k1 k2
  by_cases hi : i ∈ sh.judgementTasks
  · rw [if_pos hi] at k1 k2 ⊢
    refine ⟨?_, fun _ t ht => ?_⟩
    · rw [k1, if_pos hi, Option.map_map]; rfl
    · have := k2 hi { t with credit := t.credit + 1/2 } (by rw [ht]; rfl)
      exact this
  · rw [if_neg hi] at k1 ⊢
    refine ⟨?_, fun h => absurd h hi⟩
    rw [k1, if_neg hi]

/-- the same task, with other counters -/
def SentOnly (t t' : Task) : Prop := t' = { t with sentence := t'.sentence } ∧ t'.sentence.term = t.sentence.term

theorem updateUsage_get (sh : Shared) (msg : Msg) (now : Int) :
    ∀ (i : Nat) (t : Task), sh.heap[i]? = some t → ∃ t', (updateUsage sh msg now).heap[i]? = some t' ∧ SentOnly t t' := by
  refine updateUsage_inv (fun x => ∀ (i : Nat) (t : Task), sh.heap[i]? = some t → ∃ t', x.heap[i]? = some t' ∧ SentOnly t t') msg now
    (fun i t h => ⟨t, h, rfl, rfl⟩) ?_
  intro x r hx i t ht
  obtain ⟨t1, h1, h2, h3⟩ := hx i t ht
  rcases useTask_cases now x r with ⟨_, h⟩ | ⟨task, _, h⟩
  · rw [h]; exact ⟨t1, h1, h2, h3⟩
  · rw [h]
    refine ⟨{ t1 with sentence := t1.sentence.useCell task.sentence.usage.cell now }, ?_, ?_, ?_⟩
    · show (x.heap.map _)[i]? = _
      rw [List.getElem?_map, h1]; rfl
    · rw [h2]
    · rw [← h3]; unfold Sentence.useCell; split <;> rfl

/-- what a cycle does to the credit of one task -/
theorem reasonCycle_credit {cfg : Cfg} {v : Rat} {now : Int} {sh sh' : Shared} {msg : Option Msg} {calls : List AnswerCall}
    (h : reasonCycle cfg v now sh = .ok (sh', msg, calls)) (hi : Inv cfg sh) {i : Nat} {t : Task} (hin : i ∈ sh.judgementTasks)
    (ht : sh.heap[i]? = some t) :
    ∃ t', sh'.heap[i]? = some t' ∧ t'.sentence.term = t.sentence.term ∧ t'.id = t.id ∧ t'.mulCredit = t.mulCredit ∧
      t'.derivTime = t.derivTime ∧ calcComplexity t.sentence.term ≠ 0 ∧
      t'.credit = (t.credit + 1/2) / (calcComplexity t.sentence.term : Rat) ∧
      t'.qaCredit = (t.qaCredit + (sh.questionTasks.map fun q =>
        ((((retSubterms q.sentence.term).map fun x => refCount sh.judgementTasksByTerm x i).sum : Nat) : Rat) * q.prio).sum) /
          (calcComplexity t.sentence.term : Rat) := by
  unfold reasonCycle at h
  obtain ⟨sh1, h1, h⟩ := R.bind_ok.1 h
  obtain ⟨⟨sh2, c2⟩, h2, h⟩ := R.bind_ok.1 h
  obtain ⟨⟨sh3, m3⟩, h3, h⟩ := R.bind_ok.1 h
  obtain ⟨sh4, h4, h⟩ := R.bind_ok.1 h
  obtain ⟨sh5, h5, h⟩ := R.bind_ok.1 h
  cases h
  have f1 := (everyForget_frame h5).1
  have g1 := (everyCleanup_frame h4).1
  obtain ⟨qs, hq⟩ := answerSampled_frame h2
  simp only at hq
  have e3 : sh3.heap = sh2.heap := by
    unfold buildMsg at h3
    obtain ⟨⟨shs, prim⟩, hs, h3⟩ := R.bind_ok.1 h3
    rcases selectPrimary_cases hs with ⟨e, he⟩ | ⟨tasks, p, _, hp, he⟩
    · cases he; cases h3; rfl
    · cases he
      obtain ⟨sec, hsec, h3⟩ := R.bind_ok.1 h3
      cases h3; rfl
  have hs := creditQuestions_same { sh with cycleCounter := sh.cycleCounter + 1 }
  obtain ⟨b1, b2⟩ := baseCredit_get h1 (by rw [hs.2.1]; exact hi.nodup) i
  have hin' : i ∈ (creditQuestions { sh with cycleCounter := sh.cycleCounter + 1 }).judgementTasks := by rw [hs.2.1]; exact hin
  have cq := creditQuestions_get { sh with cycleCounter := sh.cycleCounter + 1 } i
  simp only [ht, Option.map_some] at cq
  have hc := b2 hin' _ cq
  rw [if_pos hin', cq, Option.map_some] at b1
  have e4 : sh3.heap = sh1.heap := by rw [e3, hq]
  rw [← e4] at b1
  have hfin : ∀ u, sh3.heap[i]? = some u → ∃ t', (useMsg sh3 now msg).heap[i]? = some t' ∧ SentOnly u t' := by
    intro u hu
    cases msg with
    | none => exact ⟨u, hu, rfl, rfl⟩
    | some m => exact updateUsage_get sh3 m now i u hu
  obtain ⟨t', k1, k2, k3⟩ := hfin _ b1
  refine ⟨t', by rw [f1, g1]; exact k1, k3, ?_⟩
  rw [k2]
  exact ⟨rfl, rfl, rfl, hc, rfl, rfl⟩

theorem reasonCycle_working {cfg : Cfg} {v : Rat} {now : Int} {sh sh' : Shared} {msg : Option Msg} {calls : List AnswerCall}
    (h : reasonCycle cfg v now sh = .ok (sh', msg, calls)) (hi : Inv cfg sh) :
    (∀ i ∈ sh'.judgementTasks, i ∈ sh.judgementTasks) ∧ sh'.cycleCounter = sh.cycleCounter + 1 := by
  obtain ⟨_, _, h3, _, h5⟩ := reasonCycle_taken h hi
  refine ⟨?_, h3⟩
  intro i hm
  rcases h5 with ⟨_, _, e⟩ | ⟨m, l, _, hp, ⟨l', hl', hs⟩, _⟩
  · rw [e] at hm; cases hm
  · exact hp.mem_iff.1 (List.mem_cons_of_mem _ (hl'.mem_iff.1 (hs.subset hm)))

theorem taskCalcCredit_sentOnly {decay : Int → Rat} {now : Int} {t t' : Task} (h : SentOnly t t') :
    taskCalcCredit decay t' now = taskCalcCredit decay t now := by
  rw [h.1]; rfl

/-- the task which a cycle takes has the most credit, after the credits of this cycle -/
theorem reasonCycle_best {cfg : Cfg} {v : Rat} {now : Int} {sh sh' : Shared} {msg : Option Msg} {calls : List AnswerCall}
    (h : reasonCycle cfg v now sh = .ok (sh', msg, calls)) (hi : Inv cfg sh) (hcr : CreditOk sh) (hd : ∀ d, 0 ≤ cfg.decay d)
    {m : Msg} (hm : msg = some m) :
    m.primary ∈ sh.judgementTasks ∧ ∃ t, sh'.heap[m.primary]? = some t ∧ ∀ i ∈ sh.judgementTasks, ∀ u, sh'.heap[i]? = some u →
      taskCalcCredit cfg.decay u sh'.cycleCounter ≤ taskCalcCredit cfg.decay t sh'.cycleCounter := by
  have hw := (reasonCycle_working h hi).2
  unfold reasonCycle at h
  obtain ⟨sh1, h1, h⟩ := R.bind_ok.1 h
  obtain ⟨⟨sh2, c2⟩, h2, h⟩ := R.bind_ok.1 h
  obtain ⟨⟨sh3, m3⟩, h3, h⟩ := R.bind_ok.1 h
  obtain ⟨sh4, h4, h⟩ := R.bind_ok.1 h
  obtain ⟨sh5, h5, h⟩ := R.bind_ok.1 h
  cases h
  have f1 := (everyForget_frame h5).1
  have g1 := (everyCleanup_frame h4).1
  have hs := (creditQuestions_same { sh with cycleCounter := sh.cycleCounter + 1 }).trans (baseCredit_same h1)
  have i1 : Inv cfg sh1 := hi.of_core hs.1 hs.2.1 hs.2.2.1 hs.2.2.2.1
  have i2 : Inv cfg sh2 := TaskOp.run_inv (op := .answer v) h2 i1
  have r1 : CreditOk sh1 := baseCredit_ok h1 (creditQuestions_ok ⟨hcr.1, hcr.2⟩)
  have r2 : CreditOk sh2 := TaskOp.run_credit (op := .answer v) h2 r1 trivial
  obtain ⟨qs, hq⟩ := answerSampled_frame h2
  simp only at hq
  have j2 : sh2.judgementTasks = sh.judgementTasks := by rw [hq]; exact hs.2.1
  have c2' : sh2.cycleCounter = sh.cycleCounter + 1 := by
    rw [hq]; show sh1.cycleCounter = _
    rw [baseCredit_counter h1, creditQuestions_counter]
  unfold buildMsg at h3
  obtain ⟨⟨shs, prim⟩, hsel, h3⟩ := R.bind_ok.1 h3
  rcases selectPrimary_cases hsel with ⟨e, he⟩ | ⟨tasks, p, _, hp, he⟩
  · cases he; cases h3; cases hm
  · have hne : sh2.judgementTasks ≠ [] := by
      intro e; rw [e] at hp; cases hp
    obtain ⟨sh6, i, t, k1, k2, k3, k4⟩ := i2.takes_best r2 hd hne
    rw [hsel, he] at k1
    obtain ⟨rfl, hpi⟩ := Prod.mk.inj (Except.ok.inj k1)
    cases he
    cases hpi
    obtain ⟨sec, hsec, h3⟩ := R.bind_ok.1 h3
    obtain ⟨rfl, hmm⟩ := Prod.mk.inj (Except.ok.inj h3)
    rw [hm] at hmm
    cases hmm
    have hin : p ∈ sh2.judgementTasks := k4.mem_iff.1 (List.mem_cons_self)
    have conv : ∀ (i : Nat) (u : Task), sh2.heap[i]? = some u → ∃ u', sh'.heap[i]? = some u' ∧ SentOnly u u' := by
      intro i u hu
      rw [f1, g1, hm]
      exact updateUsage_get _ _ now i u hu
    refine ⟨by rw [← j2]; exact hin, ?_⟩
    obtain ⟨t', ht', hso⟩ := conv p t k2
    refine ⟨t', ht', ?_⟩
    intro i hi' u hu
    have hlt := i2.valid i (by rw [j2]; exact hi')
    obtain ⟨u', hu', huo⟩ := conv i _ (List.getElem?_eq_getElem hlt)
    rw [hu] at hu'; cases hu'
    have := k3 i (by rw [j2]; exact hi') _ (List.getElem?_eq_getElem hlt)
    rw [hw, taskCalcCredit_sentOnly huo, taskCalcCredit_sentOnly hso, ← c2']
    exact this

/-! ## the own credit of a task over a history -/

/-- the own credit of each working task is that of its complexity and age -/
def OwnAged (sh : Shared) : Prop :=
  ∀ i ∈ sh.judgementTasks, ∀ t, sh.heap[i]? = some t → calcComplexity t.sentence.term ≠ 0 ∧
    ∃ k : Nat, sh.cycleCounter = t.derivTime + k ∧ t.credit = ownCredit (calcComplexity t.sentence.term) k

theorem addTasks_aged {mc : Rat} {ss : List Sentence} {sh sh' : Shared} (h : addTasks sh true mc ss = .ok sh')
    (hv : ∀ r ∈ sh.judgementTasks, r < sh.heap.length) (hc : OwnAged sh) : OwnAged sh' := by
  induction ss generalizing sh with
  | nil => cases h; exact hc
  | cons s ss ih =>
    unfold addTasks at h
    cases hp : s.punct with
    | JUGEMENT =>
      rw [hp] at h
      simp only [R.bind_ok] at h
      obtain ⟨tasks, ht, h⟩ := h
      split at h
      · cases h; exact hc
      · rw [R.bind_ok] at h
        obtain ⟨task, htask, h⟩ := h
        unfold payCredit at htask
        rw [if_pos rfl] at htask
        obtain ⟨hd, hcx⟩ := divCredit_eq htask
        refine ih h ?_ ?_
        · intro r hr
          simp only at hr ⊢
          rw [List.length_append]
          rcases List.mem_append.1 hr with hr | hr
          · have := hv r hr; omega
          · simp at hr; simp [hr]
        · intro i hin t hget
          simp only at hin hget ⊢
          rcases getElem?_append_singleton hget with ⟨hlt, hg⟩ | ⟨he, rfl⟩
          · refine hc i ?_ t hg
            rcases List.mem_append.1 hin with hin | hin
            · exact hin
            · simp at hin; omega
          · rw [hd]
            exact ⟨hcx, 0, by simp [Task.divided], rfl⟩
    | QUESTION => rw [hp] at h; exact ih h hv hc
    | GOAL => rw [hp] at h; exact ih h hv hc

theorem memAddTask_aged {cfg : Cfg} {sh sh' : Shared} {s : Sentence} {mc : Rat} {now : Int}
    (h : memAddTask cfg sh s true mc now = .ok sh') (hi : Inv cfg sh) (hc : OwnAged sh) : OwnAged sh' := by
  rcases memAddTask_cases h with ⟨_, rfl⟩ | ⟨_, mem, rev, _, h2⟩
  · exact hc
  · exact addTasks_aged h2 hi.valid hc

theorem offerAll_outer {cfg : Cfg} {cs : List Sentence} {sh sh' : Shared} {calls : List AnswerCall}
    (h : offerAll cfg sh cs = .ok (sh', calls)) : ∃ qs, sh' = { sh with questionTasks := qs } := by
  induction cs generalizing sh calls with
  | nil => cases h; exact ⟨_, rfl⟩
  | cons c cs ih =>
    unfold offerAll at h
    obtain ⟨⟨sh1, c1⟩, h1, h⟩ := R.bind_ok.1 h
    obtain ⟨⟨sh2, c2⟩, h2, h⟩ := R.bind_ok.1 h
    obtain ⟨rfl, _⟩ := Prod.mk.inj (Except.ok.inj h)
    obtain ⟨qs, hq⟩ := offerConclusion_frame h1
    simp only at hq
    obtain ⟨qs', hq'⟩ := ih h2
    exact ⟨qs', by rw [hq', hq]⟩

theorem SysOp.run_aged {cfg : Cfg} {s s' : Sys} {op : SysOp} (h : op.run cfg s = .ok s') (hi : Inv cfg s.sh) (hp : op.Pays)
    (hc : OwnAged s.sh) : OwnAged s'.sh := by
  cases op with
  | input x cc mc now =>
    obtain ⟨sh, g1, g⟩ := R.bind_ok.1 h
    rw [← Except.ok.inj g]
    rw [show cc = true from hp] at g1
    exact memAddTask_aged g1 hi hc
  | cycle v now =>
    obtain ⟨⟨sh, msg, calls⟩, g1, g⟩ := R.bind_ok.1 h
    rw [← Except.ok.inj g]
    obtain ⟨w1, w2⟩ := reasonCycle_working g1 hi
    intro i hin t' ht'
    have hin := w1 i hin
    have hlt := hi.valid i hin
    obtain ⟨t1, k1, k2, _, _, k3, k4, k5, _⟩ := reasonCycle_credit g1 hi hin (List.getElem?_eq_getElem hlt)
    simp only at ht'
    rw [k1] at ht'; cases ht'
    obtain ⟨c1, k, c2, c3⟩ := hc i hin _ (List.getElem?_eq_getElem hlt)
    rw [k2]
    refine ⟨k4, k + 1, ?_, ?_⟩
    · show sh.cycleCounter = _
      rw [w2, k3, c2]; push_cast; ring
    · rw [k5, c3]; rfl
  | work =>
    simp only [SysOp.run] at h
    split at h
    · rw [← Except.ok.inj h]; exact hc
    · rename_i m rest e
      obtain ⟨⟨sh, calls⟩, g1, g⟩ := R.bind_ok.1 h
      rw [← Except.ok.inj g]
      unfold Nar.work at g1
      obtain ⟨concl, a1, g1⟩ := R.bind_ok.1 g1
      obtain ⟨p, a2, g1⟩ := R.bind_ok.1 g1
      obtain ⟨⟨sh2, c2⟩, a3, g1⟩ := R.bind_ok.1 g1
      obtain ⟨sh3, a4, g1⟩ := R.bind_ok.1 g1
      obtain ⟨rfl, _⟩ := Prod.mk.inj (Except.ok.inj g1)
      obtain ⟨qs, hq⟩ := offerAll_outer a3
      have h0 : Inv cfg sh2 ∧ OwnAged sh2 := by
        rw [hq]; exact ⟨hi.of_core rfl rfl rfl rfl, hc⟩
      exact (foldlM_inv (fun x : Shared => Inv cfg x ∧ OwnAged x) a4 h0
        (fun c _ a b ha hb => ⟨memAddTask_inv hb ha.1, memAddTask_aged hb ha.1 ha.2⟩)).2
  | flush => rw [← Except.ok.inj h]; intro i hi; cases hi
  | newStampId => rw [← Except.ok.inj h]; exact hc
  | procMem m => rw [← Except.ok.inj h]; exact hc

theorem runSys_aged {cfg : Cfg} {ops : List SysOp} {s : Sys} (h : runSys cfg ops = .ok s) (hp : ∀ op ∈ ops, op.Pays) : OwnAged s.sh := by
  refine (foldlM_inv (fun x : Sys => Inv cfg x.sh ∧ OwnAged x.sh) h ⟨createShared_inv cfg, fun i hi => by cases hi⟩ ?_).2
  intro op hop a b ha hb
  exact ⟨(SysOp.run_kept hb).inv ha.1, SysOp.run_aged hb ha.1 (hp op hop) ha.2⟩

/-! ## without questions -/

/-- as long as there is no question no task has credit from questions -/
def Unasked (sh : Shared) : Prop := sh.questionTasks = [] → ∀ t ∈ sh.heap, t.qaCredit = 0

theorem payCredit_unasked {cc : Bool} {t t' : Task} (h : payCredit cc t = .ok t') (h0 : t.qaCredit = 0) : t'.qaCredit = 0 := by
  unfold payCredit at h
  split at h
  · rw [(divCredit_eq h).1]; simp [Task.divided, h0]
  · cases h; exact h0

theorem addTasks_unasked {cc : Bool} {mc : Rat} {ss : List Sentence} {sh sh' : Shared} (h : addTasks sh cc mc ss = .ok sh')
    (hc : ∀ t ∈ sh.heap, t.qaCredit = 0) : ∀ t ∈ sh'.heap, t.qaCredit = 0 := by
  induction ss generalizing sh with
  | nil => cases h; exact hc
  | cons s ss ih =>
    unfold addTasks at h
    cases hp : s.punct with
    | JUGEMENT =>
      rw [hp] at h
      simp only [R.bind_ok] at h
      obtain ⟨tasks, ht, h⟩ := h
      split at h
      · cases h; exact hc
      · rw [R.bind_ok] at h
        obtain ⟨task, htask, h⟩ := h
        refine ih h ?_
        intro t ht
        rcases List.mem_append.1 ht with ht | ht
        · exact hc t ht
        · rw [List.mem_singleton.1 ht]; exact payCredit_unasked htask rfl
    | QUESTION => rw [hp] at h; exact ih h hc
    | GOAL => rw [hp] at h; exact ih h hc

theorem TaskOp.run_unasked {cfg : Cfg} {sh sh' : Shared} {op : TaskOp} {calls : List AnswerCall}
    (h : op.run cfg sh = .ok (sh', calls)) (hc : Unasked sh) : Unasked sh' := by
  intro hq
  have hlen := (TaskOp.run_questions h).1
  have hq0 : sh.questionTasks = [] := by
    rw [hq] at hlen; exact List.length_eq_zero_iff.1 (by simpa using hlen)
  replace hc := hc hq0
  cases op with
  | add s cc mc now =>
    obtain ⟨x, h1, h2⟩ := R.map_ok.1 h
    cases h2
    rcases memAddTask_cases h1 with ⟨_, rfl⟩ | ⟨_, mem, rev, _, h2⟩
    · exact hc
    · exact addTasks_unasked h2 hc
  | tick => cases h; exact hc
  | creditQuestions =>
    cases h
    have : Nar.creditQuestions sh = sh := by unfold Nar.creditQuestions; rw [hq0]; rfl
    rw [this]; exact hc
  | baseCredit =>
    obtain ⟨x, h1, h2⟩ := R.map_ok.1 h
    cases h2
    unfold Nar.baseCredit at h1
    refine foldlM_inv (fun x : Shared => ∀ t ∈ x.heap, t.qaCredit = 0) h1 ?_ ?_
    · generalize sh.judgementTasks = l
      clear h h1 hq hq0 hlen
      induction l generalizing sh with
      | nil => exact hc
      | cons r l ih =>
        rw [List.foldl_cons]
        refine ih ?_
        intro t ht
        rcases mem_modify ht with ht | ⟨a, ha, rfl⟩
        · exact hc t ht
        · exact hc a (List.mem_of_getElem? ha)
    · intro r _ a b ha hstep
      obtain ⟨t, ht, hstep⟩ := R.bind_ok.1 hstep
      obtain ⟨t', ht', hstep⟩ := R.bind_ok.1 hstep
      cases hstep
      intro u hu
      rcases mem_modify hu with hu | ⟨w, hw, rfl⟩
      · exact ha u hu
      · rw [(divCredit_eq ht').1]
        simp [Task.divided, ha t (List.mem_of_getElem? (indexAt_ok.1 ht))]
  | answer v => obtain ⟨qs, hq⟩ := answerSampled_frame h; simp only at hq; rw [hq]; exact hc
  | offer c => obtain ⟨qs, hq⟩ := offerConclusion_frame h; simp only at hq; rw [hq]; exact hc
  | select =>
    obtain ⟨r', h1, h2⟩ := R.map_ok.1 h
    cases h2
    rcases selectPrimary_cases h1 with ⟨e, he⟩ | ⟨tasks, p, _, hp, he⟩ <;> rw [he] <;> exact hc
  | usage msg now =>
    cases h
    refine updateUsage_inv (fun x : Shared => ∀ t ∈ x.heap, t.qaCredit = 0) msg now hc ?_
    intro x r hx
    rcases useTask_cases now x r with ⟨_, h⟩ | ⟨task, _, h⟩
    · rw [h]; exact hx
    · rw [h]
      intro t ht
      obtain ⟨u, hu, rfl⟩ := List.mem_map.1 ht
      exact hx u hu
  | cleanup =>
    obtain ⟨x, h1, h2⟩ := R.map_ok.1 h
    cases h2
    obtain ⟨sorted, _, _, _, rfl⟩ := cleanupTasks_spec h1
    exact hc
  | rebuild =>
    obtain ⟨x, h1, h2⟩ := R.map_ok.1 h
    cases h2
    rw [(rebuildLookup_frame h1).2]; exact hc
  | forget n => obtain ⟨m, h1, h2⟩ := R.map_ok.1 h; cases h2; exact hc
  | flush => cases h; exact hc
  | newStampId => cases h; exact hc
  | procMem m => cases h; exact hc

theorem runSys_unasked {cfg : Cfg} {ops : List SysOp} {s : Sys} (h : runSys cfg ops = .ok s) : Unasked s.sh := by
  obtain ⟨tops, ht⟩ := runSys_history' h
  exact (runTasks_inv (fun st => Unasked st.1) ht (fun _ t ht => by cases ht)
    (fun _ _ _ _ _ _ _ hP hrun => by have := TaskOp.run_unasked hrun hP; exact this)).2

/-! ## the numbers -/

theorem ownCredit_pos {c : Nat} (hc : 0 < c) (k : Nat) : 0 < ownCredit c k := by
  have hc' : (0 : Rat) < c := by exact_mod_cast hc
  induction k with
  | zero => exact div_pos one_pos hc'
  | succ k ih => exact div_pos (by linarith) hc'

theorem ownCredit_le {c : Nat} (hc : 2 ≤ c) (k : Nat) : ownCredit c k ≤ 1 / c := by
  have hc' : (2 : Rat) ≤ c := by exact_mod_cast hc
  have h0 : (0 : Rat) < c := by linarith
  induction k with
  | zero => exact le_refl _
  | succ k ih =>
    have h2 : (1 : Rat) / c ≤ 1 / 2 := one_div_le_one_div_of_le (by norm_num) hc'
    exact div_le_div_of_nonneg_right (by linarith) h0.le

theorem ownCredit_anti {c d : Nat} (hc : 0 < c) (h : c < d) (k : Nat) : ownCredit d k < ownCredit c k := by
  have hc' : (0 : Rat) < c := by exact_mod_cast hc
  have hd : (c : Rat) < d := by exact_mod_cast h
  have hd0 : (0 : Rat) < d := hc'.trans hd
  induction k with
  | zero => exact one_div_lt_one_div_of_lt hc' hd
  | succ k ih =>
    have hp := ownCredit_pos (c := d) (by omega) k
    show (ownCredit d k + 1/2) / d < (ownCredit c k + 1/2) / c
    calc (ownCredit d k + 1/2) / d < (ownCredit d k + 1/2) / c := div_lt_div_of_pos_left (by linarith) hc' hd
      _ ≤ (ownCredit c k + 1/2) / c := div_le_div_of_nonneg_right (by linarith) hc'.le

end Nar
