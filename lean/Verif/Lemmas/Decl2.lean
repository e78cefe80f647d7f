import Verif.Lemmas.Decl
import Verif.Props.Rules
import Verif.Props.Task
import Verif.Props.Mem
import Verif.Lemmas.Goal4
/-! # The declarative reasoner never crashes on sane sentences -/
namespace Nar
open Term

/-- the sentence has an expectation -/
def HasExp (s : Sentence) : Prop := ∃ e, expOf s = .ok e

theorem Good.exp {s : Sentence} (h : Good s) : HasExp s := sane_exp s h.sane

theorem divCredit_total {t : Task} (h : WellFormed t.sentence.term) : ∃ t', divCreditByComplexity t = .ok t' := by
  have := h.complexity
  unfold divCreditByComplexity
  rw [if_neg (by omega)]
  exact ⟨_, rfl⟩

theorem payCredit_total {cc : Bool} {t : Task} (h : WellFormed t.sentence.term) : ∃ t', payCredit cc t = .ok t' := by
  unfold payCredit
  split
  · exact divCredit_total h
  · exact ⟨t, rfl⟩

theorem modifyTask_length (sh : Shared) (r : Nat) (f : Task → Task) :
    (sh.modifyTask r f).heap.length = sh.heap.length := by simp [Shared.modifyTask]

theorem foldl_modify_length (f : Task → Task) (l : List Nat) (sh : Shared) :
    (l.foldl (fun sh r => sh.modifyTask r f) sh).heap.length = sh.heap.length := by
  induction l generalizing sh with
  | nil => rfl
  | cons a l ih => rw [List.foldl_cons, ih, modifyTask_length]

theorem baseCredit_total {sh : Shared} (hv : ∀ r ∈ sh.judgementTasks, r < sh.heap.length) (hp : AllP Good HasExp sh) :
    ∃ sh', baseCredit sh = .ok sh' := by
  unfold baseCredit
  have hj : ∀ (l : List Nat) (sh : Shared), (l.foldl (fun (sh : Shared) r => sh.modifyTask r (fun t => { t with credit := t.credit + 1/2 })) sh).judgementTasks = sh.judgementTasks := by
    intro l
    induction l with
    | nil => intro sh; rfl
    | cons a l ih => intro sh; rw [List.foldl_cons, ih]; rfl
  have hs := foldlM_total (f := fun (sh : Shared) (r : Nat) => (do
      let t ← indexAt sh.heap r
      let t' ← divCreditByComplexity t
      Except.ok (sh.modifyTask r (fun _ => t')) : R Shared))
    (fun s => s.heap.length = sh.heap.length ∧ ∀ t ∈ s.heap, Good t.sentence) sh.judgementTasks ?_
    (sh.judgementTasks.foldl (fun sh r => sh.modifyTask r (fun t => { t with credit := t.credit + 1/2 })) sh) ?_
  · obtain ⟨sh1, h1, -⟩ := hs
    refine ⟨sh1, ?_⟩
    simp only [hj]
    exact h1
  · rintro r hr s ⟨hl, hg⟩
    have hv : r < s.heap.length := by rw [hl]; exact hv r hr
    obtain ⟨t', ht'⟩ := divCredit_total (t := s.heap[r]) (hg _ (List.getElem_mem hv)).2.2
    refine ⟨s.modifyTask r (fun _ => t'), ?_, by rw [modifyTask_length]; exact hl, ?_⟩
    · simp only [indexAt, List.getElem?_eq_getElem hv, bind, Except.bind, ht']
    · intro u hu
      rcases mem_modify hu with hu | ⟨a, ha, hu⟩
      · exact hg u hu
      · have : payCredit true s.heap[r] = .ok t' := ht'
        rw [hu]
        rw [payCredit_sentence this]
        exact hg _ (List.getElem_mem hv)
  · refine ⟨foldl_modify_length _ _ _, ?_⟩
    have : AllP Good HasExp (sh.judgementTasks.foldl (fun sh r => sh.modifyTask r (fun t => { t with credit := t.credit + 1/2 })) sh) := by
      refine AllP.foldl _ _ hp ?_
      intro s r h
      exact h.modify r _ (fun t _ ht => ht)
    exact this.1

/-! ## questions -/

theorem qaTryAnswer_total {n : Nat} {q : Task2} {c : Sentence} (h : HasExp c) : ∃ r, qaTryAnswer n q c = .ok r := by
  obtain ⟨e, he⟩ := h
  unfold qaTryAnswer
  split
  · exact ⟨_, rfl⟩
  · simp only [he, bind, Except.bind]
    split
    · split <;> exact ⟨_, rfl⟩
    · exact ⟨_, rfl⟩

theorem qaTryAll_total {n : Nat} {q : Task2} {cs : List Sentence} (h : ∀ c ∈ cs, HasExp c) : ∃ r, qaTryAll n q cs = .ok r := by
  induction cs generalizing q with
  | nil => exact ⟨_, rfl⟩
  | cons c cs ih =>
    obtain ⟨⟨q1, c1⟩, h1⟩ := qaTryAnswer_total (n := n) (q := q) (h c (by simp))
    obtain ⟨⟨q2, c2⟩, h2⟩ := ih (q := q1) (fun d hd => h d (by simp [hd]))
    exact ⟨(q2, c1 ++ c2), by simp only [qaTryAll, h1, h2, bind, Except.bind]⟩

theorem qaOffer_total {n : Nat} {qs : List Task2} {c : Sentence} (h : HasExp c) : ∃ r, qaOffer n c qs = .ok r := by
  induction qs with
  | nil => exact ⟨_, rfl⟩
  | cons q qs ih =>
    obtain ⟨⟨q1, c1⟩, h1⟩ := qaTryAnswer_total (n := n) (q := q) h
    obtain ⟨⟨q2, c2⟩, h2⟩ := ih
    exact ⟨(q1 :: q2, c1 ++ c2), by simp only [qaOffer, h1, h2, bind, Except.bind]⟩

theorem offerConclusion_total {cfg : Cfg} {sh : Shared} {c : Sentence} (h : HasExp c) :
    ∃ r, offerConclusion cfg sh c = .ok r := by
  unfold offerConclusion
  split
  · obtain ⟨⟨qs, calls⟩, h1⟩ := qaOffer_total (n := cfg.nGlobal) (qs := sh.questionTasks) h
    exact ⟨_, by simp only [h1, bind, Except.bind]; rfl⟩
  · exact ⟨_, rfl⟩

theorem offerAll_total {cfg : Cfg} {sh : Shared} {cs : List Sentence} (h : ∀ c ∈ cs, HasExp c) :
    ∃ r, offerAll cfg sh cs = .ok r := by
  induction cs generalizing sh with
  | nil => exact ⟨_, rfl⟩
  | cons c cs ih =>
    obtain ⟨⟨q1, c1⟩, h1⟩ := offerConclusion_total (cfg := cfg) (sh := sh) (h c (by simp))
    obtain ⟨⟨q2, c2⟩, h2⟩ := ih (sh := q1) (fun d hd => h d (by simp [hd]))
    exact ⟨(q2, c1 ++ c2), by simp only [offerAll, h1, h2, bind, Except.bind]⟩

theorem answerSampled_total {cfg : Cfg} {v : Rat} {sh : Shared} (hp : AllP Good HasExp sh) :
    ∃ r, answerSampled cfg v sh = .ok r := by
  unfold answerSampled
  split
  · rename_i hl
    obtain ⟨i, h1, h2⟩ := Props.C22_random_selection_valid v (sh.questionTasks.map (·.prio))
      (by intro hc; rw [List.map_eq_nil_iff] at hc; rw [hc] at hl; simp at hl)
    rw [List.length_map] at h2
    have h1 : task2SelByCreditRandom v sh.questionTasks = .ok i := h1
    obtain ⟨⟨q', calls⟩, h3⟩ := qaTryAll_total (n := cfg.nGlobal) (q := sh.questionTasks[i])
      (cs := relevantBeliefs sh sh.questionTasks[i]) (by
        intro c hc
        rw [relevantBeliefs_iff] at hc
        rcases hc with ⟨_, s, _, hu⟩ | ⟨_, s, _, hu⟩
        · exact hp.2.2.under hu
        · exact (hp.2.1.under hu).exp)
    exact ⟨_, by simp only [h1, indexAt, List.getElem?_eq_getElem h2, h3, bind, Except.bind]; rfl⟩
  · exact ⟨_, rfl⟩

/-! ## attention -/

theorem topSel_lt {decay : Int → Rat} {arr : List Task} {cc : Int} (hne : arr ≠ []) :
    taskSelByCreditTop decay arr cc < arr.length := by
  obtain ⟨_, _, h3⟩ := topLoop_spec decay cc arr 0 (0, -5000)
  unfold taskSelByCreditTop
  rcases h3 with h3 | ⟨j, t, h1, h4, _⟩
  · rw [h3]; exact List.length_pos_iff.2 hne
  · rw [h4]; simpa using (List.getElem?_eq_some_iff.1 h1).1

theorem selectPrimary_total {cfg : Cfg} {sh : Shared} (hv : ∀ r ∈ sh.judgementTasks, r < sh.heap.length) : ∃ r, selectPrimary cfg sh = .ok r := by
  unfold selectPrimary
  split
  · rename_i hl
    obtain ⟨ts, hts⟩ := derefs_total (sh := sh) hv
    have hlen := (derefs_iff.1 hts).length_eq
    have : taskSelByCreditTop cfg.decay ts sh.cycleCounter < sh.judgementTasks.length := by
      rw [hlen]; apply topSel_lt; rintro rfl; rw [hlen] at hl; simp at hl
    exact ⟨_, by simp only [hts, indexAt, List.getElem?_eq_getElem this, bind, Except.bind]; rfl⟩
  · exact ⟨_, rfl⟩

theorem secondaryElligable_total {cfg : Cfg} {sh : Shared} {p : Nat} (hi : Inv cfg sh) (hp : p < sh.heap.length) :
    ∃ l, secondaryElligable sh p = .ok l := by
  unfold secondaryElligable
  have hc : ∀ r ∈ (retUniqueSubterms sh.heap[p].sentence.term).flatMap
      (fun t => ((lookupRefs sh.judgementTasksByTerm t).getD []).take 51), r < sh.heap.length := by
    intro r hr
    obtain ⟨t, _, hr⟩ := List.mem_flatMap.1 hr
    have hr := List.mem_of_mem_take hr
    cases hl : lookupRefs sh.judgementTasksByTerm t with
    | none => rw [hl] at hr; simp at hr
    | some refs =>
      rw [hl] at hr
      obtain ⟨t', h1, _⟩ := hi.lookup.1 t refs hl r hr
      exact (List.getElem?_eq_some_iff.1 h1).1
  obtain ⟨acc, hacc⟩ := addEligible_total (sh := sh) (acc0 := []) (by simp) hc
  have hv := (addEligible_fold hi.ids hacc (by simp) (by simp)).2.2
  obtain ⟨arr, harr⟩ := mapM_total (l := acc) (f := fun r => (do let t ← indexAt sh.heap r; Except.ok (calcComplexity t.sentence.term, r) : R (Nat × Nat))) (by
    intro r hr
    exact ⟨_, by simp only [indexAt, List.getElem?_eq_getElem (hv r hr), bind, Except.bind]; rfl⟩)
  exact ⟨_, by simp only [indexAt, List.getElem?_eq_getElem hp, bind, Except.bind, hacc]; simp only [bind, Except.bind, indexAt] at harr; rw [harr]⟩

theorem cleanupTasks_total {cfg : Cfg} {sh : Shared} (hv : ∀ r ∈ sh.judgementTasks, r < sh.heap.length) : ∃ sh', cleanupTasks cfg sh = .ok sh' := by
  unfold cleanupTasks
  obtain ⟨arr, harr⟩ := mapM_total (l := sh.judgementTasks) (f := fun r => (do
      let t ← indexAt sh.heap r; Except.ok (taskCalcCredit cfg.decay t sh.cycleCounter, r) : R (Rat × Nat))) (by
    intro r hr
    exact ⟨_, by simp only [indexAt, List.getElem?_eq_getElem (hv r hr), bind, Except.bind]; rfl⟩)
  rw [harr]; exact ⟨_, rfl⟩

theorem rebuildLookup_total {sh : Shared} (hv : ∀ r ∈ sh.judgementTasks, r < sh.heap.length) : ∃ sh', rebuildLookup sh = .ok sh' := by
  unfold rebuildLookup
  obtain ⟨arr, harr⟩ := mapM_total (l := sh.judgementTasks) (f := fun r => (do
      let t ← indexAt sh.heap r; Except.ok (t.sentence.term, r) : R (Term × Nat))) (by
    intro r hr
    exact ⟨_, by simp only [indexAt, List.getElem?_eq_getElem (hv r hr), bind, Except.bind]; rfl⟩)
  rw [harr]; exact ⟨_, rfl⟩

/-! ## adding -/

theorem MemP.saneMem {m : Mem} (h : MemP Good m) : SaneMem m :=
  fun c hc => ⟨fun b hb => ((h c hc).1 b hb).sane, fun b hb => ((h c hc).2 b hb).sane⟩

theorem addBelief_total {m : Mem} {s : Sentence} {n : Nat} {now : Int} (hm : SaneMem m)
    (hs : s.punct = .JUGEMENT → SaneBelief s) : ∃ r, addBelief m s n now = .ok r := by
  obtain ⟨⟨m1, r⟩, h1, hm1⟩ := revise_total m s hm hs
  unfold addBelief
  cases r with
  | some x => exact ⟨_, by simp only [h1, bind, Except.bind]; rfl⟩
  | none =>
    obtain ⟨m2, h2, _⟩ := store_total m1 s (retSubterms s.term) n now hm1 hs
    exact ⟨_, by simp only [h1, bind, Except.bind]; unfold storeInConcepts; rw [h2]⟩

theorem addTasks_total {cfg : Cfg} {cc : Bool} {mc : Rat} {ss : List Sentence} {sh : Shared} (hi : Inv cfg sh)
    (hs : ∀ s ∈ ss, s.punct = .JUGEMENT → WellFormed s.term)
    (hc : ∀ s ∈ ss, (calcComplexity s.term : Int) ≤ cfg.maxComplexity) : ∃ sh', addTasks sh cc mc ss = .ok sh' := by
  induction ss generalizing sh with
  | nil => exact ⟨_, rfl⟩
  | cons s ss ih =>
    have hs' : ∀ s ∈ ss, s.punct = .JUGEMENT → WellFormed s.term := fun x hx => hs x (List.mem_cons_of_mem _ hx)
    have hc' : ∀ s ∈ ss, (calcComplexity s.term : Int) ≤ cfg.maxComplexity := fun x hx => hc x (List.mem_cons_of_mem _ hx)
    unfold addTasks
    cases hp : s.punct with
    | JUGEMENT =>
      obtain ⟨ts, hts⟩ := derefs_total (sh := sh) hi.valid
      simp only [hts, bind, Except.bind]
      by_cases he : taskExists ts s = true
      · rw [if_pos he]; exact ⟨_, rfl⟩
      · rw [if_neg he]
        obtain ⟨t', ht'⟩ := payCredit_total (cc := cc)
          (t := { sentence := shallowCopySentence s, credit := 1, qaCredit := 0, mulCredit := mc,
                  id := sh.taskIdCounter, derivTime := sh.cycleCounter }) (hs s (by simp) hp)
        simp only [ht']
        exact ih (hi.push s t' ((payCredit_core ht').trans rfl) ts hts (by simpa using he) (hc s (by simp))) hs' hc'
    | QUESTION => exact ih (hi.of_core rfl rfl rfl rfl) hs' hc'
    | GOAL => exact ih hi hs' hc'

theorem memAddTask_total {cfg : Cfg} {sh : Shared} {s : Sentence} {cc : Bool} {mc : Rat} {now : Int} (hi : Inv cfg sh)
    (hp : AllP Good HasExp sh) (hs : s.punct = .JUGEMENT → Good s) : ∃ sh', memAddTask cfg sh s cc mc now = .ok sh' := by
  unfold memAddTask
  split
  · exact ⟨_, rfl⟩
  · rename_i hcx
    obtain ⟨⟨mem, rev⟩, h1⟩ := addBelief_total (n := cfg.nBeliefs) (now := now) hp.2.1.saneMem (fun h => (hs h).sane)
    simp only [h1, bind, Except.bind]
    have hr := addBelief_P good_closed h1 hp.2.1 hs
    refine addTasks_total (cfg := cfg) (hi.of_core rfl rfl rfl rfl) ?_ ?_
    · intro x hx hj
      rcases List.mem_cons.1 hx with rfl | hx
      · exact (hs hj).2.2
      · rw [Option.mem_toList] at hx; exact (hr.2 x hx).2.2
    · intro x hx
      rcases List.mem_cons.1 hx with rfl | hx
      · omega
      · rw [Option.mem_toList] at hx
        subst hx
        rcases addBelief_cases h1 with ⟨y, hy, h2⟩ | ⟨hn, _⟩
        · cases hy
          rw [memRevise_result_term h2]; omega
        · cases hn

end Nar
