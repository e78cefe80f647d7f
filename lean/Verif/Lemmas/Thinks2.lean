import Verif.Lemmas.Thinks1
/-! # Helper lemmas: what a quiet cycle takes and whom it pairs -/
namespace Nar
open Term

theorem rebuildLookup_frame {sh sh' : Shared} (h : rebuildLookup sh = .ok sh') :
    sh'.judgementTasks = sh.judgementTasks ∧ sh'.heap = sh.heap := by
  unfold rebuildLookup at h
  obtain ⟨_, _, h⟩ := R.bind_ok.1 h
  cases h; exact ⟨rfl, rfl⟩

theorem everyCleanup_frame {cfg : Cfg} {sh sh' : Shared} (h : everyCleanup cfg sh = .ok sh') :
    sh'.heap = sh.heap ∧ (∃ l, l.Perm sh.judgementTasks ∧ sh'.judgementTasks.Sublist l) ∧
    (sh.cycleCounter % 111 ≠ 0 → sh' = sh) := by
  unfold everyCleanup at h
  split at h
  · rename_i h0
    obtain ⟨sh1, h1, h⟩ := R.bind_ok.1 h
    obtain ⟨sorted, hp, _, _, rfl⟩ := cleanupTasks_spec h1
    obtain ⟨e1, e2⟩ := rebuildLookup_frame h
    refine ⟨e2, ⟨sorted.map (·.2), hp, ?_⟩, fun hne => absurd h0 hne⟩
    rw [e1]
    exact (List.filter_sublist.trans (List.take_sublist _ _)).map _
  · cases h
    exact ⟨rfl, ⟨_, .refl _, .refl _⟩, fun _ => rfl⟩

theorem everyForget_frame {sh sh' : Shared} (h : everyForget sh = .ok sh') :
    sh'.heap = sh.heap ∧ sh'.judgementTasks = sh.judgementTasks ∧ sh'.judgementTasksByTerm = sh.judgementTasksByTerm ∧
    sh'.cycleCounter = sh.cycleCounter := by
  unfold everyForget at h
  split at h
  · obtain ⟨m, h1, h⟩ := R.bind_ok.1 h
    cases h; exact ⟨rfl, rfl, rfl, rfl⟩
  · cases h; exact ⟨rfl, rfl, rfl, rfl⟩

theorem useMsg_frame (sh : Shared) (now : Int) (msg : Option Msg) :
    (useMsg sh now msg).judgementTasks = sh.judgementTasks ∧
    (useMsg sh now msg).judgementTasksByTerm = sh.judgementTasksByTerm ∧
    (useMsg sh now msg).heap.length = sh.heap.length ∧ (useMsg sh now msg).cycleCounter = sh.cycleCounter := by
  cases msg with
  | none => exact ⟨rfl, rfl, rfl, rfl⟩
  | some m =>
    have := updateUsage_same sh m now
    refine ⟨this.working, this.byTerm, ?_, updateUsage_counter _ _ _⟩
    simpa [useMsg] using congrArg List.length this.core

/-- all partners in the lookup are taken -/
theorem secondary_complete {cfg : Cfg} {sh : Shared} (hi : Inv cfg sh) {p : Nat} {pt : Task} (hp : sh.heap[p]? = some pt)
    {secs : List Nat} (hsec : secondaryElligable sh p = .ok secs) (room : Room sh) {r : Nat} {s : Term} {refs : List Nat}
    (hs : IsSubterm s pt.sentence.term) (hl : lookupRefs sh.judgementTasksByTerm s = some refs) (hrr : r ∈ refs) : r ∈ secs := by
  unfold secondaryElligable at hsec
  rw [R.bind_ok] at hsec
  obtain ⟨pt', hpt, hsec⟩ := hsec
  rw [indexAt_ok, hp] at hpt
  cases hpt
  simp only [R.bind_ok] at hsec
  obtain ⟨acc, hacc, arr, harr, hsec⟩ := hsec
  cases hsec
  obtain ⟨k1, k2, k3⟩ := addEligible_fold hi.ids hacc (by simp) (by simp)
  have hracc : r ∈ acc := by
    rw [k2]; right
    refine List.mem_flatMap.2 ⟨s, (mem_retUniqueSubterms _ _).2 hs, ?_⟩
    rw [hl, Option.getD_some, List.take_of_length_le (room.perTerm s refs hl)]
    exact hrr
  rw [mapM_ok_iff] at harr
  obtain ⟨x, hx, hxr⟩ := forall₂_left_mem harr hracc
  rw [R.bind_ok] at hxr
  obtain ⟨_, _, hxr⟩ := hxr
  cases hxr
  have hle : acc.length ≤ sh.heap.length := by
    have : acc.Subperm (List.range sh.heap.length) :=
      List.subperm_of_subset k1 (fun r hr => List.mem_range.2 (k3 r hr))
    simpa using this.length_le
  have hlen : (sortAsc arr).length ≤ 300 := by
    rw [(sortAsc_perm arr).length_eq, ← harr.length_eq]; have := room.total; omega
  rw [Nat.min_eq_left hlen, List.take_length]
  exact List.mem_map.2 ⟨_, (sortAsc_perm arr).mem_iff.2 hx, rfl⟩

/-- the partners which share a term with the primary task of a message are in the message -/
def Paired (sh : Shared) (m : Msg) : Prop :=
  ∀ pt, sh.heap[m.primary]? = some pt → ∀ (r : Nat) (s : Term) (refs : List Nat), IsSubterm s pt.sentence.term →
    lookupRefs sh.judgementTasksByTerm s = some refs → r ∈ refs → r ∈ m.secondary

/-- only tasks among the first 51 which use a term of the primary task are looked at -/
theorem secondary_sound {cfg : Cfg} {sh : Shared} (hi : Inv cfg sh) {p : Nat} {pt : Task} (hp : sh.heap[p]? = some pt)
    {secs : List Nat} (hsec : secondaryElligable sh p = .ok secs) {r : Nat} (hr : r ∈ secs) :
    ∃ s refs, IsSubterm s pt.sentence.term ∧ lookupRefs sh.judgementTasksByTerm s = some refs ∧ r ∈ refs.take 51 := by
  unfold secondaryElligable at hsec
  rw [R.bind_ok] at hsec
  obtain ⟨pt', hpt, hsec⟩ := hsec
  rw [indexAt_ok, hp] at hpt
  cases hpt
  simp only [R.bind_ok] at hsec
  obtain ⟨acc, hacc, arr, harr, hsec⟩ := hsec
  cases hsec
  obtain ⟨k1, k2, k3⟩ := addEligible_fold hi.ids hacc (by simp) (by simp)
  obtain ⟨x, hx, rfl⟩ := List.mem_map.1 hr
  have hx' := (sortAsc_perm arr).mem_iff.1 (List.mem_of_mem_take hx)
  rw [mapM_ok_iff] at harr
  obtain ⟨y, hy, hyr⟩ := forall₂_right_mem harr hx'
  rw [R.bind_ok] at hyr
  obtain ⟨_, _, hyr⟩ := hyr
  cases hyr
  rcases (k2 y).1 hy with hn | hn
  · cases hn
  · obtain ⟨s, hs, hm⟩ := List.mem_flatMap.1 hn
    cases hl : lookupRefs sh.judgementTasksByTerm s with
    | none => rw [hl] at hm; simp at hm
    | some refs =>
      rw [hl, Option.getD_some] at hm
      exact ⟨s, refs, (mem_retUniqueSubterms _ _).1 hs, hl, hm⟩

/-- the partners in a message are among the first 51 tasks which use a term of the primary task -/
def Only (sh : Shared) (m : Msg) : Prop :=
  ∀ pt, sh.heap[m.primary]? = some pt → ∀ r ∈ m.secondary, ∃ s refs, IsSubterm s pt.sentence.term ∧
    lookupRefs sh.judgementTasksByTerm s = some refs ∧ r ∈ refs.take 51

/-- same tasks up to credits and counters, same lookup -/
structure Alike (sh sh' : Shared) : Prop where
  kept : HeapKept sh.heap sh'.heap
  length : sh'.heap.length = sh.heap.length
  byTerm : sh'.judgementTasksByTerm = sh.judgementTasksByTerm

theorem Alike.back {sh sh' : Shared} (h : Alike sh sh') {r : Nat} {t' : Task} (ht : sh'.heap[r]? = some t') :
    ∃ t, sh.heap[r]? = some t ∧ SameSent t t' := by
  have hr : r < sh.heap.length := by rw [← h.length]; exact (List.getElem?_eq_some_iff.1 ht).1
  obtain ⟨t1, h1, h2⟩ := h.kept r sh.heap[r] (List.getElem?_eq_getElem hr)
  rw [ht] at h1; cases h1
  exact ⟨sh.heap[r], List.getElem?_eq_getElem hr, h2⟩

theorem SameSent.term {t t' : Task} (h : SameSent t t') : t'.sentence.term = t.sentence.term := by
  unfold SameSent at h; rw [h]

theorem Alike.room {sh sh' : Shared} (h : Alike sh sh') (hr : Room sh) : Room sh' :=
  ⟨by rw [h.byTerm]; exact hr.perTerm, by rw [h.length]; exact hr.total⟩

theorem Alike.trans {a b c : Shared} (h : Alike a b) (h' : Alike b c) : Alike a c :=
  ⟨h.kept.trans h'.kept, h'.length.trans h.length, h'.byTerm.trans h.byTerm⟩

theorem Alike.refl (a : Shared) : Alike a a := ⟨.refl _, rfl, rfl⟩

theorem Alike.paired {sh sh' : Shared} (h : Alike sh sh') {m : Msg} (hp : Paired sh' m) : Paired sh m := by
  intro pt hpt r s refs hs hl hr
  obtain ⟨pt', h1, h2⟩ := h.kept _ _ hpt
  exact hp pt' h1 r s refs (by rw [h2.term]; exact hs) (by rw [h.byTerm]; exact hl) hr

theorem Alike.only {sh sh' : Shared} (h : Alike sh sh') {m : Msg} (hp : Only sh' m) : Only sh m := by
  intro pt hpt r hr
  obtain ⟨pt', h1, h2⟩ := h.kept _ _ hpt
  obtain ⟨s, refs, k1, k2, k3⟩ := hp pt' h1 r hr
  exact ⟨s, refs, by rw [← h2.term]; exact k1, by rw [← h.byTerm]; exact k2, k3⟩

theorem baseCredit_alike {sh sh' : Shared} (h : baseCredit sh = .ok sh') : Alike sh sh' :=
  ⟨baseCredit_kept h, by simpa using congrArg List.length (baseCredit_same h).1, (baseCredit_same h).2.2.1⟩

theorem creditQuestions_alike (sh : Shared) : Alike sh (creditQuestions sh) :=
  ⟨creditQuestions_kept sh, by simpa using congrArg List.length (creditQuestions_same sh).1, (creditQuestions_same sh).2.2.1⟩

/-- the effect of one cycle on the pending tasks -/
theorem reasonCycle_taken {cfg : Cfg} {v : Rat} {now : Int} {sh sh' : Shared} {msg : Option Msg} {calls : List AnswerCall}
    (h : reasonCycle cfg v now sh = .ok (sh', msg, calls)) (hi : Inv cfg sh) :
    HeapKept sh.heap sh'.heap ∧ sh'.heap.length = sh.heap.length ∧ sh'.cycleCounter = sh.cycleCounter + 1 ∧
    ((sh.cycleCounter + 1) % 111 ≠ 0 → Alike sh sh') ∧
    ((sh.judgementTasks = [] ∧ msg = none ∧ sh'.judgementTasks = []) ∨
     ∃ m l, msg = some m ∧ (m.primary :: l).Perm sh.judgementTasks ∧ (∃ l', l'.Perm l ∧ sh'.judgementTasks.Sublist l') ∧
      ((sh.cycleCounter + 1) % 111 ≠ 0 → sh'.judgementTasks = l) ∧ (Room sh → Paired sh m) ∧ Only sh m) := by
  have hmore := (moreTasks_kept (reasonCycle_more [] h)).heap
  unfold reasonCycle at h
  obtain ⟨sh1, h1, h⟩ := R.bind_ok.1 h
  obtain ⟨⟨sh2, c2⟩, h2, h⟩ := R.bind_ok.1 h
  obtain ⟨⟨sh3, m3⟩, h3, h⟩ := R.bind_ok.1 h
  obtain ⟨sh4, h4, h⟩ := R.bind_ok.1 h
  obtain ⟨sh5, h5, h⟩ := R.bind_ok.1 h
  cases h
  obtain ⟨f1, f2, f3, f4⟩ := everyForget_frame h5
  obtain ⟨g1, g2, g3⟩ := everyCleanup_frame h4
  obtain ⟨u1, u2, u3, u4⟩ := useMsg_frame sh3 now msg
  obtain ⟨qs, hq⟩ := answerSampled_frame h2
  simp only at hq
  -- the state in which the task is selected
  have a1 : Alike sh sh2 := by
    have a := (creditQuestions_alike { sh with cycleCounter := sh.cycleCounter + 1 }).trans (baseCredit_alike h1)
    rw [hq]
    exact ⟨a.kept, a.length, a.byTerm⟩
  have j1 : sh2.judgementTasks = sh.judgementTasks := by
    rw [hq]
    show sh1.judgementTasks = _
    rw [(baseCredit_same h1).2.1, (creditQuestions_same _).2.1]
  have c1 : sh2.cycleCounter = sh.cycleCounter + 1 := by
    rw [hq]
    show sh1.cycleCounter = _
    rw [baseCredit_counter h1, creditQuestions_counter]
  have i1 : Inv cfg sh2 := by
    have i0 : Inv cfg sh1 := by
      have hs := (creditQuestions_same { sh with cycleCounter := sh.cycleCounter + 1 }).trans (baseCredit_same h1)
      exact hi.of_core hs.1 hs.2.1 hs.2.2.1 hs.2.2.2.1
    rw [hq]
    exact i0.of_core rfl rfl rfl rfl
  -- the selection
  have hsel : sh3.heap = sh2.heap ∧ sh3.judgementTasksByTerm = sh2.judgementTasksByTerm ∧ sh3.cycleCounter = sh2.cycleCounter ∧
      ((sh2.judgementTasks = [] ∧ msg = none ∧ sh3.judgementTasks = []) ∨
       ∃ m, msg = some m ∧ (m.primary :: sh3.judgementTasks).Perm sh2.judgementTasks ∧ (Room sh2 → Paired sh2 m) ∧ Only sh2 m) := by
    unfold buildMsg at h3
    obtain ⟨⟨shs, prim⟩, hs, h3⟩ := R.bind_ok.1 h3
    have is := selectPrimary_inv hs i1
    rcases selectPrimary_cases hs with ⟨e, he⟩ | ⟨tasks, p, _, hp, he⟩
    · cases he
      cases h3
      exact ⟨rfl, rfl, rfl, .inl ⟨e, rfl, e⟩⟩
    · cases he
      obtain ⟨sec, hsec, h3⟩ := R.bind_ok.1 h3
      cases h3
      refine ⟨rfl, rfl, rfl, .inr ⟨_, rfl, ?_, ?_, ?_⟩⟩
      · have hlt := (List.getElem?_eq_some_iff.1 hp).1
        have hperm := swapRemove_perm sh2.judgementTasks _ hlt
        have e := (List.getElem?_eq_some_iff.1 hp).2
        refine ((hperm.cons p).trans ?_)
        have := List.getElem_cons_eraseIdx_perm hlt
        rw [e] at this
        exact this
      · intro room pt hpt r s refs hs' hl hr
        exact secondary_complete is hpt hsec ⟨room.perTerm, room.total⟩ hs' hl hr
      · intro pt hpt r hr
        exact secondary_sound is hpt hsec hr
  obtain ⟨k1, k2, k3, k4⟩ := hsel
  have hcc : (useMsg sh3 now msg).cycleCounter = sh.cycleCounter + 1 := by rw [u4, k3, c1]
  refine ⟨hmore, ?_, ?_, ?_, ?_⟩
  · rw [f1, g1, u3, k1]; exact a1.length
  · rw [f4, everyCleanup_counter h4, hcc]
  · intro hne
    refine ⟨hmore, ?_, ?_⟩
    · rw [f1, g1, u3, k1]; exact a1.length
    · rw [f3, g3 (by rw [hcc]; exact hne), u2, k2]; exact a1.byTerm
  · rcases k4 with ⟨e1, e2, e3⟩ | ⟨m, e1, e2, e3, e4⟩
    · refine .inl ⟨by rw [← j1]; exact e1, e2, ?_⟩
      obtain ⟨l, hl, hsub⟩ := g2
      rw [u1, e3] at hl
      rw [List.perm_nil] at hl
      rw [hl] at hsub
      rw [f2]
      exact List.sublist_nil.1 hsub
    · refine .inr ⟨m, sh3.judgementTasks, e1, by rw [← j1]; exact e2, ?_, ?_, ?_, a1.only e4⟩
      · obtain ⟨l, hl, hsub⟩ := g2
        rw [u1] at hl
        exact ⟨l, hl, by rw [f2]; exact hsub⟩
      · intro hne
        rw [f2, g3 (by rw [hcc]; exact hne), u1]
      · intro room
        exact a1.paired (e3 (a1.room room))

end Nar
