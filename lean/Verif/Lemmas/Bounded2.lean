import Verif.Lemmas.Bounded1
/-! # Helper lemmas: how many tasks are kept -/
namespace Nar
open Term

theorem KeepsAtMost.sub {sh sh' : Shared} {n : Nat} (h : KeepsAtMost sh n) (hs : ∀ r, TaskKept sh' r → TaskKept sh r) :
    KeepsAtMost sh' n := by
  obtain ⟨l, h1, h2⟩ := h
  exact ⟨l, h1, fun r hr => h2 r (hs r hr)⟩

theorem KeepsAtMost.same {sh sh' : Shared} {n : Nat} (h : KeepsAtMost sh n) (h1 : sh'.judgementTasks = sh.judgementTasks)
    (h2 : sh'.judgementTasksByTerm = sh.judgementTasksByTerm) : KeepsAtMost sh' n :=
  h.sub fun r hr => by unfold TaskKept at *; rw [h1, h2] at hr; exact hr

theorem KeepsAtMost.mono {sh : Shared} {n k : Nat} (h : KeepsAtMost sh n) (hk : n ≤ k) : KeepsAtMost sh k := by
  obtain ⟨l, h1, h2⟩ := h
  exact ⟨l, le_trans h1 hk, h2⟩

/-- the entries of the lookup after adding a task -/
theorem populate_refs (m : List (Term × List Nat)) (term : Term) (r : Nat) :
    ∀ p ∈ populateTaskByTermLookup m term r, ∀ x ∈ p.2, x = r ∨ ∃ q ∈ m, x ∈ q.2 := by
  have push : ∀ (m : List (Term × List Nat)) (t : Term), ∀ p ∈ pushRef m t r, ∀ x ∈ p.2, x = r ∨ ∃ q ∈ m, x ∈ q.2 := by
    intro m t
    induction m with
    | nil =>
      intro p hp x hx
      simp only [pushRef, List.mem_singleton] at hp
      subst hp
      simp only [List.mem_singleton] at hx
      exact .inl hx
    | cons q m ih =>
      intro p hp x hx
      obtain ⟨k, rs⟩ := q
      unfold pushRef at hp
      split at hp
      · rcases List.mem_cons.1 hp with rfl | hp
        · simp only [List.mem_append, List.mem_singleton] at hx
          rcases hx with hx | hx
          · exact .inr ⟨_, List.mem_cons_self, hx⟩
          · exact .inl hx
        · exact .inr ⟨p, List.mem_cons_of_mem _ hp, hx⟩
      · rcases List.mem_cons.1 hp with rfl | hp
        · exact .inr ⟨_, List.mem_cons_self, hx⟩
        · rcases ih p hp x hx with h | ⟨q, hq, h⟩
          · exact .inl h
          · exact .inr ⟨q, List.mem_cons_of_mem _ hq, h⟩
  unfold populateTaskByTermLookup
  generalize retSubterms term = ts
  induction ts generalizing m with
  | nil => intro p hp x hx; exact .inr ⟨p, hp, hx⟩
  | cons t ts ih =>
    intro p hp x hx
    rw [List.foldl_cons] at hp
    rcases ih _ p hp x hx with h | ⟨q, hq, h⟩
    · exact .inl h
    · exact push m t q hq x h

theorem addTasks_keeps {cc : Bool} {mc : Rat} {ss : List Sentence} {sh sh' : Shared} {n : Nat}
    (h : addTasks sh cc mc ss = .ok sh') (hk : KeepsAtMost sh n) : KeepsAtMost sh' (n + ss.length) := by
  induction ss generalizing sh n with
  | nil => cases h; exact hk
  | cons s ss ih =>
    unfold addTasks at h
    cases hp : s.punct with
    | JUGEMENT =>
      rw [hp] at h
      simp only [R.bind_ok] at h
      obtain ⟨tasks, _, h⟩ := h
      split at h
      · cases h; exact hk.mono (by omega)
      · rw [R.bind_ok] at h
        obtain ⟨task, _, h⟩ := h
        have := ih (n := n + 1) h ?_
        · refine this.mono ?_
          simp only [List.length_cons]; omega
        · obtain ⟨l, h1, h2⟩ := hk
          refine ⟨l ++ [sh.heap.length], by simp; omega, ?_⟩
          rintro r (hr | ⟨p, hp, hr⟩)
          · simp only [List.mem_append, List.mem_singleton] at hr ⊢
            exact hr.imp_left fun h => h2 r (.inl h)
          · simp only [List.mem_append, List.mem_singleton]
            rcases populate_refs _ _ _ p hp r hr with h | ⟨q, hq, h⟩
            · exact .inr h
            · exact .inl (h2 r (.inr ⟨q, hq, h⟩))
    | QUESTION =>
      rw [hp] at h
      have := ih (n := n) h (hk.same rfl rfl)
      exact this.mono (by simp only [List.length_cons]; omega)
    | GOAL =>
      rw [hp] at h
      have := ih (n := n) h hk
      exact this.mono (by simp only [List.length_cons]; omega)

theorem memAddTask_keeps {cfg : Cfg} {sh sh' : Shared} {s : Sentence} {cc : Bool} {mc : Rat} {now : Int} {n : Nat}
    (h : memAddTask cfg sh s cc mc now = .ok sh') (hk : KeepsAtMost sh n) : KeepsAtMost sh' (n + 2) := by
  rcases memAddTask_cases h with ⟨_, rfl⟩ | ⟨_, mem, rev, _, h2⟩
  · exact hk.mono (by omega)
  · have := addTasks_keeps (n := n) h2 (hk.same rfl rfl)
    refine this.mono ?_
    cases rev <;> simp

/-! ## a cycle -/

theorem rebuild_keeps {sh sh' : Shared} (h : rebuildLookup sh = .ok sh') :
    sh'.judgementTasks = sh.judgementTasks ∧ ∀ r, TaskKept sh' r → r ∈ sh.judgementTasks := by
  unfold rebuildLookup at h
  obtain ⟨terms, h1, h⟩ := R.bind_ok.1 h
  rw [← Except.ok.inj h]
  refine ⟨rfl, ?_⟩
  have ht : ∀ p ∈ terms, p.2 ∈ sh.judgementTasks := by
    intro p hp
    obtain ⟨r, hr, g⟩ := forall₂_right_mem (mapM_ok_iff.1 h1) hp
    obtain ⟨t, _, g⟩ := R.bind_ok.1 g
    rw [← Except.ok.inj g]; exact hr
  have key : ∀ (l : List (Term × Nat)) (m : List (Term × List Nat)), (∀ p ∈ l, p.2 ∈ sh.judgementTasks) →
      (∀ p ∈ m, ∀ x ∈ p.2, x ∈ sh.judgementTasks) →
      ∀ p ∈ l.foldl (fun m p => populateTaskByTermLookup m p.1 p.2) m, ∀ x ∈ p.2, x ∈ sh.judgementTasks := by
    intro l
    induction l with
    | nil => intro m _ hm; exact hm
    | cons a l ih =>
      intro m hl hm
      rw [List.foldl_cons]
      refine ih _ (fun p hp => hl p (by simp [hp])) ?_
      intro p hp x hx
      rcases populate_refs _ _ _ p hp x hx with h | ⟨q, hq, h⟩
      · rw [h]; exact hl a (by simp)
      · exact hm q hq x h
  rintro r (hr | ⟨p, hp, hr⟩)
  · exact hr
  · exact key terms [] ht (by simp) p hp r hr

theorem cleanup_keeps {cfg : Cfg} {sh sh' : Shared} (h : cleanupTasks cfg sh = .ok sh') :
    sh'.judgementTasks.length ≤ 30 ∧ ∀ r, TaskKept sh' r → TaskKept sh r := by
  obtain ⟨sorted, h1, _, _, rfl⟩ := cleanupTasks_spec h
  constructor
  · simp only [List.length_map]
    refine le_trans (List.length_filter_le _ _) ?_
    rw [List.length_take]; omega
  · rintro r (hr | hr)
    · left
      obtain ⟨p, hp, rfl⟩ := List.mem_map.1 hr
      exact h1.mem_iff.1 (List.mem_map.2 ⟨p, List.mem_of_mem_take (List.mem_filter.1 hp).1, rfl⟩)
    · exact .inr hr

theorem buildMsg_keeps {cfg : Cfg} {sh sh' : Shared} {msg : Option Msg} (h : buildMsg cfg sh = .ok (sh', msg)) :
    ∀ r, TaskKept sh' r → TaskKept sh r := by
  unfold buildMsg at h
  obtain ⟨⟨sh1, prim⟩, h1, h⟩ := R.bind_ok.1 h
  have hk : ∀ r, TaskKept sh1 r → TaskKept sh r := by
    rcases selectPrimary_cases h1 with ⟨_, e⟩ | ⟨tasks, p, _, hp, e⟩
    · obtain ⟨rfl, rfl⟩ := Prod.mk.inj e
      exact fun _ h => h
    · obtain ⟨rfl, rfl⟩ := Prod.mk.inj e
      rintro r (hr | hr)
      · exact .inl (List.mem_of_mem_eraseIdx ((swapRemove_perm _ _ (List.getElem?_eq_some_iff.1 hp).1).mem_iff.1 hr))
      · exact .inr hr
  cases prim with
  | none => rw [← (Prod.mk.inj (Except.ok.inj h)).1]; exact hk
  | some p =>
    obtain ⟨sec, _, h⟩ := R.bind_ok.1 h
    rw [← (Prod.mk.inj (Except.ok.inj h)).1]; exact hk

theorem reasonCycle_keeps {cfg : Cfg} {v : Rat} {now : Int} {sh sh' : Shared} {msg : Option Msg} {calls : List AnswerCall} {n : Nat}
    (h : reasonCycle cfg v now sh = .ok (sh', msg, calls)) (hk : KeepsAtMost sh n) :
    sh'.cycleCounter = sh.cycleCounter + 1 ∧ KeepsAtMost sh' n ∧ (sh'.cycleCounter % 111 = 0 → KeepsAtMost sh' 30) ∧
      (sh'.cycleCounter % 173 = 0 → sh'.mem.length ≤ 3000) := by
  unfold reasonCycle at h
  obtain ⟨sh1, h1, h⟩ := R.bind_ok.1 h
  obtain ⟨⟨sh2, c2⟩, h2, h⟩ := R.bind_ok.1 h
  obtain ⟨⟨sh3, m3⟩, h3, h⟩ := R.bind_ok.1 h
  obtain ⟨sh4, h4, h⟩ := R.bind_ok.1 h
  obtain ⟨sh5, h5, h⟩ := R.bind_ok.1 h
  obtain ⟨e, e'⟩ := Prod.mk.inj (Except.ok.inj h)
  obtain ⟨rfl, rfl⟩ := Prod.mk.inj e'
  subst e
  have k0 := hk.same (sh' := { sh with cycleCounter := sh.cycleCounter + 1 }) rfl rfl
  have s1 := (creditQuestions_same { sh with cycleCounter := sh.cycleCounter + 1 }).trans (baseCredit_same h1)
  have k1 := k0.same s1.2.1 s1.2.2.1
  obtain ⟨qs, hq⟩ := answerSampled_frame h2
  simp only at hq
  have k2 : KeepsAtMost sh2 n := k1.same (by rw [hq]) (by rw [hq])
  have k3 := k2.sub (buildMsg_keeps h3)
  have hc : (useMsg sh3 now m3).cycleCounter = sh.cycleCounter + 1 := by
    have e1 : (useMsg sh3 now m3).cycleCounter = sh3.cycleCounter := by
      cases m3 with
      | none => rfl
      | some m => exact updateUsage_counter _ _ _
    rw [e1, buildMsg_counter h3, hq, baseCredit_counter h1, creditQuestions_counter]
  have k4 : KeepsAtMost (useMsg sh3 now m3) n := by
    cases m3 with
    | none => exact k3
    | some m =>
      have := updateUsage_same sh3 m now
      exact k3.same this.working this.byTerm
  have c4 := everyCleanup_counter h4
  have k5 : KeepsAtMost sh4 n ∧ (sh4.cycleCounter % 111 = 0 → KeepsAtMost sh4 30) := by
    rw [c4]
    unfold everyCleanup at h4
    split at h4
    · obtain ⟨sh6, g1, g2⟩ := R.bind_ok.1 h4
      obtain ⟨a1, a2⟩ := cleanup_keeps g1
      obtain ⟨b1, b2⟩ := rebuild_keeps g2
      exact ⟨(k4.sub a2).sub fun r hr => .inl (b2 r hr), fun _ => ⟨sh6.judgementTasks, a1, b2⟩⟩
    · rename_i hn
      rw [← Except.ok.inj h4]
      exact ⟨k4, fun h => absurd h hn⟩
  unfold everyForget at h5
  split at h5
  · obtain ⟨m, g1, g2⟩ := R.bind_ok.1 h5
    rw [← Except.ok.inj g2]
    refine ⟨by show sh4.cycleCounter = _; rw [c4, hc], k5.1.same rfl rfl, fun hz => (k5.2 hz).same rfl rfl, fun _ => ?_⟩
    rcases limitMemory_cases g1 with ⟨hl, rfl⟩ | ⟨_, sorted, _, _, _, rfl⟩
    · exact hl
    · simp only [List.length_map, List.length_take]; omega
  · rename_i hn
    rw [← Except.ok.inj h5]
    exact ⟨by rw [c4, hc], k5.1, k5.2, fun h => absurd h hn⟩

end Nar
