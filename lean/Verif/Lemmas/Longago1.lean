import Verif.Spec.Longago
import Verif.Lemmas.Exact3
import Verif.Lemmas.Bounded2
/-! # Helper lemmas: which tasks can still be premises -/
namespace Nar
open Term

/-- a cycle makes no other task available, and every 111th leaves only those which are pending -/
theorem reasonCycle_sub {cfg : Cfg} {v : Rat} {now : Int} {sh sh' : Shared} {msg : Option Msg} {calls : List AnswerCall}
    (h : reasonCycle cfg v now sh = .ok (sh', msg, calls)) :
    (∀ r, TaskKept sh' r → TaskKept sh r) ∧ (sh'.cycleCounter % 111 = 0 → ∀ r, TaskKept sh' r → r ∈ sh'.judgementTasks) := by
  unfold reasonCycle at h
  obtain ⟨sh1, h1, h⟩ := R.bind_ok.1 h
  obtain ⟨⟨sh2, c2⟩, h2, h⟩ := R.bind_ok.1 h
  obtain ⟨⟨sh3, m3⟩, h3, h⟩ := R.bind_ok.1 h
  obtain ⟨sh4, h4, h⟩ := R.bind_ok.1 h
  obtain ⟨sh5, h5, h⟩ := R.bind_ok.1 h
  obtain ⟨e, e'⟩ := Prod.mk.inj (Except.ok.inj h)
  obtain ⟨rfl, rfl⟩ := Prod.mk.inj e'
  subst e
  have same : ∀ {a b : Shared}, b.judgementTasks = a.judgementTasks → b.judgementTasksByTerm = a.judgementTasksByTerm →
      ∀ r, TaskKept b r → TaskKept a r := by
    intro a b e1 e2 r hr; unfold TaskKept at *; rw [e1, e2] at hr; exact hr
  have s1 := (creditQuestions_same { sh with cycleCounter := sh.cycleCounter + 1 }).trans (baseCredit_same h1)
  have k1 : ∀ r, TaskKept sh1 r → TaskKept sh r := same s1.2.1 s1.2.2.1
  obtain ⟨qs, hq⟩ := answerSampled_frame h2
  simp only at hq
  have k2 : ∀ r, TaskKept sh2 r → TaskKept sh1 r := same (by rw [hq]) (by rw [hq])
  have k3 := buildMsg_keeps h3
  have k4 : ∀ r, TaskKept (useMsg sh3 now m3) r → TaskKept sh3 r := by
    cases m3 with
    | none => exact fun _ h => h
    | some m =>
      have := updateUsage_same sh3 m now
      exact same this.working this.byTerm
  have k5 : (∀ r, TaskKept sh4 r → TaskKept (useMsg sh3 now m3) r) ∧
      (sh4.cycleCounter % 111 = 0 → ∀ r, TaskKept sh4 r → r ∈ sh4.judgementTasks) := by
    have c4 := everyCleanup_counter h4
    rw [c4]
    unfold everyCleanup at h4
    split at h4
    · obtain ⟨sh6, g1, g2⟩ := R.bind_ok.1 h4
      obtain ⟨_, a2⟩ := cleanup_keeps g1
      obtain ⟨b1, b2⟩ := rebuild_keeps g2
      exact ⟨fun r hr => a2 r (.inl (b2 r hr)), fun _ r hr => by rw [b1]; exact b2 r hr⟩
    · rename_i hn
      rw [← Except.ok.inj h4]
      exact ⟨fun _ h => h, fun h => absurd h hn⟩
  have all : ∀ r, TaskKept sh4 r → TaskKept sh r := fun r hr => k1 r (k2 r (k3 r (k4 r (k5.1 r hr))))
  unfold everyForget at h5
  split at h5
  · obtain ⟨m, g1, g2⟩ := R.bind_ok.1 h5
    rw [← Except.ok.inj g2]
    exact ⟨fun r hr => all r hr, fun hz r hr => k5.2 hz r hr⟩
  · rw [← Except.ok.inj h5]
    exact ⟨all, k5.2⟩

/-- tasks are added to the end; they are pending and can be found -/
theorem addTasks_available {cc : Bool} {mc : Rat} {ss : List Sentence} : ∀ {sh sh' : Shared}, addTasks sh cc mc ss = .ok sh' →
    (∃ new, sh'.heap = sh.heap ++ new ∧ ∀ t ∈ new, ∃ s ∈ ss, t.sentence = shallowCopySentence s ∧ s.punct = .JUGEMENT) ∧
    (∀ r, TaskKept sh' r → TaskKept sh r ∨ (sh.heap.length ≤ r ∧ r ∈ sh'.judgementTasks)) ∧
    (∀ r ∈ sh.judgementTasks, r ∈ sh'.judgementTasks) := by
  induction ss with
  | nil => intro sh sh' h; cases h; exact ⟨⟨[], by simp⟩, fun r hr => .inl hr, fun r hr => hr⟩
  | cons s ss ih =>
    intro sh sh' h
    unfold addTasks at h
    cases hp : s.punct with
    | JUGEMENT =>
      rw [hp] at h
      simp only [R.bind_ok] at h
      obtain ⟨tasks, _, h⟩ := h
      split at h
      · cases h; exact ⟨⟨[], by simp⟩, fun r hr => .inl hr, fun r hr => hr⟩
      · rw [R.bind_ok] at h
        obtain ⟨task, ht, h⟩ := h
        obtain ⟨⟨new, e, hn⟩, hk, hj⟩ := ih h
        simp only at e hj
        refine ⟨⟨task :: new, by rw [e]; simp, ?_⟩, ?_, fun r hr => hj r (by simp [hr])⟩
        · intro t htm
          rcases List.mem_cons.1 htm with rfl | htm
          · rw [payCredit_sentence ht]; exact ⟨s, by simp, rfl, hp⟩
          · obtain ⟨x, hx, h⟩ := hn t htm
            exact ⟨x, List.mem_cons_of_mem _ hx, h⟩
        · intro r hr
          rcases hk r hr with hr | ⟨h1, h2⟩
          · have last : r = sh.heap.length → sh.heap.length ≤ r ∧ r ∈ sh'.judgementTasks := fun e => ⟨by omega, hj r (by simp [e])⟩
            rcases hr with hr | ⟨p, hp, hr⟩
            · simp only [List.mem_append, List.mem_singleton] at hr
              rcases hr with hr | hr
              · exact .inl (.inl hr)
              · exact .inr (last hr)
            · rcases populate_refs _ _ _ p hp r hr with h | ⟨q, hq, h⟩
              · exact .inr (last h)
              · exact .inl (.inr ⟨q, hq, h⟩)
          · simp only [List.length_append, List.length_singleton] at h1
            exact .inr ⟨by omega, h2⟩
    | QUESTION =>
      rw [hp] at h
      obtain ⟨⟨new, e, hn⟩, hk, hj⟩ := ih h
      exact ⟨⟨new, e, fun t ht => (hn t ht).imp (fun _ h => ⟨List.mem_cons_of_mem _ h.1, h.2⟩)⟩, hk, hj⟩
    | GOAL =>
      rw [hp] at h
      obtain ⟨⟨new, e, hn⟩, hk, hj⟩ := ih h
      exact ⟨⟨new, e, fun t ht => (hn t ht).imp (fun _ h => ⟨List.mem_cons_of_mem _ h.1, h.2⟩)⟩, hk, hj⟩

theorem reviseTable_same {cell : List Int} {table : List Sentence} {s : Sentence} {r : List Sentence × Option Sentence}
    (h : reviseTable cell table s = .ok r) : ∀ x, r.2 = some x → x.term = s.term := by
  rcases reviseTable_cases h with ⟨_, rfl⟩ | ⟨pre, b, post, add, rfl, hb, hn, _, hr, rfl⟩
  · simp
  · intro x hx
    cases hx
    obtain ⟨_, _, _, _, _, _, rfl⟩ := revisedBelief_ok hr
    exact hb

theorem memReviseBelief_same {m : Mem} {s : Sentence} {st : Mem × Option Sentence} (h : memReviseBelief m s = .ok st) :
    ∀ x, st.2 = some x → x.term = s.term := by
  rcases memReviseBelief_cases h with ⟨_, rfl⟩ | ⟨hp, h⟩
  · simp
  · refine foldlM_inv (fun st : Mem × Option Sentence => ∀ x, st.2 = some x → x.term = s.term) h (by simp) ?_
    intro t _ a b hab hstep
    rcases reviseAt_cases hstep with ⟨_, rfl⟩ | ⟨c, r1, r2, hg, g1, g2, rfl⟩
    · exact hab
    · intro y hy
      simp only at hy
      cases e2 : r2.2 with
      | some z => rw [e2] at hy; simp at hy; subst hy; exact reviseTable_same g2 _ e2
      | none =>
        rw [e2] at hy; simp only [Option.none_or] at hy
        cases e1 : r1.2 with
        | some z => rw [e1] at hy; simp at hy; subst hy; exact reviseTable_same g1 _ e1
        | none => rw [e1] at hy; simp only [Option.none_or] at hy; exact hab y hy

theorem memAddTask_available {cfg : Cfg} {sh sh' : Shared} {s : Sentence} {cc : Bool} {mc : Rat} {now : Int}
    (h : memAddTask cfg sh s cc mc now = .ok sh') :
    (∃ new, sh'.heap = sh.heap ++ new ∧ ∀ t ∈ new, t.sentence.term = s.term ∧ s.punct = .JUGEMENT ∧
      (calcComplexity s.term : Int) ≤ cfg.maxComplexity) ∧
    (∀ r, TaskKept sh' r → TaskKept sh r ∨ (sh.heap.length ≤ r ∧ r ∈ sh'.judgementTasks)) ∧
    (∀ r ∈ sh.judgementTasks, r ∈ sh'.judgementTasks) := by
  rcases memAddTask_cases h with ⟨_, rfl⟩ | ⟨hc, mem, rev, h1, h2⟩
  · exact ⟨⟨[], by simp⟩, fun r hr => .inl hr, fun r hr => hr⟩
  · obtain ⟨⟨new, e, hn⟩, hk, hj⟩ := addTasks_available h2
    refine ⟨⟨new, e, fun t ht => ?_⟩, fun r hr => hk r hr, hj⟩
    obtain ⟨x, g1, g3, g2⟩ := hn t ht
    have g4 : t.sentence.term = x.term := by rw [g3]; rfl
    rw [g4]
    rcases List.mem_cons.1 g1 with g1 | g1
    · exact ⟨by rw [g1], by rw [← g1]; exact g2, hc⟩
    · rw [Option.mem_toList] at g1
      rcases addBelief_cases h1 with ⟨y, e, g⟩ | ⟨e, _⟩
      · refine ⟨?_, ?_, hc⟩
        · subst e; exact memReviseBelief_same g _ (Option.mem_def.1 g1)
        · rcases memReviseBelief_cases g with ⟨_, e'⟩ | ⟨hp, _⟩
          · cases (Prod.mk.inj e').2
          · exact hp
      · rw [e] at g1; cases g1

end Nar
