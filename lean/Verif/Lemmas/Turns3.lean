import Verif.Lemmas.Turns2
/-! # Lemmas: when a clean-up forgets nothing -/
namespace Nar
open Term

theorem everyCleanup_keep {cfg : Cfg} {sh sh' : Shared} (h : everyCleanup cfg sh = .ok sh')
    (hlen : sh.cycleCounter % 111 = 0 → sh.judgementTasks.length ≤ 30)
    (hcr : sh.cycleCounter % 111 = 0 → ∀ i ∈ sh.judgementTasks, ∀ t, sh.heap[i]? = some t → 1/1000 < taskCalcCredit cfg.decay t sh.cycleCounter) :
    sh'.judgementTasks.Perm sh.judgementTasks := by
  unfold everyCleanup at h
  split at h
  · rename_i h0
    obtain ⟨sh1, h1, h⟩ := R.bind_ok.1 h
    obtain ⟨sorted, hp, _, hs, rfl⟩ := cleanupTasks_spec h1
    rw [(rebuildLookup_frame h).1]
    have hl := hp.length_eq
    rw [List.length_map] at hl
    have hall : (sorted.take 30).filter (fun p => decide (p.1 > 1/1000)) = sorted := by
      rw [List.take_of_length_le (by rw [hl]; exact hlen h0), List.filter_eq_self]
      intro p hpm
      obtain ⟨t, ht, he⟩ := hs p hpm
      rw [decide_eq_true_eq, he]
      exact hcr h0 p.2 (hp.mem_iff.1 (List.mem_map_of_mem hpm)) t ht
    show (List.map _ ((sorted.take 30).filter (fun p => decide (p.1 > 1/1000)))).Perm _
    rw [hall]
    exact hp
  · cases h; exact .refl _

/-- a cycle in which nothing is forgotten takes one and leaves the others -/
theorem reasonCycle_keep {cfg : Cfg} {v : Rat} {now : Int} {sh sh' : Shared} {msg : Option Msg} {calls : List AnswerCall}
    (h : reasonCycle cfg v now sh = .ok (sh', msg, calls)) (hi : Inv cfg sh)
    (hlen : (sh.cycleCounter + 1) % 111 = 0 → sh.judgementTasks.length ≤ 31)
    (hcr : (sh.cycleCounter + 1) % 111 = 0 → ∀ i ∈ sh.judgementTasks, ∀ t, sh'.heap[i]? = some t →
      1/1000 < taskCalcCredit cfg.decay t (sh.cycleCounter + 1)) :
    sh.judgementTasks = [] ∨ ∃ m, msg = some m ∧ (m.primary :: sh'.judgementTasks).Perm sh.judgementTasks := by
  unfold reasonCycle at h
  obtain ⟨sh1, h1, h⟩ := R.bind_ok.1 h
  obtain ⟨⟨sh2, c2⟩, h2, h⟩ := R.bind_ok.1 h
  obtain ⟨⟨sh3, m3⟩, h3, h⟩ := R.bind_ok.1 h
  obtain ⟨sh4, h4, h⟩ := R.bind_ok.1 h
  obtain ⟨sh5, h5, h⟩ := R.bind_ok.1 h
  cases h
  obtain ⟨f1, f2, f3, f4⟩ := everyForget_frame h5
  obtain ⟨g1, g2, g3⟩ := everyCleanup_frame h4
  obtain ⟨u1, u2, u3, u4⟩ := useMsg_frame sh3 now msg
  obtain ⟨qs, hq⟩ := answerSampled_frame h2
  simp only at hq
  have j1 : sh2.judgementTasks = sh.judgementTasks := by
    rw [hq]
    show sh1.judgementTasks = _
    rw [(baseCredit_same h1).2.1, (creditQuestions_same _).2.1]
  have c1 : sh2.cycleCounter = sh.cycleCounter + 1 := by
    rw [hq]
    show sh1.cycleCounter = _
    rw [baseCredit_counter h1, creditQuestions_counter]
  have hsel : sh3.cycleCounter = sh2.cycleCounter ∧
      (sh2.judgementTasks = [] ∨ ∃ m, msg = some m ∧ (m.primary :: sh3.judgementTasks).Perm sh2.judgementTasks) := by
    unfold buildMsg at h3
    obtain ⟨⟨shs, prim⟩, hs, h3⟩ := R.bind_ok.1 h3
    rcases selectPrimary_cases hs with ⟨e, he⟩ | ⟨tasks, p, _, hp, he⟩
    · cases he
      cases h3
      exact ⟨rfl, .inl e⟩
    · cases he
      obtain ⟨sec, hsec, h3⟩ := R.bind_ok.1 h3
      cases h3
      refine ⟨rfl, .inr ⟨_, rfl, ?_⟩⟩
      have hlt := (List.getElem?_eq_some_iff.1 hp).1
      have hperm := swapRemove_perm sh2.judgementTasks _ hlt
      have e := (List.getElem?_eq_some_iff.1 hp).2
      refine ((hperm.cons p).trans ?_)
      have := List.getElem_cons_eraseIdx_perm hlt
      rw [e] at this
      exact this
  obtain ⟨k3, k4⟩ := hsel
  have hcc : (useMsg sh3 now msg).cycleCounter = sh.cycleCounter + 1 := by rw [u4, k3, c1]
  rw [j1] at k4
  rcases k4 with k4 | ⟨m, hm, hp⟩
  · exact .inl k4
  · refine .inr ⟨m, hm, ?_⟩
    have hlen' := hp.length_eq
    rw [List.length_cons] at hlen'
    have := everyCleanup_keep h4 (by rw [hcc, u1]; intro h0; have := hlen h0; omega) (by
      rw [hcc, u1]
      intro h0 i hi' t ht
      exact hcr h0 i (hp.mem_iff.1 (List.mem_cons_of_mem _ hi')) t (by rw [f1, g1]; exact ht))
    rw [u1] at this
    rw [f2]
    exact (this.cons _).trans hp

end Nar
