import Verif.Spec.Rest
import Verif.Lemmas.Thinks4
import Verif.Lemmas.Bounded3
/-! # Helper lemmas: the task system grows as long as nothing is trimmed -/
namespace Nar
open Term

/-- the lookup only gets longer -/
def LookupGrown (m m' : List (Term × List Nat)) : Prop :=
  ∀ s refs, lookupRefs m s = some refs → ∃ more, lookupRefs m' s = some (refs ++ more)

theorem LookupGrown.refl (m : List (Term × List Nat)) : LookupGrown m m := fun _ refs h => ⟨[], by simpa using h⟩

theorem LookupGrown.trans {a b c : List (Term × List Nat)} (h : LookupGrown a b) (h' : LookupGrown b c) : LookupGrown a c := by
  intro s refs hs
  obtain ⟨m1, h1⟩ := h s refs hs
  obtain ⟨m2, h2⟩ := h' s _ h1
  exact ⟨m1 ++ m2, by rw [h2, List.append_assoc]⟩

theorem pushRef_grown (m : List (Term × List Nat)) (t : Term) (r : Nat) : LookupGrown m (pushRef m t r) := by
  induction m with
  | nil => intro s refs h; cases h
  | cons p m ih =>
    obtain ⟨k, v⟩ := p
    intro s refs h
    unfold pushRef
    by_cases hs : checkEqTerm k s = true
    · have hv : refs = v := by simpa [lookupRefs, hs] using h.symm
      subst hv
      split
      · exact ⟨[r], by simp [lookupRefs, hs]⟩
      · exact ⟨[], by simp [lookupRefs, hs]⟩
    · have h' : lookupRefs m s = some refs := by simpa [lookupRefs, hs] using h
      split
      · exact ⟨[], by simpa [lookupRefs, hs] using h⟩
      · obtain ⟨more, hm⟩ := ih s refs h'
        refine ⟨more, ?_⟩
        simpa [lookupRefs, hs] using hm

theorem populate_grown (m : List (Term × List Nat)) (t : Term) (r : Nat) : LookupGrown m (populateTaskByTermLookup m t r) := by
  unfold populateTaskByTermLookup
  generalize retSubterms t = ts
  induction ts generalizing m with
  | nil => exact .refl m
  | cons x ts ih => exact (pushRef_grown m x r).trans (ih _)

/-- new tasks are pending, old ones are pending as before, and the lookup only gets longer -/
structure Extended (sh sh' : Shared) : Prop where
  kept : HeapKept sh.heap sh'.heap
  length : sh.heap.length ≤ sh'.heap.length
  fresh : ∀ r, sh.heap.length ≤ r → r < sh'.heap.length → r ∈ sh'.judgementTasks
  pending : ∀ r ∈ sh.judgementTasks, r ∈ sh'.judgementTasks
  lookup : LookupGrown sh.judgementTasksByTerm sh'.judgementTasksByTerm
  clock : sh'.cycleCounter = sh.cycleCounter

theorem Extended.refl (sh : Shared) : Extended sh sh :=
  ⟨.refl _, le_refl _, fun r h1 h2 => absurd h2 (by omega), fun _ h => h, .refl _, rfl⟩

theorem Extended.trans {a b c : Shared} (h : Extended a b) (h' : Extended b c) : Extended a c where
  kept := h.kept.trans h'.kept
  length := le_trans h.length h'.length
  fresh r h1 h2 := by
    by_cases hr : r < b.heap.length
    · exact h'.pending r (h.fresh r h1 hr)
    · exact h'.fresh r (by omega) h2
  pending r hr := h'.pending r (h.pending r hr)
  lookup := h.lookup.trans h'.lookup
  clock := h'.clock.trans h.clock

/-- nothing but other parts changed -/
theorem Extended.same {sh sh' : Shared} (h1 : sh'.heap = sh.heap) (h2 : sh'.judgementTasks = sh.judgementTasks)
    (h3 : sh'.judgementTasksByTerm = sh.judgementTasksByTerm) (h4 : sh'.cycleCounter = sh.cycleCounter) : Extended sh sh' where
  kept := by rw [h1]; exact .refl _
  length := by rw [h1]
  fresh r h5 h6 := by rw [h1] at h6; omega
  pending r hr := by rw [h2]; exact hr
  lookup := by rw [h3]; exact .refl _
  clock := h4

theorem addTasks_grown {cc : Bool} {mc : Rat} {ss : List Sentence} {sh sh' : Shared}
    (h : addTasks sh cc mc ss = .ok sh') : Extended sh sh' := by
  induction ss generalizing sh with
  | nil => cases h; exact .refl _
  | cons s ss ih =>
    unfold addTasks at h
    cases hp : s.punct with
    | JUGEMENT =>
      rw [hp] at h
      simp only [R.bind_ok] at h
      obtain ⟨tasks, ht, h⟩ := h
      split at h
      · cases h; exact .refl _
      · rw [R.bind_ok] at h
        obtain ⟨task, htask, h⟩ := h
        refine Extended.trans ?_ (ih h)
        refine ⟨HeapKept.append _ _, by simp, ?_, ?_, populate_grown _ _ _, rfl⟩
        · intro r h1 h2
          simp only [List.length_append, List.length_cons, List.length_nil] at h2
          have : r = sh.heap.length := by omega
          simp [this]
        · intro r hr; simp [hr]
    | QUESTION =>
      rw [hp] at h
      have := ih h
      exact Extended.trans (b := { sh with questionTasks := sh.questionTasks ++
            [{ sentence := shallowCopySentence s, handler := false, bestAnswerExp := 0, prio := 1 }] }) (.same rfl rfl rfl rfl) this
    | GOAL => rw [hp] at h; exact ih h

theorem memAddTask_grown {cfg : Cfg} {sh sh' : Shared} {s : Sentence} {cc : Bool} {mc : Rat} {now : Int}
    (h : memAddTask cfg sh s cc mc now = .ok sh') : Extended sh sh' := by
  rcases memAddTask_cases h with ⟨_, rfl⟩ | ⟨_, mem, rev, _, h3⟩
  · exact .refl _
  · have := addTasks_grown h3
    exact Extended.trans (b := { sh with mem := mem }) (.same rfl rfl rfl rfl) this

theorem work_grown {cfg : Cfg} {sh sh' : Shared} {msg : Msg} {calls : List AnswerCall} (h : work cfg sh msg = .ok (sh', calls)) :
    Extended sh sh' := by
  obtain ⟨concl, p, h1, h2, h3⟩ := work_more [] h
  have := foldlM_inv (fun x : Shared × List AnswerCall => Extended sh x.1) h3 (.refl _) (by
    rintro op hop ⟨a, log⟩ b h1 hstep
    obtain ⟨⟨a', cs⟩, k3, k4⟩ := R.bind_ok.1 hstep
    cases k4
    refine h1.trans ?_
    rcases List.mem_append.1 hop with ho | ho
    · obtain ⟨c, _, rfl⟩ := List.mem_map.1 ho
      obtain ⟨qs, hq⟩ := offerConclusion_frame k3
      simp only at hq ⊢
      rw [hq]
      exact .same rfl rfl rfl rfl
    · obtain ⟨c, _, rfl⟩ := List.mem_map.1 ho
      obtain ⟨x, m1, m2⟩ := R.map_ok.1 k3
      cases m2
      exact memAddTask_grown m1)
  exact this

theorem Extended.room {sh sh' : Shared} (h : Extended sh sh') (hr : Room sh') : Room sh where
  perTerm s refs hl := by
    obtain ⟨more, hm⟩ := h.lookup s refs hl
    have := hr.perTerm s _ hm
    rw [List.length_append] at this
    omega
  total := le_trans h.length hr.total

/-- every task is found under all its parts -/
def Listed (sh : Shared) : Prop :=
  ∀ r t, sh.heap[r]? = some t → ∀ x, IsSubterm x t.sentence.term → ∃ refs, lookupRefs sh.judgementTasksByTerm x = some refs ∧ r ∈ refs

theorem Extended.listed {cfg : Cfg} {sh sh' : Shared} (h : Extended sh sh') (hi : Inv cfg sh') (hl : Listed sh) : Listed sh' := by
  intro r t ht x hx
  by_cases hr : r < sh.heap.length
  · obtain ⟨t', ht', hs⟩ := h.kept r sh.heap[r] (List.getElem?_eq_getElem hr)
    rw [ht] at ht'; cases ht'
    obtain ⟨refs, h1, h2⟩ := hl r _ (List.getElem?_eq_getElem hr) x (by rw [← hs.term]; exact hx)
    obtain ⟨more, hm⟩ := h.lookup x refs h1
    exact ⟨_, hm, by simp [h2]⟩
  · exact hi.complete r (h.fresh r (by omega) (List.getElem?_eq_some_iff.1 ht).1) t ht x hx

theorem Alike.listed {sh sh' : Shared} (h : Alike sh sh') (hl : Listed sh) : Listed sh' := by
  intro r t ht x hx
  obtain ⟨t0, h0, hs⟩ := h.back ht
  rw [h.byTerm]
  exact hl r t0 h0 x (by rw [← hs.term]; exact hx)

end Nar
