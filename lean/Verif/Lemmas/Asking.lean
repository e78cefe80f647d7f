import Verif.Spec.Asking
import Verif.Lemmas.Turns
/-! # Lemmas about the credit which questions give -/
namespace Nar
open Term

theorem QStep.terms {n : Nat} {qs qs' : List Task2} {calls : List AnswerCall} (h : QStep n qs qs' calls) :
    qs.map (·.sentence.term) = (qs'.map (·.sentence.term)).take qs.length := by
  apply List.ext_getElem?
  intro i
  rw [List.getElem?_take]
  split
  · rename_i hi
    have hi' : i < qs'.length := lt_of_lt_of_le hi h.1
    obtain ⟨_, _, hq, _⟩ := h.2.1 i _ _ (List.getElem?_eq_getElem hi) (List.getElem?_eq_getElem hi')
    rw [List.getElem?_map, List.getElem?_map, List.getElem?_eq_getElem hi, List.getElem?_eq_getElem hi', Option.map_some, Option.map_some,
      (qaTryAll_spec hq).1]
  · rename_i hi
    rw [List.getElem?_map, List.getElem?_eq_none (by omega)]; rfl

theorem askedIn_eq (qs : List Task2) (x : Term) : askedIn qs x = ((qs.map (·.sentence.term)).map fun q => inCommon q x).sum := by
  unfold askedIn; rw [List.map_map]; rfl

theorem QStep.asked_le {n : Nat} {qs qs' : List Task2} {calls : List AnswerCall} (h : QStep n qs qs' calls) (x : Term) :
    askedIn qs x ≤ askedIn qs' x := by
  rw [askedIn_eq, askedIn_eq, h.terms]
  exact ((List.take_sublist _ _).map _).sum_le_sum (fun _ _ => Nat.zero_le _)

/-- no waiting task has more credit from questions than they can have given it -/
def AskedBound (sh : Shared) : Prop :=
  ∀ i ∈ sh.judgementTasks, ∀ t, sh.heap[i]? = some t →
    t.qaCredit * ((calcComplexity t.sentence.term : Rat) - 1) ≤ askedIn sh.questionTasks t.sentence.term

theorem addTasks_asked {cc : Bool} {mc : Rat} {ss : List Sentence} {sh sh' : Shared} (h : addTasks sh cc mc ss = .ok sh')
    (hv : ∀ r ∈ sh.judgementTasks, r < sh.heap.length) (hc : AskedBound sh) : AskedBound sh' := by
  induction ss generalizing sh with
  | nil => cases h; exact hc
  | cons s ss ih =>
    unfold addTasks at h
    cases hp : s.punct with
    | JUGEMENT =>
      rw [hp] at h
      simp only [R.bind_ok] at h
      obtain ⟨tasks, ht, h⟩ := h
      split at h
      · cases h; exact hc
      · rw [R.bind_ok] at h
        obtain ⟨task, htask, h⟩ := h
        refine ih h ?_ ?_
        · intro r hr
          rw [List.length_append, List.length_singleton]
          rcases List.mem_append.1 hr with hr | hr
          · exact Nat.lt_succ_of_lt (hv r hr)
          · rw [List.mem_singleton.1 hr]; exact Nat.lt_succ_self _
        · intro i hi t ht
          rcases List.mem_append.1 hi with hi | hi
          · rw [List.getElem?_append_left (hv i hi)] at ht
            exact hc i hi t ht
          · rw [List.mem_singleton.1 hi, List.getElem?_concat_length] at ht
            cases ht
            rw [payCredit_unasked htask rfl, zero_mul]
            exact Nat.cast_nonneg _
    | QUESTION =>
      rw [hp] at h
      refine ih h hv ?_
      intro i hi t ht
      refine le_trans (hc i hi t ht) ?_
      unfold askedIn
      rw [List.map_append, List.sum_append]
      exact_mod_cast Nat.le_add_right _ _
    | GOAL => rw [hp] at h; exact ih h hv hc

theorem memAddTask_asked {cfg : Cfg} {sh sh' : Shared} {s : Sentence} {cc : Bool} {mc : Rat} {now : Int}
    (h : memAddTask cfg sh s cc mc now = .ok sh') (hi : Inv cfg sh) (hc : AskedBound sh) : AskedBound sh' := by
  rcases memAddTask_cases h with ⟨_, rfl⟩ | ⟨_, mem, rev, _, h2⟩
  · exact hc
  · exact addTasks_asked h2 hi.valid hc

/-- the lookup is exact, questions have equal shares, and the bound -/
structure AskedOk (sh : Shared) : Prop where
  counted : RefsCounted sh
  shares : EqualShares sh.questionTasks
  bound : AskedBound sh

theorem moreTasks_asked {cfg : Cfg} {sh : Shared} {ops : List TaskOp} {log : List AnswerCall} {st : Shared × List AnswerCall}
    (h : moreTasks cfg (sh, log) ops = .ok st) (hi : Inv cfg sh) (h1 : RefsCounted sh) (h2 : EqualShares sh.questionTasks) :
    Inv cfg st.1 ∧ RefsCounted st.1 ∧ EqualShares st.1.questionTasks ∧ ∀ x, askedIn sh.questionTasks x ≤ askedIn st.1.questionTasks x := by
  refine foldlM_inv (fun st : Shared × List AnswerCall => Inv cfg st.1 ∧ RefsCounted st.1 ∧ EqualShares st.1.questionTasks ∧
    ∀ x, askedIn sh.questionTasks x ≤ askedIn st.1.questionTasks x) h ⟨hi, h1, h2, fun _ => le_refl _⟩ ?_
  rintro op _ ⟨a, l⟩ b ⟨k1, k2, k3, k4⟩ hs
  obtain ⟨⟨sh', calls⟩, h3, h4⟩ := R.bind_ok.1 hs
  rw [← Except.ok.inj h4]
  have hq := TaskOp.run_questions h3
  have i1 := TaskOp.run_inv h3 k1
  have i2 := TaskOp.run_counted h3 k1 k2
  exact ⟨i1, i2, hq.shares k3, fun x => (k4 x).trans (hq.asked_le x)⟩

/-- the credit from questions, as the lookup gives it, is what is in common with them -/
theorem asked_counted {sh : Shared} (h : AskedOk sh) {i : Nat} {t : Task} (hi : i ∈ sh.judgementTasks) (ht : sh.heap[i]? = some t) :
    (sh.questionTasks.map fun q =>
      ((((retSubterms q.sentence.term).map fun x => refCount sh.judgementTasksByTerm x i).sum : Nat) : Rat) * q.prio).sum =
      (askedIn sh.questionTasks t.sentence.term : Rat) := by
  have hcount := h.counted i hi t ht
  have hsh := h.shares
  generalize sh.questionTasks = qs at hsh ⊢
  unfold askedIn
  induction qs with
  | nil => simp
  | cons q qs ih =>
    rw [List.map_cons, List.sum_cons, List.map_cons, List.sum_cons, ih (fun q hq => hsh q (List.mem_cons_of_mem _ hq)),
      hsh q List.mem_cons_self, mul_one, Nat.cast_add]
    simp only [hcount, inCommon]

theorem reasonCycle_asked {cfg : Cfg} {v : Rat} {now : Int} {sh sh' : Shared} {msg : Option Msg} {calls : List AnswerCall}
    (h : reasonCycle cfg v now sh = .ok (sh', msg, calls)) (hi : Inv cfg sh) (hc : AskedOk sh) : AskedOk sh' := by
  obtain ⟨_, k2, k3, k4⟩ := moreTasks_asked (reasonCycle_more [] h) hi hc.counted hc.shares
  refine ⟨k2, k3, ?_⟩
  intro i hi' t' ht'
  have hin := (reasonCycle_working h hi).1 i hi'
  obtain ⟨t, ht⟩ : ∃ t, sh.heap[i]? = some t := ⟨_, List.getElem?_eq_getElem (hi.valid i hin)⟩
  obtain ⟨t1, g1, g2, _, _, _, g6, _, g8⟩ := reasonCycle_credit h hi hin ht
  rw [g1] at ht'; cases ht'
  rw [asked_counted hc hin ht] at g8
  rw [g8, g2]
  refine le_trans ?_ (Nat.cast_le.2 (k4 _))
  have hb := hc.bound i hin t ht
  have hpos : (0 : Rat) < calcComplexity t.sentence.term := by exact_mod_cast Nat.pos_of_ne_zero g6
  rw [div_mul_eq_mul_div, div_le_iff₀ hpos]
  nlinarith

theorem work_asked {cfg : Cfg} {sh sh' : Shared} {m : Msg} {calls : List AnswerCall} (h : Nar.work cfg sh m = .ok (sh', calls))
    (hi : Inv cfg sh) (hc : AskedOk sh) : AskedOk sh' := by
  obtain ⟨_, _, _, _, hm⟩ := work_more [] h
  obtain ⟨_, k2, k3, _⟩ := moreTasks_asked hm hi hc.counted hc.shares
  refine ⟨k2, k3, ?_⟩
  refine (foldlM_inv (fun st : Shared × List AnswerCall => Inv cfg st.1 ∧ AskedBound st.1) hm ⟨hi, hc.bound⟩ ?_).2
  rintro op hop ⟨a, l⟩ b ⟨k1, k4⟩ hs
  obtain ⟨⟨sh2, calls2⟩, h3, h4⟩ := R.bind_ok.1 hs
  rw [← Except.ok.inj h4]
  have i1 := TaskOp.run_inv h3 k1
  refine ⟨i1, ?_⟩
  have hq := TaskOp.run_questions h3
  unfold workOps at hop
  rcases List.mem_append.1 hop with hop | hop
  · obtain ⟨c, _, rfl⟩ := List.mem_map.1 hop
    obtain ⟨qs, hqs⟩ := offerConclusion_frame h3
    simp only at hqs hq
    subst hqs
    intro i hi t ht
    exact le_trans (k4 i hi t ht) (Nat.cast_le.2 (hq.asked_le _))
  · obtain ⟨c, _, rfl⟩ := List.mem_map.1 hop
    obtain ⟨x, h5, h6⟩ := R.map_ok.1 h3
    cases h6
    exact memAddTask_asked h5 k1 k4

theorem asked_kept (env : Env) : DKept env AskedOk where
  add := fun {cfg sh sh' s now} _ hi hc h => by
    have hrun : TaskOp.run cfg sh (.add s true 1 now) = .ok (sh', []) := by simp only [TaskOp.run]; rw [h]; rfl
    exact ⟨TaskOp.run_counted hrun hi hc.counted, (TaskOp.run_questions hrun).shares hc.shares, memAddTask_asked h hi hc.bound⟩
  cycle := fun _ hi hc h => reasonCycle_asked h hi hc
  work := fun _ hi _ hc h => work_asked h hi hc
  flush := fun h => ⟨(fun i hi => by cases hi), h.shares, (fun i hi => by cases hi)⟩
  newId := fun h => ⟨h.counted, h.shares, h.bound⟩
  procMem := fun _ h => ⟨h.counted, h.shares, h.bound⟩

theorem runNar_asked {env : Env} {ops : List NarOp} {r : Reasoner} (h : runNar env ops = .ok r) : AskedOk r.sh :=
  runNar_kept (asked_kept env) ⟨(fun i hi => by cases hi), (fun q hq => by cases hq), (fun i hi => by cases hi)⟩ h

end Nar
