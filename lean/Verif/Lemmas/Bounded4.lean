import Verif.Lemmas.Bounded3
import Verif.Lemmas.Thinks5
/-! # Helper lemmas: what is not limited -/
namespace Nar
open Term

theorem storeAt_names {s : Sentence} {n : Nat} {now : Int} {m m' : Mem} {t : Term} (h : storeAt s n now m t = .ok m') :
    t ∈ m'.map (·.name) ∧ ∀ x ∈ m.map (·.name), x ∈ m'.map (·.name) := by
  rcases storeAt_cases h with ⟨c, e, u, h1, _, _, rfl⟩ | ⟨_, rfl⟩
  · rw [Mem.set_names]
    exact ⟨List.mem_map.2 ⟨c, (Mem.get_some h1).1, (Mem.get_some h1).2⟩, fun x hx => hx⟩
  · rw [List.map_append]
    exact ⟨by simp, fun x hx => List.mem_append_left _ hx⟩

theorem storeAll_names {s : Sentence} {n : Nat} {now : Int} {ts : List Term} {m m' : Mem}
    (h : ts.foldlM (storeAt s n now) m = .ok m') :
    (∀ t ∈ ts, t ∈ m'.map (·.name)) ∧ ∀ x ∈ m.map (·.name), x ∈ m'.map (·.name) := by
  induction ts generalizing m with
  | nil => cases h; exact ⟨by simp, fun x hx => hx⟩
  | cons t ts ih =>
    obtain ⟨m1, h1, h⟩ := foldlM_cons_ok.1 h
    obtain ⟨a1, a2⟩ := storeAt_names h1
    obtain ⟨b1, b2⟩ := ih h
    refine ⟨fun x hx => ?_, fun x hx => b2 x (a2 x hx)⟩
    rcases List.mem_cons.1 hx with rfl | hx
    · exact b2 _ a1
    · exact b1 x hx

theorem boxed_sub (n : Nat) (t : Term) : ∀ i ≤ n, IsSubterm (boxed i t) (boxed n t) := by
  induction n with
  | zero => intro i hi; rw [Nat.le_zero.1 hi]; exact .refl _
  | succ n ih =>
    intro i hi
    by_cases h : i = n + 1
    · rw [h]; exact .refl _
    · exact .inside (c := boxed n t) (by simp [boxed, parts]) (ih i (by omega))

theorem boxed_complexity (n : Nat) (t : Term) : calcComplexity (boxed n t) = calcComplexity t := by
  induction n with
  | zero => rfl
  | succ n ih => simp [boxed, calcComplexity, calcComplexityL, ih]

theorem boxed_wf {t : Term} (h : WellFormed t) (n : Nat) : WellFormed (boxed n t) := by
  induction n with
  | zero => exact h
  | succ n ih =>
    refine wf_iff.2 ⟨by simp [boxed, Shaped], ?_⟩
    intro c hc
    simp only [boxed, parts, List.mem_singleton] at hc
    rw [hc]; exact ih

theorem boxed_inj (a : String) : ∀ (i j : Nat), boxed i (.Name a) = boxed j (.Name a) → i = j
  | 0, 0, _ => rfl
  | 0, j + 1, h => by simp [boxed] at h
  | i + 1, 0, h => by simp [boxed] at h
  | i + 1, j + 1, h => by
    simp only [boxed, Term.SetExt.injEq, List.cons.injEq, and_true] at h
    rw [boxed_inj a i j h]

/-- told to an empty memory, a statement leaves a concept for each of its parts -/
theorem told_names {cfg : Cfg} {s : Sentence} {cc : Bool} {mc : Rat} {now : Int} {sh' : Shared} (hj : s.punct = .JUGEMENT)
    (hc : (calcComplexity s.term : Int) ≤ cfg.maxComplexity) (h : memAddTask cfg createShared s cc mc now = .ok sh') :
    ∀ t, IsSubterm t s.term → t ∈ sh'.mem.map (·.name) := by
  rcases memAddTask_cases h with ⟨hn, _⟩ | ⟨_, mem, rev, h1, h2⟩
  · omega
  · have hr := (addBelief_unknown (P := fun _ => False) h1 (fun c hc => by cases hc) (fun b hb => hb.elim)).1
    rw [addTasks_mem h2]
    rcases addBelief_cases h1 with ⟨x, hx, _⟩ | ⟨_, m1, _, h3⟩
    · rw [hr] at hx; cases hx
    · rcases storeInConcepts2_cases h3 with ⟨hn, _⟩ | ⟨_, h3⟩
      · exact absurd hj hn
      · intro t ht
        exact (storeAll_names h3).1 t ((mem_retSubterms _ _).2 ht)

/-! ## questions -/

theorem moreTasks_questions {cfg : Cfg} {st st' : Shared × List AnswerCall} {ops : List TaskOp}
    (h : moreTasks cfg st ops = .ok st') : st.1.questionTasks.length ≤ st'.1.questionTasks.length := by
  refine foldlM_inv (fun x : Shared × List AnswerCall => st.1.questionTasks.length ≤ x.1.questionTasks.length) h (le_refl _) ?_
  rintro op _ ⟨sh, log⟩ b ha hs
  obtain ⟨⟨sh', calls⟩, h3, h4⟩ := R.bind_ok.1 hs
  rw [← Except.ok.inj h4]
  exact le_trans ha (TaskOp.run_questions h3).1

theorem SysOp.run_asks {cfg : Cfg} {s s' : Sys} {op : SysOp} (h : op.run cfg s = .ok s') :
    s.sh.questionTasks.length + (if op.asks cfg then 1 else 0) ≤ s'.sh.questionTasks.length := by
  by_cases ha : op.asks cfg = true
  · rw [if_pos ha]
    cases op with
    | input x cc mc now =>
      simp only [SysOp.asks, Bool.and_eq_true, decide_eq_true_eq] at ha
      obtain ⟨sh, g1, g⟩ := R.bind_ok.1 h
      rw [← Except.ok.inj g]
      rcases memAddTask_cases g1 with ⟨hn, _⟩ | ⟨_, mem, rev, h1, h2⟩
      · omega
      · unfold addTasks at h2
        rw [ha.1] at h2
        obtain ⟨new, h3, _⟩ := addTasks_questions h2
        simp only at h3
        show _ ≤ sh.questionTasks.length
        rw [h3]
        simp only [List.length_append, List.length_cons, List.length_nil]
        omega
    | _ => simp [SysOp.asks] at ha
  · rw [if_neg ha]
    obtain ⟨tops, h1, _⟩ := SysOp.run_more h
    exact moreTasks_questions h1

theorem moreSys_asks {cfg : Cfg} {ops : List SysOp} {s s' : Sys} (h : moreSys cfg s ops = .ok s') :
    s.sh.questionTasks.length + ops.countP (SysOp.asks cfg) ≤ s'.sh.questionTasks.length := by
  induction ops generalizing s with
  | nil => cases h; simp
  | cons op ops ih =>
    obtain ⟨s1, h1, h⟩ := foldlM_cons_ok.1 h
    have a := SysOp.run_asks h1
    have b := ih h
    rw [List.countP_cons]
    omega

end Nar
