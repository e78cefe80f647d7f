import Verif.Lemmas.Flood
import Verif.Lemmas.Attention2
/-! # Lemmas: a question which was looked after stays settled -/
namespace Nar
open Term

/-- nothing but concepts and counters of use was lost or changed -/
def MemLess (m m' : Mem) : Prop := ∀ c' ∈ m', ∃ c ∈ m, c.name = c'.name ∧ ∀ b', (b' ∈ c'.beliefsByExp ∨ b' ∈ c'.beliefsByUsage) →
  ∃ b, (b ∈ c.beliefsByExp ∨ b ∈ c.beliefsByUsage) ∧ ∃ u, b' = { b with usage := u }

theorem UsageOnly.memLess {m m' : Mem} (h : UsageOnly m m') : MemLess m m' := by
  obtain ⟨g, rfl⟩ := h
  intro c hc
  obtain ⟨d, hd, rfl⟩ := List.mem_map.1 hc
  refine ⟨d, hd, rfl, ?_⟩
  rintro b (hb | hb)
  · obtain ⟨i, hi, rfl⟩ := List.mem_mapIdx.1 hb
    exact ⟨_, .inl (List.getElem_mem hi), _, rfl⟩
  · obtain ⟨i, hi, rfl⟩ := List.mem_mapIdx.1 hb
    exact ⟨_, .inr (List.getElem_mem hi), _, rfl⟩

theorem reasonCycle_memLess {cfg : Cfg} {v : Rat} {now : Int} {sh sh' : Shared} {msg : Option Msg} {calls : List AnswerCall}
    (h : reasonCycle cfg v now sh = .ok (sh', msg, calls)) : MemLess sh.mem sh'.mem := by
  unfold reasonCycle at h
  obtain ⟨sh1, h1, h⟩ := R.bind_ok.1 h
  obtain ⟨⟨sh2, c2⟩, h2, h⟩ := R.bind_ok.1 h
  obtain ⟨⟨sh3, m3⟩, h3, h⟩ := R.bind_ok.1 h
  obtain ⟨sh4, h4, h⟩ := R.bind_ok.1 h
  obtain ⟨sh5, h5, h⟩ := R.bind_ok.1 h
  cases h
  have hs := (creditQuestions_same { sh with cycleCounter := sh.cycleCounter + 1 }).trans (baseCredit_same h1)
  have hm1 : sh1.mem = sh.mem := hs.2.2.2.2.2
  obtain ⟨qs, e2⟩ := answerSampled_frame h2
  simp only at e2
  obtain ⟨_, b2⟩ := buildMsg_questions h3
  obtain ⟨_, k2⟩ := everyCleanup_questions h4
  obtain ⟨_, f2⟩ := everyForget_questions h5
  have hu : UsageOnly sh3.mem (useMsg sh3 now msg).mem := by
    cases msg with
    | none => exact .refl _
    | some m => exact (updateUsage_same sh3 m now).mem
  have h3' : sh3.mem = sh.mem := by rw [b2, e2]; exact hm1
  intro c hc
  have := f2 c hc
  rw [k2] at this
  rw [← h3']
  exact hu.memLess c this

/-- the question is answered as well as it can be from what is listed under its sub-terms -/
structure Settled (r : Reasoner) (q : Task2) : Prop where
  temporal : IsTemporal q.sentence.term → ∀ s b, IsSubterm s q.sentence.term → BeliefUnder r.look.procMem s b → CanAnswer q b →
    ∀ e, Expectation b e → e ≤ q.bestAnswerExp
  plain : ¬ IsTemporal q.sentence.term → ∀ c ∈ r.sh.mem, IsSubterm c.name q.sentence.term → ∀ b, (b ∈ c.beliefsByExp ∨ b ∈ c.beliefsByUsage) →
    CanAnswer q b → ∀ e, Expectation b e → e ≤ q.bestAnswerExp

theorem look_mem (r : Reasoner) : r.look.mem = r.sh.mem := by unfold Reasoner.look; split <;> rfl

theorem cycle_memLess {env : Env} {r r' : Reasoner} {v : Rat} (h : cycle env r v = .ok r') : MemLess r.sh.mem r'.sh.mem := by
  obtain ⟨sh, msg, calls, g1, g2, _⟩ := cycle_parts h
  have := reasonCycle_memLess g1
  rw [look_mem] at this
  rw [g2]
  exact this

/-- a cycle does not unsettle the question, and may have answered it even better -/
theorem Settled.cycle {env : Env} {r r' : Reasoner} {v : Rat} (h : Nar.cycle env r v = .ok r') {q q' : Task2} (hs : Settled r q)
    (h1 : q'.sentence = q.sentence) (h2 : q.bestAnswerExp ≤ q'.bestAnswerExp) : Settled r' q' := by
  constructor
  · rw [h1, (cycle_leaves h).1]
    intro ht s b hsub hb hc e he
    exact (hs.temporal ht s b hsub hb (by unfold CanAnswer at hc ⊢; rw [h1] at hc; exact hc) e he).trans h2
  · rw [h1]
    intro ht c' hc' hsub b' hb' hc e he
    obtain ⟨c, hcm, hn, hall⟩ := cycle_memLess h c' hc'
    obtain ⟨b, hb, u, rfl⟩ := hall b' hb'
    refine (hs.plain ht c hcm (by rw [hn]; exact hsub) b hb ?_ e he).trans h2
    unfold CanAnswer at hc ⊢
    rw [h1] at hc
    exact hc

theorem cycle_settles {env : Env} {r r' : Reasoner} {v : Rat} (h : Nar.cycle env r v = .ok r') (hw : r.sh.mem.WF) {i : Nat}
    (hi : task2SelByCreditRandom v r.sh.questionTasks = .ok i) (hne : r.sh.questionTasks ≠ []) :
    ∃ q, r'.sh.questionTasks[i]? = some q ∧ Settled r' q := by
  obtain ⟨_, calls, _, _, hq⟩ := cycle_asks h
  rcases hq with ⟨e, _⟩ | ⟨j, q, q', cands, hj, hjq, hc, ht, hset⟩
  · exact absurd e hne
  · rw [hi] at hj
    cases hj
    obtain ⟨e1, _, _, _, _, e6, _⟩ := qaTryAll_spec ht
    refine ⟨q', ?_, ?_⟩
    · rw [hset, List.getElem?_set_self (List.getElem?_eq_some_iff.1 hjq).1]
    · have hcan : ∀ b, CanAnswer q' b → CanAnswer q b := by intro b; unfold CanAnswer; rw [e1]; exact id
      have h0 : Settled r q' := by
        constructor
        · rw [e1]
          intro htm s b hsub hb hcb e he
          exact e6 b ((hc b).2 (.inl ⟨htm, s, hsub, hb⟩)) (hcan b hcb) e he
        · rw [e1]
          intro htm c hcm hsub b hb hcb e he
          refine e6 b ((hc b).2 (.inr ⟨htm, c.name, hsub, c, ?_, hb⟩)) (hcan b hcb) e he
          rw [look_mem]
          exact Mem.get_of_mem hw hcm
      exact h0.cycle h rfl (le_refl _)

theorem cycles_settled {env : Env} {vs : List Rat} {r r' : Reasoner} (h : moreNar env r (vs.map .cycle) = .ok r') {i : Nat} {q : Task2}
    (hi : r.sh.questionTasks[i]? = some q) (hs : Settled r q) : ∃ q', r'.sh.questionTasks[i]? = some q' ∧ Settled r' q' := by
  induction vs generalizing r q with
  | nil => cases h; exact ⟨q, hi, hs⟩
  | cons v vs ih =>
    obtain ⟨r1, hc, hv⟩ := foldlM_cons_ok.1 h
    obtain ⟨_, calls, _, _, hq⟩ := cycle_asks hc
    rcases hq with ⟨e, _⟩ | ⟨j, p, p', cands, hj, hjq, _, ht, hset⟩
    · rw [e] at hi; cases hi
    · obtain ⟨e1, _, _, e4, _⟩ := qaTryAll_spec ht
      by_cases hij : j = i
      · subst hij
        rw [hi] at hjq; cases hjq
        exact ih hv (by rw [hset, List.getElem?_set_self (List.getElem?_eq_some_iff.1 hi).1]) (hs.cycle hc e1 e4)
      · exact ih hv (by rw [hset, List.getElem?_set_ne hij]; exact hi) (hs.cycle hc rfl (le_refl _))

theorem settled_silent {env : Env} {r r' : Reasoner} {v : Rat} (h : Nar.cycle env r v = .ok r') {i : Nat} {q : Task2}
    (hi : task2SelByCreditRandom v r.sh.questionTasks = .ok i) (hq : r.sh.questionTasks[i]? = some q) (hs : Settled r q) :
    r'.answers = r.answers := by
  obtain ⟨_, calls, ha, _, hc⟩ := cycle_asks h
  rcases hc with ⟨_, rfl, _⟩ | ⟨j, p, p', cands, hj, hjq, hc, ht, hset⟩
  · rw [ha, List.append_nil]
  · rw [hi] at hj
    cases hj
    rw [hq] at hjq
    cases hjq
    obtain ⟨_, _, _, _, _, _, as, _, j2, j3, _, _, j6⟩ := qaTryAll_spec ht
    have : as = [] := by
      rw [List.eq_nil_iff_forall_not_mem]
      intro a ha'
      obtain ⟨k1, e, k2, k3, _⟩ := j3 a ha'
      have hle : e ≤ q.bestAnswerExp := by
        rcases (hc a).1 (j2.subset ha') with ⟨t1, s, t2, t3⟩ | ⟨t1, s, t2, d, t3, t4⟩
        · exact hs.temporal t1 s a t2 t3 k1 e k2
        · rw [look_mem] at t3
          obtain ⟨t5, t6⟩ := Mem.get_some t3
          exact hs.plain t1 d t5 (by rw [t6]; exact t2) a t4 k1 e k2
      exact absurd (lt_of_lt_of_le k3 hle) (lt_irrefl _)
    subst this
    have hcalls : calls = [] := by
      rw [List.eq_nil_iff_forall_not_mem]
      intro c hcm
      exact absurd (j6 c hcm).2 (by simp)
    rw [ha, hcalls, List.append_nil]

/-! ## at rest -/

/-- cycles and rounds of the worker, of which there are so many cycles with these draws -/
def draws : List NarOp → List Rat
  | [] => []
  | .cycle v :: ops => v :: draws ops
  | _ :: ops => draws ops

/-- when nothing waits and the worker has nothing to do, rounds of the worker may be left out -/
theorem rest_cycles {env : Env} {more : List NarOp} (hk : ∀ op ∈ more, op = .declWork ∨ ∃ v, op = .cycle v) {ops : List NarOp} {r r' : Reasoner}
    (h : runNar env ops = .ok r) (hj : r.sh.judgementTasks = []) (hq : r.queue = []) (hm : moreNar env r more = .ok r') :
    moreNar env r ((draws more).map .cycle) = .ok r' ∧ r'.sh.judgementTasks = [] ∧ r'.queue = [] := by
  induction more generalizing ops r with
  | nil => cases hm; exact ⟨rfl, hj, hq⟩
  | cons op more ih =>
    obtain ⟨r1, hc, hv⟩ := foldlM_cons_ok.1 hm
    have hk' : ∀ op ∈ more, op = .declWork ∨ ∃ v, op = .cycle v := fun o ho => hk o (by simp [ho])
    rcases hk op (by simp) with rfl | ⟨v, rfl⟩
    · have : r1 = r := by
        have e : declWork env r = r1 := by cases hc; rfl
        rw [← e]
        unfold declWork
        rw [hq]
        split <;> rfl
      subst this
      exact ih hk' h hj hq hv
    · have hc : cycle env r v = .ok r1 := hc
      obtain ⟨sh, msg, calls, g1, g2, g3⟩ := cycle_parts hc
      obtain ⟨_, e2, _, _, _⟩ := look_fields r
      have k5 := (reasonCycle_taken g1 (look_inv (runNar_WDecl h).inv)).2.2.2.2
      rw [e2] at k5
      rcases k5 with ⟨_, rfl, k7⟩ | ⟨m, l, _, hp, _⟩
      · obtain ⟨i1, i2, i3⟩ := ih hk' (moreNar_append.2 ⟨r, h, foldlM_cons_ok.2 ⟨r1, hc, rfl⟩⟩ : runNar env (ops ++ [.cycle v]) = .ok r1)
          (by rw [g2]; exact k7) (by rw [g3, hq]; rfl) hv
        exact ⟨foldlM_cons_ok.2 ⟨r1, hc, i1⟩, i2, i3⟩
      · rw [hj] at hp
        exact absurd hp.length_eq (by simp)

/-- the draw takes the question into whose share it falls -/
theorem falls_selected {env : Env} {ops : List NarOp} {r r' : Reasoner} {v : Rat} {i : Nat} (h : runNar env ops = .ok r)
    (hv : FallsOn v r.sh.questionTasks.length i) (hc : Nar.cycle env r v = .ok r') (hne : r.sh.questionTasks ≠ []) :
    task2SelByCreditRandom v r.sh.questionTasks = .ok i := by
  obtain ⟨_, calls, _, _, hq⟩ := cycle_asks hc
  rcases hq with ⟨e, _⟩ | ⟨j, q, q', cands, hj, _⟩
  · exact absurd e hne
  · have hj' := hj
    unfold task2SelByCreditRandom at hj'
    rw [(runNar_shares h).weights] at hj'
    rw [hj, selByWeight_ones hv hj']

end Nar
