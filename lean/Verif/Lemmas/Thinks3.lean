import Verif.Lemmas.Thinks2
import Verif.Props.Task
/-! # Helper lemmas: a run of quiet cycles, and what the worker makes of a message -/
namespace Nar
open Term

theorem NoTrim.next {sh sh' : Shared} {n : Nat} (h : NoTrim sh (n + 1)) (hc : sh'.cycleCounter = sh.cycleCounter + 1) :
    (sh.cycleCounter + 1) % 111 ≠ 0 ∧ NoTrim sh' n := by
  refine ⟨by have := h 1 (by omega) (by omega); exact_mod_cast this, fun k h1 h2 => ?_⟩
  have := h (k + 1) (by omega) (by omega)
  rw [hc]
  intro h0
  apply this
  rw [← h0]
  congr 1
  push_cast
  omega

/-- a cycle -/
def SysOp.isCycle : SysOp → Bool
  | .cycle _ _ => true
  | _ => false

/-- nothing comes in: a cycle, or a change of the procedural memory -/
def SysOp.Calm : SysOp → Prop
  | .cycle _ _ | .procMem _ => True
  | _ => False

theorem quiet_calm (vs : List (Rat × Int)) : (∀ op ∈ quiet vs, op.Calm) ∧ (quiet vs).countP SysOp.isCycle = vs.length := by
  constructor
  · intro op hop
    obtain ⟨v, _, rfl⟩ := List.mem_map.1 hop
    trivial
  · unfold quiet
    rw [List.countP_map]
    rw [List.countP_eq_length]
    intro a _; rfl

/-- quiet cycles take pending tasks, one at a time -/
theorem calm_taken {cfg : Cfg} {ops : List SysOp} {s s' : Sys} (hi : Inv cfg s.sh) (hops : ∀ op ∈ ops, op.Calm)
    (h : moreSys cfg s ops = .ok s') :
    ∃ msgs : List Msg, s'.queue = s.queue ++ msgs ∧
      (msgs.map (·.primary) ++ s'.sh.judgementTasks).Subperm s.sh.judgementTasks ∧
      (s.sh.judgementTasks.length ≤ ops.countP SysOp.isCycle → s'.sh.judgementTasks = []) ∧
      (NoTrim s.sh s.sh.judgementTasks.length →
        (msgs.map (·.primary) ++ s'.sh.judgementTasks).Perm s.sh.judgementTasks ∧
        (Room s.sh → ∀ m ∈ msgs, Paired s.sh m) ∧ ∀ m ∈ msgs, Only s.sh m) := by
  induction ops generalizing s with
  | nil =>
    cases h
    exact ⟨[], by simp, List.Subperm.refl _, fun hl => List.length_eq_zero_iff.1 (by simpa using hl), fun _ => ⟨by simp, by simp, by simp⟩⟩
  | cons op ops ih =>
    obtain ⟨s1, hrun, h2⟩ := foldlM_cons_ok.1 h
    have hk := SysOp.run_kept hrun
    obtain ⟨msgs, q1, q2, q3, q4⟩ := ih (hk.inv hi) (fun op ho => hops op (by simp [ho])) h2
    have hcalm := hops op (by simp)
    cases op with
    | input _ _ _ _ => exact hcalm.elim
    | work => exact hcalm.elim
    | flush => exact hcalm.elim
    | newStampId => exact hcalm.elim
    | procMem m =>
      have he : s1 = { s with sh := { s.sh with procMem := m } } := (Except.ok.inj hrun).symm
      rw [he] at q1 q2 q3 q4
      refine ⟨msgs, q1, q2, fun hl => q3 (by simpa [SysOp.isCycle] using hl), fun hnt => ?_⟩
      obtain ⟨r1, r2, r3⟩ := q4 hnt
      exact ⟨r1, fun room => r2 ⟨room.perTerm, room.total⟩, r3⟩
    | cycle v now =>
    obtain ⟨⟨sh1, msg, calls⟩, hc, he⟩ := R.bind_ok.1 hrun
    rw [← Except.ok.inj he] at q1 q2 q3 q4
    have hcnt : (SysOp.cycle v now :: ops).countP SysOp.isCycle = ops.countP SysOp.isCycle + 1 :=
      List.countP_cons_of_pos rfl
    obtain ⟨t1, t2, t3, t4, t5⟩ := reasonCycle_taken hc hi
    rcases t5 with ⟨e1, rfl, e3⟩ | ⟨m, l, rfl, p1, ⟨l', p2, p3⟩, p4, p5, p6⟩
    · refine ⟨msgs, by simpa using q1, by rw [e3] at q2; rw [e1]; exact q2, fun _ => q3 (by rw [e3]; simp), fun _ => ?_⟩
      rw [e3] at q2
      have hnil : msgs.map (·.primary) ++ s'.sh.judgementTasks = [] := List.subperm_nil.1 q2
      rw [hnil, e1]
      have : msgs = [] := by simpa using (List.append_eq_nil_iff.1 hnil).1
      rw [this]
      exact ⟨.refl _, by simp, by simp⟩
    · have hlen : s.sh.judgementTasks.length = l.length + 1 := by rw [← p1.length_eq]; simp
      have hsub1 : sh1.judgementTasks.Subperm l := (p3.subperm).trans p2.subperm
      refine ⟨m :: msgs, by rw [q1]; simp, ?_, ?_, ?_⟩
      · refine List.Subperm.trans ?_ p1.subperm
        simp only [List.map_cons, List.cons_append]
        exact (List.subperm_cons _).2 (q2.trans hsub1)
      · intro hle
        apply q3
        have := hsub1.length_le
        show sh1.judgementTasks.length ≤ _
        omega
      · intro hnt
        rw [hlen] at hnt
        obtain ⟨n1, n2⟩ := hnt.next t3
        have ej := p4 n1
        have al := t4 n1
        obtain ⟨r1, r2, r3⟩ := q4 (by rw [ej]; exact n2)
        refine ⟨?_, ?_, ?_⟩
        · simp only [List.map_cons, List.cons_append]
          rw [ej] at r1
          exact (r1.cons _).trans p1
        · intro room m' hm'
          rcases List.mem_cons.1 hm' with rfl | hm'
          · exact p5 room
          · exact al.paired (r2 (al.room room) m' hm')
        · intro m' hm'
          rcases List.mem_cons.1 hm' with rfl | hm'
          · exact p6
          · exact al.only (r3 m' hm')

/-! ## the worker -/

theorem moreTasks_mid {cfg : Cfg} {st st' : Shared × List AnswerCall} {ops : List TaskOp} {op : TaskOp}
    (h : moreTasks cfg st ops = .ok st') (hop : op ∈ ops) :
    ∃ st1 sh2 calls, (∃ pre, moreTasks cfg st pre = .ok st1) ∧ op.run cfg st1.1 = .ok (sh2, calls) ∧
      ∃ post, moreTasks cfg (sh2, st1.2 ++ calls) post = .ok st' := by
  obtain ⟨pre, post, rfl⟩ := List.append_of_mem hop
  unfold moreTasks at h
  rw [List.foldlM_append] at h
  obtain ⟨st1, h1, h⟩ := R.bind_ok.1 h
  rw [List.foldlM_cons] at h
  obtain ⟨st2, h2, h⟩ := R.bind_ok.1 h
  obtain ⟨⟨sh2, calls⟩, h3, h4⟩ := R.bind_ok.1 h2
  cases h4
  exact ⟨st1, sh2, calls, ⟨pre, h1⟩, h3, post, h⟩

theorem nameCells_mem {cycle : Int} {drawn : List (Sentence × Rat)} {c : Sentence} {w : Rat} (h : (c, w) ∈ drawn) :
    ∃ u, ({ c with usage := u }, w) ∈ nameCells cycle drawn := by
  obtain ⟨i, hi, e⟩ := List.getElem_of_mem h
  refine ⟨⟨0, 0, [cycle, i]⟩, List.mem_mapIdx.2 ⟨i, hi, ?_⟩⟩
  rw [e]

theorem HasTask.kept {sh sh' : Shared} (h : HeapKept sh.heap sh'.heap) {c : Sentence} (ht : HasTask sh c) : HasTask sh' c := by
  obtain ⟨t, ht, e1, e2⟩ := ht
  obtain ⟨r, hr⟩ := List.getElem?_of_mem ht
  obtain ⟨t', h1, h2⟩ := h r t hr
  refine ⟨t', List.mem_of_getElem? h1, by rw [h2.term]; exact e1, ?_⟩
  unfold SameSent at h2
  rw [h2]; exact e2

/-- offering a conclusion makes the best answer at least as good -/
theorem offer_best {cfg : Cfg} {sh sh' : Shared} {c : Sentence} {calls : List AnswerCall} (h : offerConclusion cfg sh c = .ok (sh', calls))
    {i : Nat} {q : Task2} (hq : sh.questionTasks[i]? = some q) (hca : CanAnswer q c) {e : Rat} (he : Expectation c e) :
    ∃ q', sh'.questionTasks[i]? = some q' ∧ e ≤ q'.bestAnswerExp := by
  simp only [offerConclusion] at h
  rw [if_pos hca.1] at h
  obtain ⟨⟨qs, cc⟩, b1, b2⟩ := R.bind_ok.1 h
  cases b2
  obtain ⟨l1, l2, _⟩ := qaOffer_spec b1
  have hi : i < qs.length := by rw [l1]; exact (List.getElem?_eq_some_iff.1 hq).1
  obtain ⟨q0, cs0, d1, d2, _⟩ := l2 i qs[i] (List.getElem?_eq_getElem hi)
  rw [hq] at d1; cases d1
  obtain ⟨_, _, _, _, _, f6, _⟩ := qaTryAll_spec d2
  exact ⟨qs[i], List.getElem?_eq_getElem hi, f6 _ (by simp) hca e he⟩

theorem QKept.best {n : Nat} {qs qs' : List Task2} {new : List AnswerCall} (h : QKept n qs qs' new) {i : Nat} {q : Task2}
    (hq : qs[i]? = some q) : ∃ q', qs'[i]? = some q' ∧ q'.sentence = q.sentence ∧ q.bestAnswerExp ≤ q'.bestAnswerExp := by
  obtain ⟨q', cands, calls, h1, h2, _⟩ := h i q hq
  obtain ⟨f1, _, _, f4, _⟩ := qaTryAll_spec h2
  exact ⟨q', h1, f1, f4⟩

/-- the worker deals with everything which can be concluded from the message -/
theorem work_deals {cfg : Cfg} {sh sh' : Shared} {msg : Msg} {calls : List AnswerCall} (h : work cfg sh msg = .ok (sh', calls))
    {c : Sentence} {w : Rat} (hc : Concludes sh msg c w) :
    (c.punct = .JUGEMENT → (calcComplexity c.term : Int) ≤ cfg.maxComplexity → HasTask sh' c) ∧
    ∀ (i : Nat) (q : Task2), sh.questionTasks[i]? = some q → CanAnswer q c → ∀ e, Expectation c e →
      ∃ q', sh'.questionTasks[i]? = some q' ∧ e ≤ q'.bestAnswerExp := by
  obtain ⟨concl, p, h1, h2, h3⟩ := work_more [] h
  obtain ⟨drawn, rfl, hd⟩ := workConclusions_iff h1
  obtain ⟨u, hu⟩ := nameCells_mem (cycle := msg.cycleCounter) ((hd c w).2 hc)
  constructor
  · intro hj hx
    obtain ⟨st1, sh2, cs, ⟨pre, k1⟩, k2, post, k3⟩ := moreTasks_mid (op := TaskOp.add { c with usage := u } true (p.mulCredit * w) msg.cycleCounter) h3
      (List.mem_append_right _ (List.mem_map.2 ⟨_, hu, rfl⟩))
    obtain ⟨x, m1, m2⟩ := R.map_ok.1 k2
    cases m2
    obtain ⟨r, hr, t, ht, e1, e2⟩ := Props.C20_added_is_worked_on cfg _ _ { c with usage := u } true _ _ hj hx m1
    exact HasTask.kept (moreTasks_kept k3).heap ⟨t, List.mem_of_getElem? ht, e1, e2⟩
  · intro i q hq hca e he
    obtain ⟨st1, sh2, cs, ⟨pre, k1⟩, k2, post, k3⟩ := moreTasks_mid (op := TaskOp.offer { c with usage := u }) h3
      (List.mem_append_left _ (List.mem_map.2 ⟨_, hu, rfl⟩))
    obtain ⟨_, _, kq⟩ := (moreTasks_kept k1).questions
    obtain ⟨q1, a1, a2, _⟩ := kq.best hq
    have hca1 : CanAnswer q1 { c with usage := u } := by
      refine ⟨hca.1, ?_⟩
      rw [a2]; exact hca.2
    obtain ⟨q2, b1, b2⟩ := offer_best k2 a1 hca1 (show Expectation { c with usage := u } e from he)
    obtain ⟨_, _, kq'⟩ := (moreTasks_kept k3).questions
    obtain ⟨q3, d1, d2, d3⟩ := kq'.best b1
    exact ⟨q3, d1, le_trans b2 d3⟩

theorem best_reported {n : Nat} {cands : List Sentence} {q q' : Task2} {calls : List AnswerCall}
    (h : qaTryAll n q cands = .ok (q', calls)) :
    q'.bestAnswerExp = q.bestAnswerExp ∨
    ∃ a, (∀ hd, Registered n q hd → a ∈ answersTo calls hd) ∧ Expectation a q'.bestAnswerExp := by
  induction cands generalizing q calls with
  | nil => cases h; exact .inl rfl
  | cons c cs ih =>
    unfold qaTryAll at h
    obtain ⟨⟨q1, c1⟩, h1, h⟩ := R.bind_ok.1 h
    obtain ⟨⟨q2, c2⟩, h2, h⟩ := R.bind_ok.1 h
    cases h
    have i := ih h2
    rcases qaTryAnswer_cases h1 with ⟨rfl, rfl, _⟩ | ⟨e, he, hlt, hca, rfl, rfl⟩
    · exact i
    · right
      rcases i with i | ⟨a, i1, i2⟩
      · refine ⟨c, fun hd hr => ?_, by rw [i]; exact he⟩
        rw [answersTo_append, (answersTo_one n q c hd).1 hr]; simp
      · refine ⟨a, fun hd hr => ?_, i2⟩
        rw [answersTo_append]
        refine List.mem_append_right _ (i1 hd ?_)
        cases hd <;> exact hr

/-- a question whose best answer got better has reported an answer of that quality to all its handlers -/
theorem reported_of_best {n : Nat} {qs qs' : List Task2} {new : List AnswerCall} (hk : QKept n qs qs' new) {i : Nat} {q q' : Task2}
    (hq : qs[i]? = some q) (hq' : qs'[i]? = some q') {e : Rat} (he : q.bestAnswerExp < e) (hb : e ≤ q'.bestAnswerExp) :
    ∀ hd, Registered n q hd → ∃ call ∈ new, call.handler = hd ∧ call.question = q.sentence.term ∧ CanAnswer q call.answer ∧
      ∃ e', e ≤ e' ∧ Expectation call.answer e' := by
  obtain ⟨q1, cands, calls, h0, h1, h2⟩ := hk i q hq
  rw [hq'] at h0; cases h0
  obtain ⟨_, _, _, _, _, _, answers, _, _, k8, _, _, k11⟩ := qaTryAll_spec h1
  rcases best_reported h1 with hz | ⟨a, ha0, hae⟩
  · rw [hz] at hb; exact absurd (lt_of_lt_of_le he hb) (lt_irrefl _)
  intro hd hreg
  have ha := ha0 hd hreg
  unfold answersTo at ha
  obtain ⟨call, hcall, rfl⟩ := List.mem_map.1 ha
  obtain ⟨hm, hh⟩ := List.mem_filter.1 hcall
  obtain ⟨g1, g2⟩ := k11 call hm
  exact ⟨call, h2.subset hm, by simpa using hh, g1, (k8 _ g2).1, q'.bestAnswerExp, hb, hae⟩

end Nar
