import Verif.Lemmas.Task
import Mathlib.Tactic.Linarith
import Mathlib.Tactic.Positivity
/-! # Helper lemmas about questions, selection and credit -/
namespace Nar
open Term

/-! ## questions -/

theorem qaTryAnswer_cases {n : Nat} {q q' : Task2} {c : Sentence} {calls : List AnswerCall}
    (h : qaTryAnswer n q c = .ok (q', calls)) :
    (q' = q ∧ calls = [] ∧ (c.punct ≠ .JUGEMENT ∨ ∃ e, Expectation c e ∧ (e ≤ q.bestAnswerExp ∨ ¬ CanAnswer q c))) ∨
    (∃ e, Expectation c e ∧ q.bestAnswerExp < e ∧ CanAnswer q c ∧ q' = { q with bestAnswerExp := e } ∧
      calls = (if q.handler then [⟨.ofTask, q.sentence.term, c⟩] else []) ++
            (List.range n).map (fun i => ⟨.global i, q.sentence.term, c⟩)) := by
  unfold qaTryAnswer at h
  split at h
  · rename_i hp; cases h; exact .inl ⟨rfl, rfl, .inl hp⟩
  · rename_i hp
    rw [R.bind_ok] at h
    obtain ⟨e, he, h⟩ := h
    rw [expOf_iff] at he
    split at h
    · rename_i hgt
      cases hu : unify q.sentence.term c.term with
      | some σ =>
        rw [hu] at h; cases h
        exact .inr ⟨e, he, hgt, ⟨by simpa using hp, by simp [hu]⟩, rfl, rfl⟩
      | none =>
        rw [hu] at h; cases h
        exact .inl ⟨rfl, rfl, .inr ⟨e, he, .inr (by simp [CanAnswer, hu])⟩⟩
    · rename_i hgt
      cases h
      exact .inl ⟨rfl, rfl, .inr ⟨e, he, .inl (not_lt.1 hgt)⟩⟩

theorem answersTo_append (a b : List AnswerCall) (h : HandlerId) :
    answersTo (a ++ b) h = answersTo a h ++ answersTo b h := by simp [answersTo]

theorem answersTo_one (n : Nat) (q : Task2) (c : Sentence) (h : HandlerId) :
    (Registered n q h → answersTo ((if q.handler then [⟨.ofTask, q.sentence.term, c⟩] else []) ++
            (List.range n).map (fun i => (⟨.global i, q.sentence.term, c⟩ : AnswerCall))) h = [c]) ∧
    (¬ Registered n q h → answersTo ((if q.handler then [⟨.ofTask, q.sentence.term, c⟩] else []) ++
            (List.range n).map (fun i => (⟨.global i, q.sentence.term, c⟩ : AnswerCall))) h = []) := by
  have hg : ∀ n i, answersTo ((List.range n).map (fun i => (⟨.global i, q.sentence.term, c⟩ : AnswerCall))) (.global i)
      = if i < n then [c] else [] := by
    intro n i
    induction n with
    | zero => simp [answersTo]
    | succ n ih =>
      rw [List.range_succ, List.map_append, answersTo_append, ih]
      by_cases hin : i < n
      · have : ¬ n = i := by omega
        simp [answersTo, hin, this]; omega
      · by_cases he : n = i
        · subst he; simp [answersTo]
        · have : ¬ i < n + 1 := by omega
          simp [answersTo, hin, he, this]
  have ht : answersTo ((List.range n).map (fun i => (⟨.global i, q.sentence.term, c⟩ : AnswerCall))) .ofTask = [] := by
    simp [answersTo]
  have hh : ∀ i, answersTo (if q.handler then [(⟨.ofTask, q.sentence.term, c⟩ : AnswerCall)] else []) (.global i) = [] := by
    intro i; split <;> simp [answersTo]
  cases h with
  | ofTask =>
    rw [answersTo_append, ht]
    cases hq : q.handler <;> simp [Registered, hq, answersTo]
  | global i =>
    rw [answersTo_append, hg, hh]
    constructor
    · intro h; simp only [Registered] at h; simp [h]
    · intro h; simp only [Registered] at h; simp [h]

/-- everything about offering a list of candidates to a question -/
theorem qaTryAll_spec {n : Nat} {cands : List Sentence} {q q' : Task2} {calls : List AnswerCall}
    (h : qaTryAll n q cands = .ok (q', calls)) :
    q'.sentence = q.sentence ∧ q'.handler = q.handler ∧ q'.prio = q.prio ∧
    q.bestAnswerExp ≤ q'.bestAnswerExp ∧
    (q'.bestAnswerExp = q.bestAnswerExp ∨ ∃ c ∈ cands, CanAnswer q c ∧ Expectation c q'.bestAnswerExp) ∧
    (∀ c ∈ cands, CanAnswer q c → ∀ e, Expectation c e → e ≤ q'.bestAnswerExp) ∧
    (∃ answers : List Sentence, StrictlyImproving answers ∧ answers.Sublist cands ∧
      (∀ a ∈ answers, CanAnswer q a ∧ ∃ e, Expectation a e ∧ q.bestAnswerExp < e ∧ e ≤ q'.bestAnswerExp) ∧
      (∀ hd, Registered n q hd → answersTo calls hd = answers) ∧
      (∀ hd, ¬ Registered n q hd → answersTo calls hd = []) ∧
      ∀ c ∈ calls, c.question = q.sentence.term ∧ c.answer ∈ answers) := by
  induction cands generalizing q calls with
  | nil =>
    cases h
    exact ⟨rfl, rfl, rfl, le_refl _, .inl rfl, by simp, [], by simp [StrictlyImproving], by simp, by simp,
      by simp [answersTo], by simp [answersTo], by simp⟩
  | cons c cs ih =>
    unfold qaTryAll at h
    rw [R.bind_ok] at h
    obtain ⟨⟨q1, c1⟩, h1, h⟩ := h
    rw [R.bind_ok] at h
    obtain ⟨⟨q2, c2⟩, h2, h⟩ := h
    cases h
    obtain ⟨i1, i2, i3, i4, i5, i6, as, j1, j2, j3, j4, j5, j6⟩ := ih h2
    rcases qaTryAnswer_cases h1 with ⟨rfl, rfl, hno⟩ | ⟨e, he, hlt, hca, rfl, rfl⟩
    · refine ⟨i1, i2, i3, i4, ?_, ?_, as, j1, j2.cons _, j3, j4, j5, j6⟩
      · rcases i5 with h | ⟨x, hx, h⟩
        · exact .inl h
        · exact .inr ⟨x, by simp [hx], h⟩
      · intro x hx hax e he
        rcases List.mem_cons.1 hx with rfl | hx
        · rcases hno with hp | ⟨e', he', hle | hnc⟩
          · exact absurd hax.1 hp
          · rw [he.unique he']; exact le_trans hle i4
          · exact absurd hax hnc
        · exact i6 x hx hax e he
    · have hreg : ∀ hd, Registered n { q with bestAnswerExp := e } hd ↔ Registered n q hd := by
        intro hd; cases hd <;> rfl
      have hcan : ∀ x, CanAnswer { q with bestAnswerExp := e } x ↔ CanAnswer q x := fun x => Iff.rfl
      simp only at i4
      refine ⟨i1, i2, i3, le_trans (le_of_lt hlt) i4, ?_, ?_, c :: as, ?_, j2.cons_cons _, ?_, ?_, ?_, ?_⟩
      · rcases i5 with h | ⟨x, hx, hxa, h⟩
        · right; exact ⟨c, by simp, hca, by simp only at h; rw [h]; exact he⟩
        · exact .inr ⟨x, by simp [hx], hxa, h⟩
      · intro x hx hax e' he'
        rcases List.mem_cons.1 hx with rfl | hx
        · rw [he'.unique he]; exact i4
        · exact i6 x hx hax e' he'
      · unfold StrictlyImproving
        rw [List.pairwise_cons]
        refine ⟨?_, j1⟩
        intro a ha ea eb hea heb
        obtain ⟨_, e', he', hl, _⟩ := j3 a ha
        rw [hea.unique he, heb.unique he']; exact hl
      · intro a ha
        rcases List.mem_cons.1 ha with rfl | ha
        · exact ⟨hca, e, he, hlt, i4⟩
        · obtain ⟨h1, e', h2, h3, h4⟩ := j3 a ha
          exact ⟨h1, e', h2, lt_trans hlt h3, h4⟩
      · intro hd hr
        rw [answersTo_append, j4 hd ((hreg hd).2 hr), (answersTo_one n q c hd).1 hr]; rfl
      · intro hd hr
        rw [answersTo_append, j5 hd (fun h => hr ((hreg hd).1 h)), (answersTo_one n q c hd).2 hr]; rfl
      · intro call hc
        rcases List.mem_append.1 hc with hc | hc
        · have : call.question = q.sentence.term ∧ call.answer = c := by
            rcases List.mem_append.1 hc with hc | hc
            · split at hc
              · simp at hc; subst hc; exact ⟨rfl, rfl⟩
              · simp at hc
            · obtain ⟨i, _, rfl⟩ := List.mem_map.1 hc
              exact ⟨rfl, rfl⟩
          exact ⟨this.1, by simp [this.2]⟩
        · obtain ⟨h1, h2⟩ := j6 call hc
          exact ⟨h1, by simp [h2]⟩

theorem qaTryAll_append {n : Nat} {cs ds : List Sentence} {q q1 q2 : Task2} {c1 c2 : List AnswerCall}
    (h1 : qaTryAll n q cs = .ok (q1, c1)) (h2 : qaTryAll n q1 ds = .ok (q2, c2)) :
    qaTryAll n q (cs ++ ds) = .ok (q2, c1 ++ c2) := by
  induction cs generalizing q c1 with
  | nil => cases h1; exact h2
  | cons c cs ih =>
    unfold qaTryAll at h1
    rw [R.bind_ok] at h1
    obtain ⟨⟨qa, ca⟩, ha, h1⟩ := h1
    rw [R.bind_ok] at h1
    obtain ⟨⟨qb, cb⟩, hb, h1⟩ := h1
    cases h1
    rw [List.cons_append]
    unfold qaTryAll
    rw [R.bind_ok]
    refine ⟨(qa, ca), ha, ?_⟩
    rw [R.bind_ok]
    exact ⟨_, ih hb, by simp [List.append_assoc]⟩

theorem qaTryAll_one {n : Nat} {c : Sentence} {q q1 : Task2} {c1 : List AnswerCall}
    (h1 : qaTryAnswer n q c = .ok (q1, c1)) : qaTryAll n q [c] = .ok (q1, c1) := by
  unfold qaTryAll
  rw [R.bind_ok]
  refine ⟨(q1, c1), h1, ?_⟩
  unfold qaTryAll
  show Except.ok _ = _
  simp

theorem qaOffer_spec {n : Nat} {c : Sentence} {qs qs' : List Task2} {calls : List AnswerCall}
    (h : qaOffer n c qs = .ok (qs', calls)) :
    qs'.length = qs.length ∧
    (∀ (i : Nat) (q' : Task2), qs'[i]? = some q' → ∃ q cs, qs[i]? = some q ∧ qaTryAll n q [c] = .ok (q', cs) ∧ cs.Sublist calls) ∧
    (∀ a ∈ calls, ∃ (i : Nat) (q : Task2), qs[i]? = some q ∧ a.question = q.sentence.term ∧ a.answer = c ∧ CanAnswer q c ∧
      ∃ e, Expectation c e ∧ q.bestAnswerExp < e) := by
  induction qs generalizing qs' calls with
  | nil => cases h; simp
  | cons q qs ih =>
    unfold qaOffer at h
    rw [R.bind_ok] at h
    obtain ⟨⟨q1, c1⟩, h1, h⟩ := h
    rw [R.bind_ok] at h
    obtain ⟨⟨qs1, c2⟩, h2, h⟩ := h
    cases h
    obtain ⟨i1, i2, i3⟩ := ih h2
    refine ⟨by simp [i1], ?_, ?_⟩
    · intro i q' hq
      cases i with
      | zero =>
        simp at hq; subst hq
        exact ⟨q, c1, by simp, qaTryAll_one h1, List.sublist_append_left _ _⟩
      | succ i =>
        simp at hq
        obtain ⟨q0, cs, h3, h4, h5⟩ := i2 i q' hq
        exact ⟨q0, cs, by simpa using h3, h4, h5.trans (List.sublist_append_right _ _)⟩
    · intro a ha
      rcases List.mem_append.1 ha with ha | ha
      · obtain ⟨_, _, _, _, _, _, as, _, hs, j3, _, _, j6⟩ := qaTryAll_spec (qaTryAll_one h1)
        obtain ⟨k1, k2⟩ := j6 a ha
        have hc : a.answer = c := by simpa using hs.subset k2
        obtain ⟨k3, e, k4, k5, _⟩ := j3 _ k2
        rw [hc] at k3 k4
        exact ⟨0, q, by simp, k1, hc, k3, e, k4, k5⟩
      · obtain ⟨i, q0, h3, h4⟩ := i3 a ha
        exact ⟨i + 1, q0, by simpa using h3, h4⟩

/-- how an action changes the questions: old ones are offered candidates, new ones are appended -/
def QStep (n : Nat) (qs qs' : List Task2) (calls : List AnswerCall) : Prop :=
  qs.length ≤ qs'.length ∧
  (∀ (i : Nat) (q q' : Task2), qs[i]? = some q → qs'[i]? = some q' → ∃ cands cs, qaTryAll n q cands = .ok (q', cs) ∧ cs.Sublist calls) ∧
  (∀ (i : Nat) (q' : Task2), qs.length ≤ i → qs'[i]? = some q' → q'.bestAnswerExp = 0 ∧ q'.handler = false ∧ q'.prio = 1) ∧
  (∀ a ∈ calls, ∃ q ∈ qs, a.question = q.sentence.term ∧ CanAnswer q a.answer ∧
      ∃ e, Expectation a.answer e ∧ q.bestAnswerExp < e ∧
        ∃ (i : Nat) (q' : Task2), qs[i]? = some q ∧ qs'[i]? = some q' ∧ e ≤ q'.bestAnswerExp)

theorem QStep.refl (n : Nat) (qs : List Task2) : QStep n qs qs [] := by
  refine ⟨le_refl _, ?_, ?_, by simp⟩
  · intro i q q' h h'
    rw [h] at h'; cases h'
    exact ⟨[], [], rfl, List.Sublist.refl _⟩
  · intro i q' hi h
    rw [List.getElem?_eq_none hi] at h; cases h

theorem addTasks_questions {cc : Bool} {mc : Rat} {ss : List Sentence} {sh sh' : Shared}
    (h : addTasks sh cc mc ss = .ok sh') :
    ∃ new, sh'.questionTasks = sh.questionTasks ++ new ∧
      (∀ q ∈ new, q.bestAnswerExp = 0 ∧ q.handler = false ∧ q.prio = 1 ∧ ∃ s ∈ ss, s.punct = .QUESTION ∧ q.sentence.term = s.term) := by
  induction ss generalizing sh with
  | nil => cases h; exact ⟨[], by simp, by simp⟩
  | cons s ss ih =>
    have fin : ∀ {new : List Task2}, (∀ q ∈ new, q.bestAnswerExp = 0 ∧ q.handler = false ∧ q.prio = 1 ∧ ∃ x ∈ ss, x.punct = .QUESTION ∧ q.sentence.term = x.term) →
      (∀ q ∈ new, q.bestAnswerExp = 0 ∧ q.handler = false ∧ q.prio = 1 ∧ ∃ x ∈ s :: ss, x.punct = .QUESTION ∧ q.sentence.term = x.term) := by
      intro new h q hq
      obtain ⟨a, b, c, x, hx, h⟩ := h q hq
      exact ⟨a, b, c, x, by simp [hx], h⟩
    unfold addTasks at h
    cases hp : s.punct with
    | JUGEMENT =>
      rw [hp] at h
      simp only [R.bind_ok] at h
      obtain ⟨tasks, ht, h⟩ := h
      split at h
      · cases h; exact ⟨[], by simp, by simp⟩
      · rw [R.bind_ok] at h
        obtain ⟨task, htask, h⟩ := h
        obtain ⟨new, h1, h2⟩ := ih h
        exact ⟨new, h1, fin h2⟩
    | QUESTION =>
      rw [hp] at h
      obtain ⟨new, h1, h2⟩ := ih h
      refine ⟨{ sentence := shallowCopySentence s, handler := false, bestAnswerExp := 0, prio := 1 } :: new, ?_, ?_⟩
      · rw [h1]; simp only [List.append_assoc, List.singleton_append]
      · intro q hq
        rcases List.mem_cons.1 hq with rfl | hq
        · exact ⟨rfl, rfl, rfl, s, by simp, hp, rfl⟩
        · exact fin h2 q hq
    | GOAL =>
      rw [hp] at h
      obtain ⟨new, h1, h2⟩ := ih h
      exact ⟨new, h1, fin h2⟩

theorem QStep.of_append {n : Nat} {qs qs' new : List Task2} (h : qs' = qs ++ new)
    (hn : ∀ q ∈ new, q.bestAnswerExp = 0 ∧ q.handler = false ∧ q.prio = 1) : QStep n qs qs' [] := by
  subst h
  refine ⟨by simp, ?_, ?_, by simp⟩
  · intro i q q' h h'
    have hi : i < qs.length := by
      by_contra hge; rw [List.getElem?_eq_none (by omega)] at h; cases h
    rw [List.getElem?_append_left hi, h] at h'; cases h'
    exact ⟨[], [], rfl, List.Sublist.refl _⟩
  · intro i q' hi h
    rw [List.getElem?_append_right hi] at h
    exact hn q' (List.mem_of_getElem? h)

theorem TaskOp.run_questions {cfg : Cfg} {sh sh' : Shared} {op : TaskOp} {calls : List AnswerCall}
    (h : op.run cfg sh = .ok (sh', calls)) : QStep cfg.nGlobal sh.questionTasks sh'.questionTasks calls := by
  have hrefl := QStep.refl cfg.nGlobal sh.questionTasks
  cases op with
  | add s cc mc now =>
    obtain ⟨x, h1, h2⟩ := R.map_ok.1 h
    cases h2
    rcases memAddTask_cases h1 with ⟨_, rfl⟩ | ⟨hc, mem, rev, _, h2⟩
    · exact hrefl
    · obtain ⟨new, h3, h4⟩ := addTasks_questions h2
      exact QStep.of_append h3 (fun q hq => ⟨(h4 q hq).1, (h4 q hq).2.1, (h4 q hq).2.2.1⟩)
  | tick => cases h; exact hrefl
  | creditQuestions => cases h; rw [(creditQuestions_same sh).2.2.2.2.1]; exact hrefl
  | baseCredit =>
    obtain ⟨x, h1, h2⟩ := R.map_ok.1 h
    cases h2; rw [(baseCredit_same h1).2.2.2.2.1]; exact hrefl
  | answer v =>
    simp only [TaskOp.run] at h
    unfold answerSampled at h
    split at h
    · simp only [R.bind_ok] at h
      obtain ⟨i, _, q, hq, ⟨q', cs⟩, hall, h⟩ := h
      rw [indexAt_ok] at hq
      cases h
      refine ⟨by simp, ?_, ?_, ?_⟩
      · intro j q0 q1 h0 h1
        by_cases hij : i = j
        · subst hij
          have hi : i < sh.questionTasks.length := by
            by_contra hge; rw [List.getElem?_eq_none (by omega)] at hq; cases hq
          rw [List.getElem?_set_self hi] at h1
          rw [hq] at h0
          cases h0; cases h1
          exact ⟨_, _, hall, List.Sublist.refl _⟩
        · rw [List.getElem?_set_ne hij, h0] at h1
          cases h1
          exact ⟨[], [], rfl, List.nil_sublist _⟩
      · intro j q1 hj h1
        rw [List.getElem?_eq_none (by simpa using hj)] at h1; cases h1
      · intro a ha
        obtain ⟨_, _, _, _, _, _, as, _, _, j3, _, _, j6⟩ := qaTryAll_spec hall
        obtain ⟨k1, k2⟩ := j6 a ha
        obtain ⟨k3, e, k4, k5, k6⟩ := j3 _ k2
        have hi : i < sh.questionTasks.length := by
          by_contra hge; rw [List.getElem?_eq_none (by omega)] at hq; cases hq
        exact ⟨q, List.mem_of_getElem? hq, k1, k3, e, k4, k5, i, q', hq, List.getElem?_set_self hi, k6⟩
    · cases h; exact hrefl
  | offer c =>
    simp only [TaskOp.run] at h
    unfold offerConclusion at h
    split at h
    · rw [R.bind_ok] at h
      obtain ⟨⟨qs, cs⟩, h1, h⟩ := h
      cases h
      obtain ⟨k1, k2, k3⟩ := qaOffer_spec h1
      refine ⟨by simp [k1], ?_, ?_, ?_⟩
      · intro i q q' h h'
        obtain ⟨q0, cs', h3, h4, h5⟩ := k2 i q' h'
        rw [h] at h3; cases h3
        exact ⟨_, _, h4, h5⟩
      · intro i q' hi h
        simp only at h
        rw [List.getElem?_eq_none (by omega)] at h; cases h
      · intro a ha
        obtain ⟨i, q, h3, h4, h5, h6, h7⟩ := k3 a ha
        refine ⟨q, List.mem_of_getElem? h3, h4, ?_⟩
        obtain ⟨e, he1, he2⟩ := h7
        have hi : i < qs.length := by
          rw [k1]; by_contra hge; rw [List.getElem?_eq_none (by omega)] at h3; cases h3
        obtain ⟨q0, cs', h8, h9, _⟩ := k2 i _ (List.getElem?_eq_getElem hi)
        rw [h3] at h8; cases h8
        rw [h5]
        exact ⟨h6, e, he1, he2, i, _, h3, List.getElem?_eq_getElem hi,
          (qaTryAll_spec h9).2.2.2.2.2.1 c (by simp) h6 e he1⟩
    · cases h; exact hrefl
  | select =>
    obtain ⟨r', h1, h2⟩ := R.map_ok.1 h
    cases h2
    rcases selectPrimary_cases h1 with ⟨_, rfl⟩ | ⟨_, _, _, _, rfl⟩ <;> exact hrefl
  | usage msg now => cases h; rw [(updateUsage_same sh msg now).questions]; exact hrefl
  | cleanup =>
    obtain ⟨x, h1, h2⟩ := R.map_ok.1 h
    cases h2
    obtain ⟨_, _, _, _, rfl⟩ := cleanupTasks_spec h1
    exact hrefl
  | rebuild =>
    obtain ⟨x, h1, h2⟩ := R.map_ok.1 h
    cases h2
    unfold rebuildLookup at h1
    rw [R.bind_ok] at h1
    obtain ⟨_, _, h1⟩ := h1
    cases h1; exact hrefl
  | forget n =>
    obtain ⟨m, h1, h2⟩ := R.map_ok.1 h
    cases h2; exact hrefl
  | flush => cases h; exact hrefl
  | newStampId => cases h; exact hrefl
  | procMem m => cases h; exact hrefl

/-! ## selection -/

theorem topLoop_spec (decay : Int → Rat) (cc : Int) (arr : List Task) (idx : Nat) (best : Nat × Rat) :
    best.2 ≤ (topLoop decay cc arr idx best).2 ∧
    (∀ t ∈ arr, taskCalcCredit decay t cc ≤ (topLoop decay cc arr idx best).2) ∧
    (topLoop decay cc arr idx best = best ∨ ∃ j t, arr[j]? = some t ∧
      topLoop decay cc arr idx best = (idx + j, taskCalcCredit decay t cc) ∧ best.2 < taskCalcCredit decay t cc) := by
  induction arr generalizing idx best with
  | nil => simp [topLoop]
  | cons a arr ih =>
    unfold topLoop
    simp only
    by_cases h : taskCalcCredit decay a cc > best.2
    · rw [if_pos h]
      obtain ⟨i1, i2, i3⟩ := ih (idx + 1) (idx, taskCalcCredit decay a cc)
      refine ⟨le_trans (le_of_lt h) i1, ?_, ?_⟩
      · intro t ht
        rcases List.mem_cons.1 ht with rfl | ht
        · exact i1
        · exact i2 t ht
      · right
        rcases i3 with h3 | ⟨j, t, h1, h2, h3⟩
        · exact ⟨0, a, by simp, by rw [h3]; rfl, h⟩
        · exact ⟨j + 1, t, by simpa using h1, by rw [h2]; congr 1; omega, lt_trans h h3⟩
    · rw [if_neg h]
      obtain ⟨i1, i2, i3⟩ := ih (idx + 1) best
      refine ⟨i1, ?_, ?_⟩
      · intro t ht
        rcases List.mem_cons.1 ht with rfl | ht
        · exact le_trans (not_lt.1 h) i1
        · exact i2 t ht
      · rcases i3 with h3 | ⟨j, t, h1, h2, h3⟩
        · exact .inl h3
        · exact .inr ⟨j + 1, t, by simpa using h1, by rw [h2]; congr 1; omega, h3⟩

theorem taskSelByCreditTop_spec {decay : Int → Rat} {arr : List Task} {cc : Int} (hne : arr ≠ [])
    (hc : ∀ t ∈ arr, -5000 < taskCalcCredit decay t cc) :
    ∃ t, arr[taskSelByCreditTop decay arr cc]? = some t ∧
      ∀ u ∈ arr, taskCalcCredit decay u cc ≤ taskCalcCredit decay t cc := by
  obtain ⟨_, h2, h3⟩ := topLoop_spec decay cc arr 0 (0, -5000)
  unfold taskSelByCreditTop
  rcases h3 with h3 | ⟨j, t, h1, h4, _⟩
  · exfalso
    obtain ⟨a, ha⟩ := List.exists_mem_of_ne_nil _ hne
    have := h2 a ha
    rw [h3] at this
    exact absurd (hc a ha) (not_lt.2 this)
  · refine ⟨t, by rw [h4]; simpa using h1, ?_⟩
    intro u hu
    have := h2 u hu
    rw [h4] at this; exact this

theorem highestLoop_spec (decay : Int → Rat) (cc : Int) (arr : List Task) (idx idxRes : Nat) (res : Task) :
    ∃ best, (∀ t ∈ arr, taskCalcCredit decay t cc ≤ taskCalcCredit decay best cc) ∧
      taskCalcCredit decay res cc ≤ taskCalcCredit decay best cc ∧
      ((highestLoop decay cc arr idx idxRes res = idxRes ∧ best = res) ∨
        ∃ j, arr[j]? = some best ∧ highestLoop decay cc arr idx idxRes res = idx + j) := by
  induction arr generalizing idx idxRes res with
  | nil => exact ⟨res, by simp, le_refl _, .inl ⟨rfl, rfl⟩⟩
  | cons a arr ih =>
    unfold highestLoop
    split
    · rename_i h
      obtain ⟨b, h1, h2, h3⟩ := ih (idx + 1) idx a
      refine ⟨b, ?_, le_trans (le_of_lt h) h2, ?_⟩
      · intro t ht
        rcases List.mem_cons.1 ht with rfl | ht
        · exact h2
        · exact h1 t ht
      · right
        rcases h3 with ⟨h3, rfl⟩ | ⟨j, h3, h4⟩
        · exact ⟨0, by simp, by rw [h3]; rfl⟩
        · exact ⟨j + 1, by simpa using h3, by rw [h4]; omega⟩
    · rename_i h
      obtain ⟨b, h1, h2, h3⟩ := ih (idx + 1) idxRes res
      refine ⟨b, ?_, h2, ?_⟩
      · intro t ht
        rcases List.mem_cons.1 ht with rfl | ht
        · exact le_trans (not_lt.1 h) h2
        · exact h1 t ht
      · rcases h3 with h3 | ⟨j, h3, h4⟩
        · exact .inl h3
        · exact .inr ⟨j + 1, by simpa using h3, by rw [h4]; omega⟩

theorem selLoop_some {ws : List Rat} {thr acc : Rat} {idx i : Nat} (h : selLoop ws thr acc idx = some i) :
    idx ≤ i ∧ i < idx + ws.length ∧ thr ≤ acc + (ws.take (i - idx + 1)).sum ∧
    ∀ j, idx ≤ j → j < i → acc + (ws.take (j - idx + 1)).sum < thr := by
  induction ws generalizing acc idx with
  | nil => cases h
  | cons w ws ih =>
    unfold selLoop at h
    split at h
    · rename_i hge
      cases h
      refine ⟨le_refl _, by simp, by simpa using hge, ?_⟩
      intro j h1 h2; omega
    · rename_i hge
      obtain ⟨i1, i2, i3, i4⟩ := ih h
      refine ⟨by omega, by simp only [List.length_cons]; omega, ?_, ?_⟩
      · have : i - idx + 1 = (i - (idx + 1) + 1) + 1 := by omega
        rw [this, List.take_succ_cons, List.sum_cons, ← add_assoc]; exact i3
      · intro j h1 h2
        rcases Nat.eq_or_lt_of_le h1 with rfl | h1
        · simpa using not_le.1 hge
        · have : j - idx + 1 = (j - (idx + 1) + 1) + 1 := by omega
          rw [this, List.take_succ_cons, List.sum_cons, ← add_assoc]
          exact i4 j (by omega) h2

theorem selLoop_none {ws : List Rat} {thr acc : Rat} {idx : Nat} (h : selLoop ws thr acc idx = none)
    (hne : ws ≠ []) : acc + ws.sum < thr := by
  induction ws generalizing acc idx with
  | nil => exact absurd rfl hne
  | cons w ws ih =>
    unfold selLoop at h
    split at h
    · cases h
    · rename_i hge
      rw [List.sum_cons, ← add_assoc]
      by_cases hw : ws = []
      · subst hw; simpa using not_le.1 hge
      · exact ih h hw

/-! ## credit is never negative -/

/-- credits are not negative -/
def CreditOk (sh : Shared) : Prop :=
  (∀ t ∈ sh.heap, 0 ≤ t.credit ∧ 0 ≤ t.qaCredit ∧ 0 ≤ t.mulCredit) ∧ ∀ q ∈ sh.questionTasks, 0 ≤ q.prio

theorem divCredit_ok {t t' : Task} (h : divCreditByComplexity t = .ok t')
    (h0 : 0 ≤ t.credit ∧ 0 ≤ t.qaCredit ∧ 0 ≤ t.mulCredit) : 0 ≤ t'.credit ∧ 0 ≤ t'.qaCredit ∧ 0 ≤ t'.mulCredit := by
  unfold divCreditByComplexity at h
  split at h
  · cases h
  · cases h
    exact ⟨div_nonneg h0.1 (by positivity), div_nonneg h0.2.1 (by positivity), h0.2.2⟩

theorem mem_modify {α} {l : List α} {r : Nat} {f : α → α} {b : α} (h : b ∈ l.modify r f) :
    b ∈ l ∨ ∃ a, l[r]? = some a ∧ b = f a := by
  rw [List.mem_iff_getElem?] at h
  obtain ⟨i, hi⟩ := h
  rw [List.getElem?_modify] at hi
  by_cases hri : r = i
  · subst hri
    right
    cases hl : l[r]? with
    | none => rw [hl] at hi; simp at hi
    | some a => rw [hl] at hi; simp at hi; exact ⟨a, rfl, hi.symm⟩
  · cases hl : l[i]? with
    | none => rw [hl] at hi; simp at hi
    | some a => rw [hl] at hi; simp [hri] at hi; subst hi; exact .inl (List.mem_of_getElem? hl)

theorem CreditOk.modify {sh : Shared} (h : CreditOk sh) (r : Nat) (f : Task → Task)
    (hf : ∀ t, sh.heap[r]? = some t → 0 ≤ t.credit ∧ 0 ≤ t.qaCredit ∧ 0 ≤ t.mulCredit →
      0 ≤ (f t).credit ∧ 0 ≤ (f t).qaCredit ∧ 0 ≤ (f t).mulCredit) : CreditOk (sh.modifyTask r f) := by
  refine ⟨?_, h.2⟩
  intro t ht
  rcases mem_modify ht with ht | ⟨a, ha, rfl⟩
  · exact h.1 t ht
  · exact hf a ha (h.1 a (List.mem_of_getElem? ha))

theorem CreditOk.foldl {α} (f : Shared → α → Shared) (l : List α) {sh : Shared} (h : CreditOk sh)
    (hf : ∀ sh, ∀ a ∈ l, CreditOk sh → CreditOk (f sh a)) : CreditOk (l.foldl f sh) := by
  induction l generalizing sh with
  | nil => exact h
  | cons a l ih => exact ih (hf sh a (by simp) h) (fun sh b hb => hf sh b (by simp [hb]))

theorem creditQuestions_ok {sh : Shared} (h : CreditOk sh) : CreditOk (creditQuestions sh) := by
  unfold creditQuestions
  refine CreditOk.foldl _ _ h ?_
  intro sh' q hq hok
  unfold creditQuestion
  refine CreditOk.foldl _ _ hok ?_
  intro sh' t _ hok
  split
  · refine CreditOk.foldl _ _ hok ?_
    intro sh' r _ hok
    refine hok.modify r _ ?_
    intro t _ ht
    exact ⟨ht.1, add_nonneg ht.2.1 (h.2 q hq), ht.2.2⟩
  · exact hok

theorem baseCredit_ok {sh sh' : Shared} (h : baseCredit sh = .ok sh') (h0 : CreditOk sh) : CreditOk sh' := by
  unfold baseCredit at h
  refine foldlM_inv CreditOk h ?_ ?_
  · refine CreditOk.foldl _ _ h0 ?_
    intro sh' r _ hok
    refine hok.modify r _ ?_
    intro t _ ht
    exact ⟨add_nonneg ht.1 (by norm_num), ht.2⟩
  · intro r _ a b hok hstep
    rw [R.bind_ok] at hstep
    obtain ⟨t, ht, hstep⟩ := hstep
    rw [R.bind_ok] at hstep
    obtain ⟨t', ht', hstep⟩ := hstep
    cases hstep
    refine hok.modify r _ ?_
    intro u hu hu0
    rw [indexAt_ok] at ht
    rw [ht] at hu; cases hu
    exact divCredit_ok ht' hu0

theorem addTasks_ok {cc : Bool} {mc : Rat} {ss : List Sentence} {sh sh' : Shared}
    (h : addTasks sh cc mc ss = .ok sh') (h0 : CreditOk sh) (hmc : 0 ≤ mc) : CreditOk sh' := by
  induction ss generalizing sh with
  | nil => cases h; exact h0
  | cons s ss ih =>
    unfold addTasks at h
    cases hp : s.punct with
    | JUGEMENT =>
      rw [hp] at h
      simp only [R.bind_ok] at h
      obtain ⟨tasks, ht, h⟩ := h
      split at h
      · cases h; exact h0
      · rw [R.bind_ok] at h
        obtain ⟨task, htask, h⟩ := h
        refine ih h ⟨?_, h0.2⟩
        intro t ht
        rcases List.mem_append.1 ht with ht | ht
        · exact h0.1 t ht
        · simp at ht; subst ht
          unfold payCredit at htask
          split at htask
          · exact divCredit_ok htask ⟨by norm_num, le_refl _, hmc⟩
          · cases htask; exact ⟨by norm_num, le_refl _, hmc⟩
    | QUESTION =>
      rw [hp] at h
      refine ih h ⟨h0.1, ?_⟩
      intro q hq
      rcases List.mem_append.1 hq with hq | hq
      · exact h0.2 q hq
      · simp at hq; subst hq; norm_num
    | GOAL => rw [hp] at h; exact ih h h0

theorem TaskOp.run_credit {cfg : Cfg} {sh sh' : Shared} {op : TaskOp} {calls : List AnswerCall}
    (h : op.run cfg sh = .ok (sh', calls)) (h0 : CreditOk sh) (hs : op.CreditSane) : CreditOk sh' := by
  cases op with
  | add s cc mc now =>
    obtain ⟨x, h1, h2⟩ := R.map_ok.1 h
    cases h2
    rcases memAddTask_cases h1 with ⟨_, rfl⟩ | ⟨hc, mem, rev, _, h2⟩
    · exact h0
    · exact addTasks_ok h2 h0 hs
  | tick => cases h; exact h0
  | creditQuestions => cases h; exact creditQuestions_ok h0
  | baseCredit =>
    obtain ⟨x, h1, h2⟩ := R.map_ok.1 h
    cases h2; exact baseCredit_ok h1 h0
  | answer v =>
    obtain ⟨qs, hq⟩ := answerSampled_frame h
    have hst := TaskOp.run_questions h
    refine ⟨by simp only at hq; rw [hq]; exact h0.1, ?_⟩
    intro q hq
    obtain ⟨i, hi⟩ := List.mem_iff_getElem?.1 hq
    rcases Nat.lt_or_ge i sh.questionTasks.length with hlt | hge
    · obtain ⟨cands, cs, h1, _⟩ := hst.2.1 i _ q (List.getElem?_eq_getElem hlt) hi
      rw [(qaTryAll_spec h1).2.2.1]; exact h0.2 _ (List.getElem_mem _)
    · rw [(hst.2.2.1 i q hge hi).2.2]; norm_num
  | offer c =>
    obtain ⟨qs, hq⟩ := offerConclusion_frame h
    have hst := TaskOp.run_questions h
    refine ⟨by simp only at hq; rw [hq]; exact h0.1, ?_⟩
    intro q hq
    obtain ⟨i, hi⟩ := List.mem_iff_getElem?.1 hq
    rcases Nat.lt_or_ge i sh.questionTasks.length with hlt | hge
    · obtain ⟨cands, cs, h1, _⟩ := hst.2.1 i _ q (List.getElem?_eq_getElem hlt) hi
      rw [(qaTryAll_spec h1).2.2.1]; exact h0.2 _ (List.getElem_mem _)
    · rw [(hst.2.2.1 i q hge hi).2.2]; norm_num
  | select =>
    obtain ⟨r', h1, h2⟩ := R.map_ok.1 h
    cases h2
    rcases selectPrimary_cases h1 with ⟨_, rfl⟩ | ⟨_, _, _, _, rfl⟩ <;> exact h0
  | usage msg now =>
    cases h
    refine updateUsage_inv CreditOk msg now h0 ?_
    intro sh' r hok
    rcases useTask_cases now sh' r with ⟨_, e⟩ | ⟨task, _, e⟩
    · rw [e]; exact hok
    · rw [e]
      refine ⟨?_, hok.2⟩
      intro t ht
      obtain ⟨a, ha, rfl⟩ := List.mem_map.1 ht
      exact hok.1 a ha
  | cleanup =>
    obtain ⟨x, h1, h2⟩ := R.map_ok.1 h
    cases h2
    obtain ⟨_, _, _, _, rfl⟩ := cleanupTasks_spec h1
    exact h0
  | rebuild =>
    obtain ⟨x, h1, h2⟩ := R.map_ok.1 h
    cases h2
    unfold rebuildLookup at h1
    rw [R.bind_ok] at h1
    obtain ⟨_, _, h1⟩ := h1
    cases h1; exact h0
  | forget n =>
    obtain ⟨m, h1, h2⟩ := R.map_ok.1 h
    cases h2; exact h0
  | flush => cases h; exact h0
  | newStampId => cases h; exact h0
  | procMem m => cases h; exact h0

theorem taskCalcCredit_nonneg {decay : Int → Rat} (hd : ∀ d, 0 ≤ decay d) {t : Task}
    (h : 0 ≤ t.credit ∧ 0 ≤ t.qaCredit ∧ 0 ≤ t.mulCredit) (cc : Int) : 0 ≤ taskCalcCredit decay t cc := by
  unfold taskCalcCredit
  have := hd (cc - t.derivTime)
  obtain ⟨h1, h2, h3⟩ := h
  simp only
  positivity

/-! ## choosing partners -/

theorem insertAsc_perm {α} (a : Nat × α) (l : List (Nat × α)) : (insertAsc a l).Perm (a :: l) := by
  induction l with
  | nil => exact List.Perm.refl _
  | cons b l ih =>
    unfold insertAsc
    split
    · exact List.Perm.refl _
    · exact (ih.cons b).trans (List.Perm.swap _ _ _)

theorem sortAsc_perm {α} (l : List (Nat × α)) : (sortAsc l).Perm l := by
  induction l with
  | nil => exact List.Perm.refl _
  | cons a l ih => exact (insertAsc_perm a _).trans (ih.cons a)

theorem sortAsc_sorted {α} (l : List (Nat × α)) : (sortAsc l).Pairwise (fun a b => a.1 ≤ b.1) := by
  have key : ∀ (a : Nat × α) (l : List (Nat × α)), l.Pairwise (fun a b => a.1 ≤ b.1) →
      (insertAsc a l).Pairwise (fun a b => a.1 ≤ b.1) := by
    intro a l
    induction l with
    | nil => intro _; simp [insertAsc]
    | cons b l ih =>
      intro h
      rw [List.pairwise_cons] at h
      unfold insertAsc
      split
      · rename_i hab
        rw [List.pairwise_cons, List.pairwise_cons]
        refine ⟨?_, h⟩
        intro x hx
        rcases List.mem_cons.1 hx with rfl | hx
        · exact hab
        · exact le_trans hab (h.1 x hx)
      · rename_i hab
        rw [List.pairwise_cons]
        refine ⟨?_, ih h.2⟩
        intro x hx
        rcases List.mem_cons.1 ((insertAsc_perm a l).mem_iff.1 hx) with rfl | hx
        · omega
        · exact h.1 x hx
  induction l with
  | nil => exact .nil
  | cons a l ih => exact key a _ ih

theorem addEligible_spec {sh : Shared} {acc acc' : List Nat} {r : Nat} (h : addEligible sh acc r = .ok acc') :
    (acc' = acc ∧ ∃ t ∈ acc, ∃ tr tt, sh.heap[r]? = some tr ∧ sh.heap[t]? = some tt ∧ tt.id = tr.id) ∨
    (acc' = acc ++ [r] ∧ ∃ tr, sh.heap[r]? = some tr ∧ ∀ t ∈ acc, ∀ tt, sh.heap[t]? = some tt → tt.id ≠ tr.id) := by
  unfold addEligible at h
  rw [R.bind_ok] at h
  obtain ⟨t, ht, h⟩ := h
  rw [R.bind_ok] at h
  obtain ⟨ts, hts, h⟩ := h
  rw [indexAt_ok] at ht
  rw [derefs_iff] at hts
  by_cases hany : ts.any (fun iSec => iSec.id == t.id) = true
  · rw [if_pos hany] at h; cases h
    left
    rw [List.any_eq_true] at hany
    obtain ⟨x, hx, he⟩ := hany
    obtain ⟨a, ha, hax⟩ := forall₂_right_mem hts hx
    exact ⟨rfl, a, ha, t, x, ht, hax, by simpa using he⟩
  · rw [if_neg hany] at h; cases h
    right
    refine ⟨rfl, t, ht, ?_⟩
    intro a ha tt htt he
    apply hany
    rw [List.any_eq_true]
    obtain ⟨b, hb, hab⟩ := forall₂_left_mem hts ha
    rw [htt] at hab; cases hab
    exact ⟨tt, hb, by simpa using he⟩

/-- the loop which collects partners -/
theorem addEligible_fold {sh : Shared} {cands acc0 acc : List Nat} (hid : (sh.heap.map (·.id)).Nodup)
    (h : cands.foldlM (addEligible sh) acc0 = .ok acc) (h0 : acc0.Nodup) (hv : ∀ r ∈ acc0, r < sh.heap.length) :
    acc.Nodup ∧ (∀ r, r ∈ acc ↔ r ∈ acc0 ∨ r ∈ cands) ∧ ∀ r ∈ acc, r < sh.heap.length := by
  induction cands generalizing acc0 with
  | nil => rw [foldlM_nil_ok] at h; subst h; exact ⟨h0, by simp, hv⟩
  | cons r cands ih =>
    rw [foldlM_cons_ok] at h
    obtain ⟨acc1, h1, h⟩ := h
    have hlt : ∀ {r : Nat} {t : Task}, sh.heap[r]? = some t → r < sh.heap.length := by
      intro r t hr; by_contra hge; rw [List.getElem?_eq_none (by omega)] at hr; cases hr
    rcases addEligible_spec h1 with ⟨rfl, t, ht, tr, tt, hr, htt, he⟩ | ⟨rfl, tr, hr, hne⟩
    · have : t = r := by
        have h1 := hlt htt
        have h2 := hlt hr
        rw [List.getElem?_eq_getElem h1] at htt
        rw [List.getElem?_eq_getElem h2] at hr
        cases htt; cases hr
        have := (List.nodup_iff_injective_get.1 hid)
        have h3 := @this ⟨t, by simpa using h1⟩ ⟨r, by simpa using h2⟩ (by simpa using he)
        simpa using h3
      subst this
      obtain ⟨i1, i2, i3⟩ := ih h h0 hv
      refine ⟨i1, ?_, i3⟩
      intro x; rw [i2, List.mem_cons]
      constructor
      · tauto
      · rintro (h | rfl | h)
        · exact .inl h
        · exact .inl ht
        · exact .inr h
    · obtain ⟨i1, i2, i3⟩ := ih h (by
          rw [List.nodup_append]
          refine ⟨h0, by simp, ?_⟩
          intro a ha b hb hab
          simp at hb; subst hb; subst hab
          exact hne a ha tr hr rfl) (by
          intro x hx
          rcases List.mem_append.1 hx with hx | hx
          · exact hv x hx
          · simp at hx; subst hx; exact hlt hr)
      refine ⟨i1, ?_, i3⟩
      intro x; rw [i2, List.mem_append, List.mem_singleton, List.mem_cons]; tauto

theorem addEligible_total {sh : Shared} {cands acc0 : List Nat} (hv : ∀ r ∈ acc0, r < sh.heap.length)
    (hc : ∀ r ∈ cands, r < sh.heap.length) : ∃ acc, cands.foldlM (addEligible sh) acc0 = .ok acc := by
  induction cands generalizing acc0 with
  | nil => exact ⟨acc0, rfl⟩
  | cons r cands ih =>
    have hr := hc r (by simp)
    obtain ⟨ts, hts⟩ := derefs_total hv
    have h1 : ∃ acc1, addEligible sh acc0 r = .ok acc1 ∧ ∀ r ∈ acc1, r < sh.heap.length := by
      unfold addEligible
      rw [indexAt_ok.2 (List.getElem?_eq_getElem hr)]
      show ∃ acc1, ((sh.derefs acc0) >>= fun ts => _) = _ ∧ _
      rw [hts]
      refine ⟨_, rfl, ?_⟩
      intro x hx
      split at hx
      · exact hv x hx
      · rcases List.mem_append.1 hx with hx | hx
        · exact hv x hx
        · simp at hx; subst hx; exact hr
    obtain ⟨acc1, h1, h2⟩ := h1
    obtain ⟨acc, h3⟩ := ih h2 (fun r hr => hc r (by simp [hr]))
    exact ⟨acc, foldlM_cons_ok.2 ⟨acc1, h1, h3⟩⟩

/-! ## what the invariant gives -/

theorem unique_ids_of {sh : Shared} {ws : List Task} (hnd : (sh.heap.map (·.id)).Nodup) (hn : sh.judgementTasks.Nodup)
    (hw : Working sh ws) : (ws.map (·.id)).Nodup := by
  have hf := derefs_iff.1 hw
  have hinj : ∀ (r r' : Nat) (t t' : Task), sh.heap[r]? = some t → sh.heap[r']? = some t' → t.id = t'.id → r = r' := by
    intro r r' t t' hr hr' he
    have h1 : (sh.heap.map (·.id))[r]? = some t.id := by rw [List.getElem?_map, hr]; rfl
    have h2 : (sh.heap.map (·.id))[r']? = some t'.id := by rw [List.getElem?_map, hr']; rfl
    have hl1 : r < (sh.heap.map (·.id)).length := by
      by_contra hge; rw [List.getElem?_eq_none (by omega)] at h1; cases h1
    refine (List.getElem?_inj hl1 hnd).1 ?_
    rw [h1, h2, he]
  clear hw
  generalize sh.judgementTasks = refs at hf hn
  induction hf with
  | nil => simp
  | @cons r t refs ws hrt hf ih =>
    rw [List.nodup_cons] at hn
    rw [List.map_cons, List.nodup_cons]
    refine ⟨?_, ih hn.2⟩
    intro hm
    obtain ⟨u, hu, he⟩ := List.mem_map.1 hm
    obtain ⟨r', hr', hu'⟩ := forall₂_right_mem hf hu
    rw [hinj r r' t u hrt hu' he.symm] at hn
    exact hn.1 hr'

theorem Inv.unique_ids {cfg : Cfg} {sh : Shared} {ws : List Task} (hi : Inv cfg sh) (hw : Working sh ws) :
    (ws.map (·.id)).Nodup := unique_ids_of hi.ids hi.nodup hw

theorem Inv.bounded {cfg : Cfg} {sh : Shared} {ws : List Task} (hi : Inv cfg sh) (hw : Working sh ws) :
    ∀ t ∈ ws, (calcComplexity t.sentence.term : Int) ≤ cfg.maxComplexity := by
  intro t ht
  obtain ⟨r, _, hr⟩ := forall₂_right_mem (derefs_iff.1 hw) ht
  exact hi.complexity t (List.mem_of_getElem? hr)

theorem Inv.no_duplicates {cfg : Cfg} {sh : Shared} {ws : List Task} (hi : Inv cfg sh) (hw : Working sh ws) :
    ws.Pairwise (fun a b => ¬ SameTask a b) := by
  have hf := derefs_iff.1 hw
  have hd := hi.diff
  clear hw
  generalize sh.judgementTasks = refs at hf hd
  induction hf with
  | nil => simp
  | @cons r t refs ws hrt hf ih =>
    rw [List.pairwise_cons] at hd ⊢
    refine ⟨?_, ih hd.2⟩
    intro u hu
    obtain ⟨r', hr', hu'⟩ := forall₂_right_mem hf hu
    exact hd.1 r' hr' t u hrt hu'

theorem Inv.takes_best {cfg : Cfg} {sh : Shared} (hi : Inv cfg sh) (hcr : CreditOk sh) (hd : ∀ d, 0 ≤ cfg.decay d)
    (hne : sh.judgementTasks ≠ []) :
    ∃ sh' r t, selectPrimary cfg sh = .ok (sh', some r) ∧ sh.heap[r]? = some t ∧
      (∀ r' ∈ sh.judgementTasks, ∀ t', sh.heap[r']? = some t' →
        taskCalcCredit cfg.decay t' sh.cycleCounter ≤ taskCalcCredit cfg.decay t sh.cycleCounter) ∧
      (r :: sh'.judgementTasks).Perm sh.judgementTasks := by
  obtain ⟨ts, hts⟩ := derefs_total hi.valid
  have hf := derefs_iff.1 hts
  have hlen := hf.length_eq
  have hcred : ∀ t ∈ ts, 0 ≤ taskCalcCredit cfg.decay t sh.cycleCounter := by
    intro t ht
    obtain ⟨r, _, hr⟩ := forall₂_right_mem hf ht
    exact taskCalcCredit_nonneg hd (hcr.1 t (List.mem_of_getElem? hr)) _
  have htsne : ts ≠ [] := by
    intro he; subst he
    simp only [List.length_nil] at hlen
    exact hne (List.eq_nil_of_length_eq_zero hlen)
  obtain ⟨t, ht, hmax⟩ := taskSelByCreditTop_spec (decay := cfg.decay) (cc := sh.cycleCounter) htsne
    (fun t ht => lt_of_lt_of_le (by norm_num) (hcred t ht))
  have hlt : taskSelByCreditTop cfg.decay ts sh.cycleCounter < sh.judgementTasks.length := by
    rw [hlen]
    by_contra hge; rw [List.getElem?_eq_none (by omega)] at ht; cases ht
  refine ⟨sh.withWorking (swapRemove sh.judgementTasks (taskSelByCreditTop cfg.decay ts sh.cycleCounter)),
    sh.judgementTasks[taskSelByCreditTop cfg.decay ts sh.cycleCounter], t, ?_, ?_, ?_, ?_⟩
  · unfold selectPrimary
    rw [if_pos (List.length_pos_iff.2 hne), R.bind_ok]
    refine ⟨ts, hts, ?_⟩
    simp only
    rw [R.bind_ok]
    exact ⟨_, indexAt_ok.2 (List.getElem?_eq_getElem hlt), rfl⟩
  · have := List.Forall₂.get hf hlt (by omega)
    simp only [List.get_eq_getElem] at this
    rw [this, ← ht, List.getElem?_eq_getElem]
  · intro r' hr' t' ht'
    obtain ⟨u, hu, hu'⟩ := forall₂_left_mem hf hr'
    rw [ht'] at hu'; cases hu'
    exact hmax t' hu
  · exact ((swapRemove_perm _ _ hlt).cons _).trans (List.getElem_cons_eraseIdx_perm hlt)

theorem lookup_sound_of {sh : Shared}
    (hs : ∀ p ∈ sh.judgementTasksByTerm, ∀ r ∈ p.2, ∃ t, sh.heap[r]? = some t ∧ IsSubterm p.1 t.sentence.term) :
    ∀ s refs, lookupRefs sh.judgementTasksByTerm s = some refs → ∀ r ∈ refs,
      ∃ t, sh.heap[r]? = some t ∧ IsSubterm s t.sentence.term := by
  intro s refs hl r hr
  unfold lookupRefs at hl
  rw [Option.map_eq_some_iff] at hl
  obtain ⟨p, hp, rfl⟩ := hl
  have h1 := List.find?_some hp
  have h2 := List.mem_of_find?_eq_some hp
  obtain ⟨t, ht, hs⟩ := hs p h2 r hr
  refine ⟨t, ht, ?_⟩
  have : p.1 = s := (checkEqTerm_iff _ _).1 h1
  rw [← this]; exact hs

theorem Inv.lookup {cfg : Cfg} {sh : Shared} (hi : Inv cfg sh) :
    (∀ s refs, lookupRefs sh.judgementTasksByTerm s = some refs → ∀ r ∈ refs,
      ∃ t, sh.heap[r]? = some t ∧ IsSubterm s t.sentence.term) ∧
    (∀ r ∈ sh.judgementTasks, ∀ t, sh.heap[r]? = some t → ∀ s, IsSubterm s t.sentence.term →
      ∃ refs, lookupRefs sh.judgementTasksByTerm s = some refs ∧ r ∈ refs) := by
  exact ⟨lookup_sound_of hi.sound, hi.complete⟩

theorem TaskOp.run_answers {cfg : Cfg} {sh sh' : Shared} {op : TaskOp} {log calls : List AnswerCall}
    (hrun : op.run cfg sh = .ok (sh', calls)) (hP0 : ∀ q ∈ sh.questionTasks, 0 ≤ q.bestAnswerExp)
    (hP : ∀ c ∈ log, c.answer.punct = .JUGEMENT ∧ (∃ θ, inst θ c.question = c.answer.term) ∧ ∃ e, Expectation c.answer e ∧ 0 < e) :
    (∀ q ∈ sh'.questionTasks, 0 ≤ q.bestAnswerExp) ∧ ∀ c ∈ log ++ calls, c.answer.punct = .JUGEMENT ∧
      (∃ θ, inst θ c.question = c.answer.term) ∧ ∃ e, Expectation c.answer e ∧ 0 < e := by
  obtain ⟨h1, h2, h3, h4⟩ := TaskOp.run_questions hrun
  constructor
  · intro q hq
    obtain ⟨i, hi⟩ := List.mem_iff_getElem?.1 hq
    rcases Nat.lt_or_ge i sh.questionTasks.length with hlt | hge
    · obtain ⟨cands, cs, k1, k2⟩ := h2 i _ q (List.getElem?_eq_getElem hlt) hi
      exact le_trans (hP0 _ (List.getElem_mem hlt)) (qaTryAll_spec k1).2.2.2.1
    · rw [(h3 i q hge hi).1]
  · intro c hc
    rcases List.mem_append.1 hc with hc | hc
    · exact hP c hc
    · obtain ⟨q, hq, e1, e2, e, e3, e4⟩ := h4 c hc
      obtain ⟨σ, hσ⟩ := Option.isSome_iff_exists.1 e2.2
      refine ⟨e2.1, ⟨fun v => substVar v σ, ?_⟩, e, e3, lt_of_le_of_lt (hP0 q hq) e4.1⟩
      rw [e1, ← unifySubst_eq_inst]; exact (unify2_sound _ _ [] σ hσ).2 σ List.prefix_rfl

end Nar
