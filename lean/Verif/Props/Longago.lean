import Verif.Lemmas.Longago3
import Verif.Props.Course
/-! # Property theorems: what was told long ago (C122) -/
namespace Nar.Props
open Nar Term

/-- C122, negative: in every 111th cycle all statements which had their turn are dropped from the table in which partners are looked up.
No message made afterwards is about such a statement, whatever is told and however long the reasoner goes on thinking. -/
theorem C122_turn_over_for_good (cfg : Cfg) (ops ops' : List SysOp) (s s1 s2 : Sys) (v : Rat) (now : Int) (h : runSys cfg ops = .ok s)
    (h1 : moreSys cfg s [.cycle v now] = .ok s1) (hn : s1.sh.cycleCounter % 111 = 0) (h2 : moreSys cfg s1 ops' = .ok s2)
    (i : Nat) (hi : i < s1.sh.heap.length) (hp : i ∉ s1.sh.judgementTasks) (m : Msg) (hm : m ∈ s2.queue) (hnew : m ∉ s1.queue) : ¬ m.about i := by
  have inv := runSys_inv h
  obtain ⟨s1', k1, k2⟩ := foldlM_cons_ok.1 h1
  cases k2
  have inv1 := (SysOp.run_kept k1).inv inv
  have lim : Limits (fun r => r ∈ s1.sh.judgementTasks ∨ s1.sh.heap.length ≤ r) s1.queue s1 := by
    refine ⟨fun r hr => .inl ?_, fun r hr => .inr hr, fun m hm => .inl hm⟩
    obtain ⟨⟨sh1, msg, calls⟩, e1, e2⟩ := R.bind_ok.1 k1
    cases Except.ok.inj e2
    exact (reasonCycle_sub e1).2 hn r hr
  intro hab
  rcases (limits_more h2 inv1 lim).messages m hm with k | k
  · exact hnew k
  · rcases k i hab with k | k
    · exact hp k
    · omega

/-- C122, negative, for the reasoner as a whole: if only statements of inheritance and similarity are told, then what is held some time after
a 111th cycle was held then, or it follows from statements which were still waiting for their turn then or were told since.  The statements
which had their turn do not count, and answers are no better. -/
theorem C122_old_facts_left_out (env : Env) (k : Nat) (as cs bs : List Lecture) (v : Rat) (r1 r2 : Reasoner)
    (hf : ∀ a ∈ as ++ .cycle v :: cs ++ bs, a.Fine) (hn : (cyclesOf as + 1) % 111 = 0) (hc : cyclesOf cs = 0)
    (hs : ∀ t ∈ toldTerms (as ++ .cycle v :: cs ++ bs), SimpleFact t)
    (h1 : runNar env (course k (as ++ .cycle v :: cs)) = .ok r1) (hq : r1.queue = []) (h2 : runNar env (course k (as ++ .cycle v :: cs ++ bs)) = .ok r2) :
    (∀ t, Held r2.sh t → Held r1.sh t ∨ FromThese (fun x => PendingTerm r1.sh x ∨ x ∈ toldTerms bs) t) ∧
    ∀ call ∈ r2.answers, call ∈ r1.answers ∨ (¬ IsTemporal call.question →
      Held r1.sh call.answer.term ∨ FromThese (fun x => PendingTerm r1.sh x ∨ x ∈ toldTerms bs) call.answer.term) := by
  have hf1 : ∀ a ∈ as ++ .cycle v :: cs, a.Fine := fun a ha => hf a (List.mem_append_left _ ha)
  have hs1 : ∀ t ∈ toldTerms (as ++ .cycle v :: cs), SimpleFact t := fun t ht => hs t (by rw [toldTerms_append]; exact List.mem_append_left _ ht)
  obtain ⟨ops0, a1, a2, _⟩ := course_sim hf1 h1
  have inv := runSys_inv a1
  have only : OnlyPending r1.sh := by
    have hf0 : ∀ a ∈ (as ++ [.cycle v]) ++ cs, a.Fine := fun a ha => hf1 a (by simpa using ha)
    have h0 : runNar env (course k ((as ++ [.cycle v]) ++ cs)) = .ok r1 := by
      rw [show (as ++ [.cycle v]) ++ cs = as ++ .cycle v :: cs by simp]; exact h1
    have : moreNar env createNar (course k (as ++ [.cycle v]) ++ cs.map Lecture.op) = .ok r1 := by
      have e : course k ((as ++ [.cycle v]) ++ cs) = course k (as ++ [.cycle v]) ++ cs.map Lecture.op := by simp [course]
      rw [← e]; exact h0
    obtain ⟨r0, g1, _⟩ := moreNar_append.1 this
    obtain ⟨ops, o⟩ := course_onward g1 hf0 h0
    exact onlyPending_more o.run (by rw [o.cycles, hc]) (course_trimmed (fun a ha => hf0 a (List.mem_append_left _ ha)) hn g1)
  obtain ⟨ops, o⟩ := course_onward h1 hf h2
  have simple := course_simple hf1 h1 hs1
  have old : Throughout (OldOrNew (Held r1.sh) (fun x => PendingTerm r1.sh x ∨ x ∈ toldTerms bs)) r1.sh := by
    refine ⟨fun t ht => ?_, fun c hcm b hb => ?_⟩
    · have := simple.1 t ht
      exact ⟨this.1, this.2.1, .inl (.inl ⟨t, ht, rfl⟩)⟩
    · have := simple.2 c hcm b hb
      exact ⟨⟨this.1.1, this.1.2.1, .inl (.inr ⟨c, hcm, b, hb, rfl⟩)⟩, this.2⟩
  have start : Apart (fun r => r ∈ r1.sh.judgementTasks ∨ r1.sh.heap.length ≤ r) (Held r1.sh) (fun x => PendingTerm r1.sh x ∨ x ∈ toldTerms bs) r1.sys := by
    refine ⟨⟨fun r hr => .inl (only r hr), fun r hr => .inr hr, ?_⟩, ?_, old⟩
    · intro m hm
      have e : r1.sys.queue = [] := hq
      rw [e] at hm; cases hm
    · rintro r t (hr | hr) ht
      · exact .told _ (.inl ⟨r, hr, t, ht, rfl⟩)
      · have := (List.getElem?_eq_some_iff.1 ht).1
        exact absurd hr (Nat.not_le.2 this)
  have simpleNew : ∀ t, (PendingTerm r1.sh t ∨ t ∈ toldTerms bs) → SimpleFact t := by
    rintro t (⟨r, hr, x, hx, rfl⟩ | ht)
    · exact (simple.1 x (List.mem_of_getElem? hx)).2.1
    · exact hs t (by rw [toldTerms_append]; exact List.mem_append_right _ ht)
  obtain ⟨g1, g2⟩ := apart_more simpleNew o.run inv start (fun x hx hj => .inr (o.told x hx hj))
  refine ⟨?_, g2⟩
  rintro t (⟨x, hx, rfl⟩ | ⟨c, hcm, b, hb, rfl⟩)
  · exact (g1.all.1 x hx).2.2
  · exact (g1.all.2 c hcm b hb).1.2.2

/-- C122, the part which holds: whenever a statement has its turn, it is combined with the beliefs which are kept under it, however old they
are.  So a rule `S ==> P` is still applied when `S` is told long after it. -/
theorem C122_beliefs_stay_in_use_partial (cfg : Cfg) (ops : List SysOp) (s s' : Sys) (h : runSys cfg ops = .ok s) (hs : ∀ op ∈ ops, op.Sane)
    (m : Msg) (rest : List Msg) (hq : s.queue = m :: rest) (h1 : moreSys cfg s [.work] = .ok s') (p : Task) (hp : s.sh.heap[m.primary]? = some p)
    (b : Sentence) (hb : BeliefUnder s.sh.mem p.sentence.term b) (hd : ∀ e ∈ p.sentence.stamp.ids, e ∉ b.stamp.ids) (c : Term)
    (hr : ∃ ta tb tc, Rule2 b.term ta p.sentence.term tb c tc ∨ Rule2 p.sentence.term ta b.term tb c tc)
    (hc : (calcComplexity c : Int) ≤ cfg.maxComplexity) : ∃ x ∈ s'.sh.heap, x.sentence.term = c := by
  have good := (runSys_limited hs h).inv.good
  obtain ⟨s1, k1, k2⟩ := foldlM_cons_ok.1 h1
  cases k2
  simp only [SysOp.run] at k1
  rw [hq] at k1
  simp only at k1
  obtain ⟨⟨sh1, calls⟩, k2, k3⟩ := R.bind_ok.1 k1
  rw [← Except.ok.inj k3]
  have gb : Good b := by
    obtain ⟨d, hd, hb⟩ := hb
    rcases hb with hb | hb
    · exact (good.2.1 d (Mem.get_some hd).1).1 b hb
    · exact (good.2.1 d (Mem.get_some hd).1).2 b hb
  obtain ⟨ta, tb, tc, hr⟩ := hr
  obtain ⟨x, w, e1, e2, e3, _⟩ := rule2_follows (good.1 p (List.mem_of_getElem? hp)) gb hd
    (hr.elim (fun k => .inr ⟨_, _, _, k⟩) (fun k => .inl ⟨_, _, _, k⟩))
  obtain ⟨t, ht, g1, _⟩ := (work_deals k2 ⟨p, hp, .inr (.inr ⟨b, hb, e1⟩)⟩).1 e3 (by rw [e2]; exact hc)
  exact ⟨t, ht, by rw [g1, e2]⟩

/-! ## a case -/

/-- `<a --> b>` is told, and is thought about for 111 cycles -/
def longAgo : List Lecture := .tell (isA "a" "b", ⟨1, 9/10⟩) :: rounds 110

theorem longAgo_run : (runNar env0 (course 1 (longAgo ++ .cycle 0 :: [.work]))).map (fun r => ((r.sh.heap.map (fun x => x.sentence.term), r.sh.judgementTasks, r.queue.length),
    r.sh.mem.map (fun c => (c.beliefsByExp ++ c.beliefsByUsage).map (fun b => b.term)), r.answers.length)) =
    .ok (([isA "a" "b"], [], 0), [[isA "a" "b", isA "a" "b"], [isA "a" "b", isA "a" "b"], [isA "a" "b", isA "a" "b"]], 0) := by
  decide +kernel
theorem longAgo_fine : ∀ a ∈ longAgo ++ .cycle 0 :: [.work], a.Fine := by
  intro a ha
  simp only [longAgo, List.mem_append, List.mem_cons, List.not_mem_nil, or_false] at ha
  rcases ha with (rfl | ha) | rfl | rfl
  · exact told_fine _ _ _ (by unfold Tv.Sane; decide +kernel) ⟨_, rfl⟩
  · exact rounds_fine _ a ha
  · trivial
  · trivial

theorem isA_simple (s p : String) : SimpleFact (isA s p) :=
  ⟨_, _, _, rfl, .inl rfl, noStatementIn_of (by simp) (by simp [parts]), noStatementIn_of (by simp) (by simp [parts])⟩

/-- from one such statement nothing else follows -/
theorem from_one {s p : String} {T : Term → Prop} (hT : ∀ t, T t → t = isA s p) (hne : s ≠ p) {t : Term} (h : FromThese T t) : t = isA s p := by
  induction h with
  | told t h => exact hT t h
  | alone a c _ h ih => obtain ⟨_, _, h⟩ := h; rw [ih] at h; cases h
  | both a b c _ _ h ih1 ih2 =>
    obtain ⟨_, _, _, h⟩ := h
    rw [ih1, ih2] at h
    simp only [isA] at h
    cases h <;> simp_all

/-- C122 is violated: `<a --> b>` is told and the reasoner does 111 cycles.  If `<b --> c>` is told after that, once or any number of times,
then `<a --> c>` can be deduced, but it is never concluded and never given as an answer, whatever is asked and however long the reasoner
goes on thinking. -/
theorem C122_old_fact_never_combined (bs : List Lecture) (hf : ∀ a ∈ bs, a.Fine) (hb : ∀ t ∈ toldTerms bs, t = isA "b" "c")
    (hone : isA "b" "c" ∈ toldTerms bs) :
    (∃ E, Deducible cfg1 (Lectured (longAgo ++ .cycle 0 :: [.work] ++ bs)) (isA "a" "c") E) ∧
    ∃ r, runNar env0 (course 1 (longAgo ++ .cycle 0 :: [.work] ++ bs)) = .ok r ∧ ¬ IsKnown r (isA "a" "c") ∧
      ∀ call ∈ r.answers, ¬ IsTemporal call.question → call.answer.term ≠ isA "a" "c" := by
  have hfine : ∀ a ∈ longAgo ++ .cycle 0 :: [.work] ++ bs, a.Fine := fun a ha => (List.mem_append.1 ha).elim (longAgo_fine a) (hf a)
  have htold : toldTerms (longAgo ++ .cycle 0 :: [.work]) = [isA "a" "b"] := by decide +kernel
  constructor
  · have hsub : (toldTerms [.tell (isA "a" "b", ⟨1, 9/10⟩), .tell (isA "b" "c", ⟨1, 9/10⟩)]).Subperm
        (toldTerms (longAgo ++ .cycle 0 :: [.work] ++ bs)) := by
      rw [toldTerms_append, htold]
      exact List.Subperm.append (l₁ := [isA "a" "b"]) (r₁ := [isA "b" "c"]) (List.Subperm.refl _) (List.singleton_subperm_iff.2 hone)
    exact deducible_told hsub (Deducible.both (isA "a" "b") (isA "b" "c") (isA "a" "c") [0] [1]
      (.told (toldAs 0 (isA "a" "b", ⟨1, 9/10⟩)) ⟨(0, isA "a" "b", ⟨1, 9/10⟩), by simp [numberedIn], rfl⟩ rfl (by decide))
      (.told (toldAs 1 (isA "b" "c", ⟨1, 9/10⟩)) ⟨(1, isA "b" "c", ⟨1, 9/10⟩), by simp [numberedIn], rfl⟩ rfl (by decide))
      (by decide) ⟨.Name "b", .inside (by simp [isA, parts]) (.refl _), .inside (by simp [isA, parts]) (.refl _)⟩
      ⟨⟨1, 1⟩, ⟨1, 1⟩, _, .deduction _ _ _ _ _ _ (.inl rfl) (by decide)⟩ (by decide))
  · obtain ⟨r1, hr1, hv⟩ := R.map_ok.1 longAgo_run
    obtain ⟨r2, hr2⟩ := course_total env0 1 hfine
    simp only [Prod.mk.injEq] at hv
    obtain ⟨⟨v1, v2, v3⟩, v4, v5⟩ := hv
    obtain ⟨key1, key2⟩ := C122_old_facts_left_out env0 1 longAgo [.work] bs 0 r1 r2 hfine (by decide +kernel) rfl (by
      intro t ht
      rw [toldTerms_append, htold] at ht
      rcases List.mem_append.1 ht with ht | ht
      · rw [List.mem_singleton.1 ht]; exact isA_simple _ _
      · rw [hb t ht]; exact isA_simple _ _) hr1 (List.length_eq_zero_iff.1 v3) hr2
    have held : ∀ t, Held r1.sh t → t = isA "a" "b" := by
      rintro t (⟨x, hx, rfl⟩ | ⟨c, hc, b, hb, rfl⟩)
      · have := List.mem_map_of_mem (f := fun x : Task => x.sentence.term) hx
        rw [v1] at this
        exact List.mem_singleton.1 this
      · have k1 := List.mem_map_of_mem (f := fun c : Concept => (c.beliefsByExp ++ c.beliefsByUsage).map (fun b => b.term)) hc
        have k2 : b.term ∈ (c.beliefsByExp ++ c.beliefsByUsage).map (fun b => b.term) := List.mem_map_of_mem (List.mem_append.2 hb)
        rw [v4] at k1
        simp only [List.mem_cons, List.not_mem_nil, or_false, or_self] at k1
        rw [k1] at k2
        simpa using k2
    have new : ∀ t, FromThese (fun x => PendingTerm r1.sh x ∨ x ∈ toldTerms bs) t → t = isA "b" "c" := by
      intro t ht
      refine from_one ?_ (by decide) ht
      rintro x (⟨r, hr, _⟩ | hx)
      · rw [v2] at hr; cases hr
      · exact hb x hx
    refine ⟨r2, hr2, ?_, ?_⟩
    · rintro ⟨x, hx, e⟩
      rcases key1 (isA "a" "c") (.inl ⟨x, hx, e⟩) with k | k
      · exact absurd (held _ k) (by decide)
      · exact absurd (new _ k) (by decide)
    · intro call hc ht e
      rcases key2 call hc with k | k
      · rw [List.length_eq_zero_iff.1 v5] at k; cases k
      · rw [e] at k
        rcases k ht with k | k
        · exact absurd (held _ k) (by decide)
        · exact absurd (new _ k) (by decide)

/-- such a continuation: the second fact is told and thought about, and the question is asked -/
example : ∃ r, runNar env0 (course 1 (longAgo ++ .cycle 0 :: [.work] ++ (.tell (isA "b" "c", ⟨1, 9/10⟩) :: rounds 3 ++ .ask (isA "a" "c") :: rounds 3))) = .ok r ∧
    ¬ IsKnown r (isA "a" "c") ∧ r.answers = [] := by
  obtain ⟨_, r, h1, h2, _⟩ := C122_old_fact_never_combined (.tell (isA "b" "c", ⟨1, 9/10⟩) :: rounds 3 ++ .ask (isA "a" "c") :: rounds 3) (by
      intro a ha
      simp only [List.mem_append, List.mem_cons, List.not_mem_nil, or_false] at ha
      rcases ha with (rfl | ha) | rfl | ha
      · exact told_fine _ _ _ (by unfold Tv.Sane; decide +kernel) ⟨_, rfl⟩
      · exact rounds_fine _ a ha
      · exact ⟨_, rfl⟩
      · exact rounds_fine _ a ha) (by decide) (by decide)
  have h : (runNar env0 (course 1 (longAgo ++ .cycle 0 :: [.work] ++ (.tell (isA "b" "c", ⟨1, 9/10⟩) :: rounds 3 ++ .ask (isA "a" "c") :: rounds 3)))).map
    (fun r => r.answers.length) = .ok 0 := by decide +kernel
  rw [h1] at h
  exact ⟨r, h1, h2, List.length_eq_zero_iff.1 (Except.ok.inj h)⟩

/-- with one cycle less in between it is concluded and given as an answer -/
example : (runNar env0 (course 1 (longAgo ++ .tell (isA "b" "c", ⟨1, 9/10⟩) :: .cycle 0 :: .work :: .ask (isA "a" "c") :: rounds 3))).map
    (fun r => (r.sh.heap.any (fun x => decide (x.sentence.term = isA "a" "c")), r.answers.map (fun call => decide (call.answer.term = isA "a" "c")))) =
    .ok (true, [true]) := by
  decide +kernel

/-- the task of `<a --> b>` is one which had its turn before the 111th cycle, and no later message is about it -/
example : ∃ r r1 m, runNar env0 (course 1 longAgo) = .ok r ∧ runNar env0 (course 1 (longAgo ++ [.cycle 0])) = .ok r1 ∧ r1.sh.cycleCounter % 111 = 0 ∧
    0 < r1.sh.heap.length ∧ 0 ∉ r1.sh.judgementTasks ∧ r1.queue = [] ∧
    (runNar env0 (course 1 (longAgo ++ [.cycle 0, .tell (isA "b" "c", ⟨1, 9/10⟩), .cycle 0]))).map (fun r => r.queue) = .ok [m] ∧ ¬ m.about 0 := by
  have h0 : ∃ r, runNar env0 (course 1 longAgo) = .ok r := course_total env0 1 (fun a ha => longAgo_fine a (List.mem_append_left _ ha))
  have h1 : (runNar env0 (course 1 (longAgo ++ [.cycle 0]))).map (fun r => (r.sh.cycleCounter, r.sh.heap.length, r.sh.judgementTasks, r.queue.length)) =
    .ok (111, 1, [], 0) := by decide +kernel
  have h2 : (runNar env0 (course 1 (longAgo ++ [.cycle 0, .tell (isA "b" "c", ⟨1, 9/10⟩), .cycle 0]))).map (fun r => r.queue.map (fun m => (m.primary, m.secondary))) =
    .ok [(1, [1])] := by decide +kernel
  obtain ⟨r, hr⟩ := h0
  obtain ⟨r1, hr1, e⟩ := R.map_ok.1 h1
  simp only [Prod.mk.injEq] at e
  obtain ⟨r2, hr2, e2⟩ := R.map_ok.1 h2
  cases hq : r2.queue with
  | nil => rw [hq] at e2; cases e2
  | cons m l =>
    rw [hq] at e2
    simp only [List.map_cons, List.cons.injEq, Prod.mk.injEq, List.map_eq_nil_iff] at e2
    refine ⟨r, r1, m, hr, hr1, by rw [e.1]; rfl, by rw [e.2.1]; decide, by rw [e.2.2.1]; simp, List.length_eq_zero_iff.1 e.2.2.2, ?_, ?_⟩
    · rw [hr2, ← e2.2, ← hq]; rfl
    · rintro (k | k)
      · rw [e2.1.1] at k; cases k
      · rw [e2.1.2] at k; exact absurd k (by decide)

/-- a rule which is told, and is thought about for 111 cycles, is still applied -/
example : (runNar env0 (course 1 (.tell (.Stmt .IMPL (isA "a" "b") (isA "c" "d"), ⟨1, 9/10⟩) :: rounds 111 ++ [.tell (isA "a" "b", ⟨1, 9/10⟩), .cycle 0, .work]))).map
    (fun r => (r.sh.cycleCounter, r.sh.heap.any (fun x => decide (x.sentence.term = isA "c" "d")))) = .ok (112, true) := by
  decide +kernel

/-- a rule and, 111 cycles later, its condition -/
def ruleThenFact : List Lecture :=
  .tell (.Stmt .IMPL (isA "a" "b") (isA "c" "d"), ⟨1, 9/10⟩) :: rounds 111 ++ [.tell (isA "a" "b", ⟨1, 9/10⟩), .cycle 0]

set_option synthInstance.maxSize 2000 in
/-- the rule is kept under the condition when the condition has its turn, and so the theorem says that it is applied -/
example : ∃ r, runNar env0 (course 1 ruleThenFact) = .ok r ∧ ∀ s', moreSys (r.cfg env0) r.sys [.work] = .ok s' →
    ∃ x ∈ s'.sh.heap, x.sentence.term = isA "c" "d" := by
  have h : (runNar env0 (course 1 ruleThenFact)).map (fun r => (r.queue.map (fun m => m.primary),
      r.sh.heap.map (fun x => (x.sentence.term, x.sentence.stamp.ids)),
      (r.sh.mem.get (isA "a" "b")).map (fun c => c.beliefsByExp.map (fun b => (b.term, b.stamp.ids))))) =
      .ok ([1], [(.Stmt .IMPL (isA "a" "b") (isA "c" "d"), [0]), (isA "a" "b", [1])],
        some [(.Stmt .IMPL (isA "a" "b") (isA "c" "d"), [0]), (isA "a" "b", [1])]) := by decide +kernel
  obtain ⟨r, hr, h⟩ := R.map_ok.1 h
  simp only [Prod.mk.injEq, Option.map_eq_some_iff] at h
  obtain ⟨h1, h2, c, h3, h4⟩ := h
  have hf : ∀ a ∈ ruleThenFact, a.Fine := by
    intro a ha
    simp only [ruleThenFact, List.mem_append, List.mem_cons, List.not_mem_nil, or_false] at ha
    rcases ha with (rfl | ha) | rfl | rfl
    · refine ⟨⟨_, rfl⟩, fun _ _ => ⟨(by rintro ⟨x, y, e⟩; cases e), ?_, (by unfold Tv.Sane; decide +kernel)⟩, fun h => by cases h⟩
      exact wf_stmt.2 ⟨(told_fine "a" "b" ⟨1, 9/10⟩ (by unfold Tv.Sane; decide +kernel) ⟨_, rfl⟩).2.1 rfl rfl |>.2.1,
        (told_fine "c" "d" ⟨1, 9/10⟩ (by unfold Tv.Sane; decide +kernel) ⟨_, rfl⟩).2.1 rfl rfl |>.2.1⟩
    · exact rounds_fine _ a ha
    · exact told_fine _ _ _ (by unfold Tv.Sane; decide +kernel) ⟨_, rfl⟩
    · trivial
  obtain ⟨ops, g1, g2, _⟩ := course_sim hf hr
  refine ⟨r, hr, fun s' hs' => ?_⟩
  cases hq : r.queue with
  | nil => rw [hq] at h1; cases h1
  | cons m rest =>
    rw [hq] at h1
    simp only [List.map_cons, List.cons.injEq] at h1
    have hheap := congrArg (fun l => l[1]?) h2
    simp only [List.getElem?_map, List.getElem?_cons_succ, List.getElem?_cons_zero, Option.map_eq_some_iff, Prod.mk.injEq] at hheap
    obtain ⟨p, p1, p2, p3⟩ := hheap
    have hbel := congrArg (fun l => l[0]?) h4
    simp only [List.getElem?_map, List.getElem?_cons_zero, Option.map_eq_some_iff, Prod.mk.injEq] at hbel
    obtain ⟨b, b1, b2, b3⟩ := hbel
    refine C122_beliefs_stay_in_use_partial (r.cfg env0) ops r.sys s' g1 g2.sane m rest hq hs' p (by rw [h1.1]; exact p1) b
      ⟨c, by rw [p2]; exact h3, .inl (List.mem_of_getElem? b1)⟩ (by rw [p3, b3]; decide) _
      ⟨⟨1, 1⟩, ⟨1, 1⟩, _, .inl (by rw [b2, p2]; exact .detach (isA "a" "b") (isA "c" "d") _ [] _ _ rfl)⟩ (by rw [g2.complexity]; decide)

end Nar.Props
