import Verif.Lemmas.Asked
import Verif.Props.Thinks
import Verif.Props.Decl
import Verif.Props.Unify
import Mathlib.Data.Rat.Floor
import Mathlib.Algebra.Order.Floor.Semiring
/-! # C104: a question about something which is known is answered -/
namespace Nar.Props
open Nar Term

/-- what a cycle does for the question which it takes -/
theorem taken_question {env : Env} {r r' : Reasoner} {v : Rat} {i : Nat} {q : Task2}
    (hc : cycle env r v = .ok r') (hsel : ∀ j, task2SelByCreditRandom v r.sh.questionTasks = .ok j → j = i)
    (hq : r.sh.questionTasks[i]? = some q) {b : Sentence} (hb : Candidate r.look q.sentence.term b) (hm : CanAnswer q b)
    {e : Rat} (he : Expectation b e) :
    ∃ q', r'.sh.questionTasks[i]? = some q' ∧ q'.sentence = q.sentence ∧ e ≤ q'.bestAnswerExp ∧
      (q.bestAnswerExp < e → Answered r r' q.sentence.term e) := by
  obtain ⟨_, calls, ha, _, hcase⟩ := cycle_asks hc
  rcases hcase with ⟨h0, _⟩ | ⟨j, q0, q', cands, h1, h2, h3, h4, h5⟩
  · rw [h0] at hq; cases hq
  obtain rfl := hsel j h1
  rw [hq] at h2; cases h2
  have hlt := (List.getElem?_eq_some_iff.1 hq).1
  obtain ⟨f1, _, _, _, _, f6, answers, _, _, f8, _, _, f11⟩ := qaTryAll_spec h4
  have hbest := f6 b ((h3 b).2 hb) hm e he
  refine ⟨q', by rw [h5, List.getElem?_set_self hlt], f1, hbest, ?_⟩
  intro hb0 hd hhd
  rcases best_reported h4 with hz | ⟨a, ha0, hae⟩
  · rw [hz] at hbest; exact absurd (lt_of_lt_of_le hb0 hbest) (lt_irrefl _)
  have hin := ha0 (.global hd) hhd
  unfold answersTo at hin
  obtain ⟨call, hcall, rfl⟩ := List.mem_map.1 hin
  obtain ⟨hmem, hh⟩ := List.mem_filter.1 hcall
  obtain ⟨g1, g2⟩ := f11 call hmem
  refine ⟨call, by rw [ha]; simpa using hmem, by simpa using hh, g1, ((f8 _ g2).1).1, ?_, q'.bestAnswerExp, hbest, hae⟩
  obtain ⟨σ, hσ⟩ := Option.isSome_iff_exists.1 ((f8 _ g2).1).2
  exact ⟨_, (unifySubst_eq_inst σ _).symm.trans (C02_match_sound _ _ σ hσ)⟩

/-- In every state which can come up: when the random draw of a cycle falls on a question, the question knows an answer at least
as good as every matching belief which is stored under one of its parts, and if that is news, all handlers are told. -/
theorem C104_known_is_answered_partial (env : Env) (ops : List NarOp) (r r' : Reasoner) (v : Rat) (i : Nat) (q : Task2)
    (h : runNar env ops = .ok r) (hc : cycle env r v = .ok r') (hq : r.sh.questionTasks[i]? = some q)
    (hv : FallsOn v r.sh.questionTasks.length i) (b : Sentence) (hb : Candidate r.look q.sentence.term b) (hm : CanAnswer q b)
    (e : Rat) (he : Expectation b e) :
    ∃ q', r'.sh.questionTasks[i]? = some q' ∧ q'.sentence = q.sentence ∧ e ≤ q'.bestAnswerExp ∧
      (q.bestAnswerExp < e → Answered r r' q.sentence.term e) := by
  refine taken_question hc ?_ hq hb hm he
  intro j hj
  unfold task2SelByCreditRandom at hj
  rw [(runNar_shares h).weights] at hj
  exact selByWeight_ones hv hj

/-- two questions, and the draw falls on the second: only it is answered -/
example : (runNar env0 (.handlers 1 :: (tellAll twoPremises ++ askAll [.Stmt .INH (.QVar "x") (.Name "c"), .Stmt .INH (.Name "a") (.QVar "x")]
      ++ [.cycle (3/4)]))).map (fun r => r.answers.map (fun c => (c.question, c.answer.term))) =
    .ok [(.Stmt .INH (.Name "a") (.QVar "x"), .Stmt .INH (.Name "a") (.Name "b"))] := by decide +kernel

example : FallsOn (3/4) 2 1 := by unfold FallsOn; norm_num

/-- Every draw between 0 and 1 falls on exactly one of the questions, and all get shares of the same size. -/
theorem C104_fair_shares (n : Nat) (hn : 0 < n) :
    (∀ v : Rat, 0 < v → v ≤ 1 → ∃ i, FallsOn v n i ∧ ∀ j, FallsOn v n j → j = i) ∧
    ∀ i, i < n → ∀ v, FallsOn v n i ↔ (i : Rat) / n < v ∧ v ≤ (i : Rat) / n + 1 / n := by
  have hn' : (0 : Rat) < n := by exact_mod_cast hn
  constructor
  · intro v h0 h1
    have huniq : ∀ i j, FallsOn v n i → FallsOn v n j → j = i := by
      rintro i j ⟨_, a2, a3⟩ ⟨_, b2, b3⟩
      rw [div_lt_iff₀ hn'] at a2 b2
      rw [le_div_iff₀ hn'] at a3 b3
      have c1 : (i : Rat) < (j + 1 : Nat) := by push_cast; linarith
      have c2 : (j : Rat) < (i + 1 : Nat) := by push_cast; linarith
      have c1 : i < j + 1 := by exact_mod_cast c1
      have c2 : j < i + 1 := by exact_mod_cast c2
      omega
    have hpos : 0 < ⌈v * n⌉₊ := Nat.ceil_pos.2 (mul_pos h0 hn')
    have hle : ⌈v * n⌉₊ ≤ n := Nat.ceil_le.2 (by nlinarith)
    have h2 : v * n ≤ (⌈v * n⌉₊ : Rat) := Nat.le_ceil _
    have h3 : (⌈v * n⌉₊ : Rat) < v * n + 1 := Nat.ceil_lt_add_one (mul_pos h0 hn').le
    have hc : ((⌈v * n⌉₊ - 1 : Nat) : Rat) = (⌈v * n⌉₊ : Rat) - 1 := by
      rw [Nat.cast_sub hpos]; simp
    have hf : FallsOn v n (⌈v * n⌉₊ - 1) := by
      refine ⟨by omega, ?_, ?_⟩
      · rw [div_lt_iff₀ hn', hc]; linarith
      · rw [le_div_iff₀ hn', hc]; linarith
    exact ⟨_, hf, fun j hj => huniq _ _ hf hj⟩
  · intro i hi v
    unfold FallsOn
    rw [add_div]
    exact ⟨fun h => h.2, fun h => ⟨hi, h⟩⟩

/-- With a single question it does not matter what is drawn. -/
theorem C104_only_question (env : Env) (r r' : Reasoner) (v : Rat) (q : Task2)
    (hc : cycle env r v = .ok r') (hq : r.sh.questionTasks = [q])
    (b : Sentence) (hb : Candidate r.look q.sentence.term b) (hm : CanAnswer q b) (e : Rat) (he : Expectation b e) :
    ∃ q', r'.sh.questionTasks[0]? = some q' ∧ q'.sentence = q.sentence ∧ e ≤ q'.bestAnswerExp ∧
      (q.bestAnswerExp < e → Answered r r' q.sentence.term e) := by
  refine taken_question hc ?_ (by rw [hq]; rfl) hb hm he
  intro j hj
  obtain ⟨_, _, _, _, hcase⟩ := cycle_asks hc
  rcases hcase with ⟨h0, _⟩ | ⟨k, q0, _, _, h1, h2, _⟩
  · rw [h0] at hq; cases hq
  · rw [hj] at h1; cases h1
    have := (List.getElem?_eq_some_iff.1 h2).1
    rw [hq] at this
    simpa using this

/-- A new reasoner is told up to 20 different statements and asked a question which is not about time.  This cannot fail, and
after a single cycle, whatever is drawn, all handlers got an answer at least as good as every told statement which is an
instance of the question and has a part in common with it. -/
theorem C104_told_is_answered_partial (env : Env) (k : Nat) (sts : List (Term × Tv)) (q : Term) (v : Rat) (hs : Handful sts)
    (hl : sts.length ≤ 20) (hp : Printable q) (hc : calcComplexity q ≤ 64) (ht : ¬ IsTemporal q) :
    ∃ r, runNar env (afterTelling k sts ++ [askFor q, .cycle v]) = .ok r ∧
      ∀ st ∈ sts, Ground st.1 → (∃ θ, inst θ q = st.1) → (∃ x, IsSubterm x q ∧ IsSubterm x st.1) → ∀ hd, hd < k →
        ∃ call ∈ r.answers, call.handler = .global hd ∧ call.question = q ∧ (∃ θ, inst θ q = call.answer.term) ∧
          ∃ e, Expectation call.answer e ∧ expects st.2 ≤ e := by
  obtain ⟨r, h1, h2, h3, h4, hq0, h5⟩ := told_filed (env := env) (k := k) hs hl
  obtain ⟨r1, g1⟩ := NarOp.run_total h3 h4 (op := askFor q) ⟨hp, (by intro h; cases h), (by intro h; cases h)⟩
  obtain ⟨e1, e2, e3, e4, t, e5, e6, e7, e8⟩ := asked h1 hc g1
  have hr1 : runNar env (afterTelling k sts ++ [askFor q]) = .ok r1 := moreNar_append.2 ⟨r, h1, foldlM_cons_ok.2 ⟨r1, g1, rfl⟩⟩
  have htell : ∀ op ∈ afterTelling k sts ++ [askFor q], SafeUse env op := by
    intro op hop
    rcases List.mem_append.1 hop with hop | hop
    · rcases List.mem_cons.1 hop with rfl | hop
      · exact trivial
      · obtain ⟨st, hst, rfl⟩ := List.mem_map.1 hop
        exact hs.safe st hst
    · rw [List.mem_singleton] at hop; subst hop
      exact ⟨hp, (by intro h; cases h), (by intro h; cases h)⟩
  obtain ⟨s1, s2⟩ := runNar_safe hr1 (SafeUse.telling htell)
  obtain ⟨r2, g2⟩ := cycle_total s1 (.inl (s2 (fun hm => htell _ hm))) v
  refine ⟨r2, ?_, ?_⟩
  · have e : afterTelling k sts ++ [askFor q, .cycle v] = (afterTelling k sts ++ [askFor q]) ++ [.cycle v] := by simp
    rw [e]
    exact moreNar_append.2 ⟨r1, hr1, foldlM_cons_ok.2 ⟨r2, g2, rfl⟩⟩
  · intro st hst hg hinst hshare hd hhd
    rw [hq0] at e5
    obtain ⟨i, hi⟩ := List.getElem?_of_mem hst
    have hil := (List.getElem?_eq_some_iff.1 hi).1
    have hkn : toldAs i st ∈ sts.mapIdx (fun i st => toldAs i st) := by
      rw [List.mem_mapIdx]
      exact ⟨i, hil, by rw [(List.getElem?_eq_some_iff.1 hi).2]⟩
    obtain ⟨x, hx1, hx2⟩ := hshare
    obtain ⟨c, hc1, hc2⟩ := h5.filed _ hkn x hx2
    have hexp : Expectation (toldAs i st) (expects st.2) := ⟨st.2, rfl, rfl⟩
    have hlook : r1.look.mem = r1.sh.mem := by unfold Reasoner.look; split <;> rfl
    have hcand : Candidate r1.look t.sentence.term (toldAs i st) :=
      .inr ⟨by rw [e6]; exact ht, x, by rw [e6]; exact hx1, c, by rw [hlook, e1]; exact hc1, .inl hc2⟩
    have hcan : CanAnswer t (toldAs i st) := ⟨rfl, by
      rw [e6]
      show (unify q st.1).isSome = true
      exact (C03_match_iff_instance q st.1 hg).2 hinst⟩
    obtain ⟨_, _, _, _, w4⟩ := C104_only_question env r1 r2 v t g2 (by rw [e5]; rfl) _ hcand hcan _ hexp
    have hsane : Tv.Sane st.2 := ((hs.safe st hst).2.1 rfl rfl).2.2
    have hpos : (0 : Rat) < expects st.2 := by
      unfold expects
      obtain ⟨a1, a2, a3, a4⟩ := hsane
      nlinarith
    obtain ⟨call, k1, k2, k3, _, k5, e', k6, k7⟩ := w4 (by rw [e7]; exact hpos) hd (by rw [e3, h2.handlers]; exact hhd)
    exact ⟨call, List.mem_of_mem_drop k1, k2, k3.trans e6, by rw [← e6]; exact k5, e', k7, k6⟩

/-- what a cat is, and what tom is -/
def catFacts : List (Term × Tv) :=
  [(.Stmt .INH (.Name "cat") (.Name "animal"), ⟨1, 9/10⟩), (.Stmt .INH (.Name "tom") (.Name "cat"), ⟨1, 9/10⟩),
    (.Stmt .INH (.Name "rex") (.Name "dog"), ⟨0, 9/10⟩)]

theorem catFacts_handful : Handful catFacts where
  differ := by decide +kernel
  safe := by
    intro st hst
    simp only [catFacts, List.mem_cons, List.not_mem_nil, or_false] at hst
    rcases hst with rfl | rfl | rfl <;>
    · refine ⟨⟨_, rfl⟩, fun _ _ => ⟨(by rintro ⟨a, b, e⟩; cases e), ?_, ?_⟩, fun h => by cases h⟩
      · exact wf_stmt.2 ⟨wf_iff.2 ⟨trivial, by simp [parts]⟩, wf_iff.2 ⟨trivial, by simp [parts]⟩⟩
      · unfold Tv.Sane; decide +kernel
  small := by decide +kernel

theorem isA_ground (a b : String) : Ground (.Stmt .INH (.Name a) (.Name b)) := by
  intro v hv hs
  have hs := (mem_retSubterms _ _).2 hs
  simp only [retSubterms, List.mem_append, List.mem_cons, List.not_mem_nil, or_false] at hs
  casesm* _ ∨ _ <;> (subst v; exact hv)

/-- the hypotheses are met by telling three things and asking who is a cat -/
example (env : Env) (v : Rat) : ∃ r, runNar env (afterTelling 2 catFacts ++ [askFor (.Stmt .INH (.QVar "who") (.Name "cat")), .cycle v]) = .ok r ∧
    ∀ hd, hd < 2 → ∃ call ∈ r.answers, call.handler = .global hd ∧ ∃ e, Expectation call.answer e ∧ 95/100 ≤ e := by
  obtain ⟨r, h1, h2⟩ := C104_told_is_answered_partial env 2 catFacts (.Stmt .INH (.QVar "who") (.Name "cat")) v catFacts_handful
    (by decide) ⟨_, rfl⟩ (by decide) (by rintro ⟨a, b, h⟩; cases h)
  refine ⟨r, h1, fun hd hhd => ?_⟩
  obtain ⟨call, a1, a2, _, _, e, a5, a6⟩ := h2 _ (List.mem_cons_of_mem _ List.mem_cons_self) (isA_ground _ _)
    ⟨fun _ => .Name "tom", rfl⟩ ⟨.Name "cat", .inside (by simp [parts]) (.refl _), .inside (by simp [parts]) (.refl _)⟩ hd hhd
  exact ⟨call, a1, a2, e, a5, le_trans (by unfold expects; norm_num) a6⟩

/-- A question which names nothing is never answered from memory: a new reasoner is told statements without query variables and
asked such a question; however often it thinks and whatever is drawn, no handler hears of any of the statements. -/
theorem C104_nameless_question (env : Env) (k : Nat) (sts : List (Term × Tv)) (q : Term) (vs : List Rat) (r : Reasoner)
    (hs : Handful sts) (hl : sts.length ≤ 20) (hc : calcComplexity q ≤ 64) (ht : ¬ IsTemporal q) (hn : NamesNothing q)
    (hno : ∀ st ∈ sts, ¬ AsksIn st.1)
    (h : runNar env (afterTelling k sts ++ askFor q :: vs.map NarOp.cycle) = .ok r) : r.answers = [] := by
  obtain ⟨r0, h1, h2, h3, h4, hq0, h5⟩ := told_filed (env := env) (k := k) hs hl
  obtain ⟨r0', g1, g2⟩ := moreNar_append.1 h
  rw [show moreNar env createNar (afterTelling k sts) = .ok r0 from h1] at g1
  cases g1
  obtain ⟨r1, g3, g4⟩ := foldlM_cons_ok.1 g2
  obtain ⟨e1, e2, e3, e4, t, e5, e6, e7, e8⟩ := asked h1 hc g3
  have key : ∀ (vs : List Rat) (r1 : Reasoner), moreNar env r1 (vs.map NarOp.cycle) = .ok r →
      (∀ c ∈ r1.sh.mem, ¬ AsksIn c.name) → (∃ t : Task2, r1.sh.questionTasks = [t] ∧ t.sentence.term = q) → r1.answers = [] →
      r.answers = [] := by
    intro vs
    induction vs with
    | nil => intro r1 h _ _ ha; cases h; exact ha
    | cons v vs ih =>
      rintro r1 h hm ⟨t, ht1, ht2⟩ ha
      obtain ⟨r2, h2, h3⟩ := foldlM_cons_ok.1 h
      obtain ⟨c1, calls, c2, _, hcase⟩ := cycle_asks h2
      have hm2 : ∀ c ∈ r2.sh.mem, ¬ AsksIn c.name := by
        intro c hc
        obtain ⟨d, hd, e⟩ := c1 c hc
        rw [← e]; exact hm d hd
      rcases hcase with ⟨h0, _⟩ | ⟨j, q0, q', cands, d1, d2, d3, d4, d5⟩
      · rw [h0] at ht1; cases ht1
      · rw [ht1] at d2 d5
        have hj : j = 0 := by simpa using (List.getElem?_eq_some_iff.1 d2).1
        subst hj
        obtain rfl : t = q0 := by simpa using d2
        have hcands : cands = [] := by
          rw [List.eq_nil_iff_forall_not_mem]
          intro b hb
          rcases (d3 b).1 hb with ⟨hx, _⟩ | ⟨_, x, hx, c, hc, _⟩
          · rw [ht2] at hx; exact ht hx
          · have hlook : r1.look.mem = r1.sh.mem := by unfold Reasoner.look; split <;> rfl
            rw [hlook] at hc
            obtain ⟨hc1, rfl⟩ := Mem.get_some hc
            exact hm c hc1 (hn _ (by rw [← ht2]; exact hx))
        subst hcands
        cases d4
        exact ih r2 h3 hm2 ⟨t, by rw [d5]; rfl, ht2⟩ (by rw [c2, ha]; rfl)
  refine key vs r1 g4 ?_ ⟨t, by rw [e5, hq0]; rfl, e6⟩ (by rw [e2, h2.answers])
  intro c hc
  rw [e1] at hc
  obtain ⟨s, hs1, hs2⟩ := h5.names c hc
  obtain ⟨i, hi, rfl⟩ := List.mem_mapIdx.1 hs1
  rintro ⟨n, hx⟩
  exact hno _ (List.getElem_mem hi) ⟨n, hx.trans hs2⟩

/-- Told "cat is an animal", then asked what is what: the statement is an instance of the question, but no handler hears of it. -/
theorem C104_who_is_what_unanswered : ∃ (st : Term × Tv) (q : Term), Handful [st] ∧ (∃ θ, inst θ q = st.1) ∧ 1/2 < expects st.2 ∧
    ∀ (env : Env) (k : Nat) (vs : List Rat),
      (∃ r, runNar env (afterTelling k [st] ++ askFor q :: vs.map NarOp.cycle) = .ok r) ∧
      ∀ r, runNar env (afterTelling k [st] ++ askFor q :: vs.map NarOp.cycle) = .ok r → r.answers = [] := by
  have hh : Handful [(.Stmt .INH (.Name "cat") (.Name "animal"), ⟨1, 9/10⟩)] :=
    Handful.prefix (b := catFacts.tail) catFacts_handful
  refine ⟨(.Stmt .INH (.Name "cat") (.Name "animal"), ⟨1, 9/10⟩), .Stmt .INH (.QVar "x") (.QVar "y"), hh,
    ⟨fun v => if v = .QVar "x" then .Name "cat" else .Name "animal", by decide⟩, by unfold expects; norm_num, fun env k vs => ⟨?_, ?_⟩⟩
  · have huse : ∀ op ∈ afterTelling k [(.Stmt .INH (.Name "cat") (.Name "animal"), ⟨1, 9/10⟩)] ++
        askFor (.Stmt .INH (.QVar "x") (.QVar "y")) :: vs.map NarOp.cycle, SafeUse env op := by
      intro op hop
      rcases List.mem_append.1 hop with hop | hop
      · rcases List.mem_cons.1 hop with rfl | hop
        · exact trivial
        · obtain ⟨st, hst, rfl⟩ := List.mem_map.1 hop
          exact hh.safe st hst
      · rcases List.mem_cons.1 hop with rfl | hop
        · exact ⟨⟨_, rfl⟩, (by intro h; cases h), (by intro h; cases h)⟩
        · obtain ⟨v, _, rfl⟩ := List.mem_map.1 hop
          exact trivial
    obtain ⟨r, hr, _⟩ := C58_declarative_use_never_crashes env _ huse
    exact ⟨r, hr⟩
  · intro r hr
    refine C104_nameless_question env k _ _ vs r hh (by decide) (by decide) (by rintro ⟨a, b, h⟩; cases h) ?_ ?_ hr
    · intro s hs
      have hs := (mem_retSubterms _ _).2 hs
      simp only [retSubterms, List.mem_append, List.mem_cons, List.not_mem_nil, or_false] at hs
      rcases hs with rfl | rfl | rfl
      · exact ⟨"x", .inside (by simp [parts]) (.refl _)⟩
      · exact ⟨"x", .refl _⟩
      · exact ⟨"y", .refl _⟩
    · intro st hst
      rw [List.mem_singleton] at hst
      subst hst
      rintro ⟨n, hn⟩
      exact isA_ground _ _ (.QVar n) trivial hn

end Nar.Props
