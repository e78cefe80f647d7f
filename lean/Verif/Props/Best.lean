import Verif.Lemmas.Best3
import Verif.Props.Rest
import Verif.Props.Asked
import Verif.Props.Agree
/-! # Property theorems: questions are answered by what can be deduced (C120) -/
namespace Nar.Props
open Nar Term

/-- When thinking has come to rest and the draw of the next cycle falls on a question which is not about time, then everything which can be
deduced and is an instance of the question with a part in common is remembered, and all handlers of the question have got an answer which is
at least as good. -/
theorem C120_deducible_is_answered (cfg : Cfg) (hn : cfg.nBeliefs = 20) (ops : List SysOp) (s s' : Sys) (v : Rat) (now : Int)
    (h : runSys cfg ops = .ok s) (hs : ∀ op ∈ ops, op.Sane) (hf : SysOp.flush ∉ ops) (hc : cyclesIn ops < 111) (room : Room s.sh)
    (hm : RoomEverywhere s.sh.mem) (hr : AtRest s) (hcyc : (SysOp.cycle v now).run cfg s = .ok s') (i : Nat) (q : Task2)
    (hq : s.sh.questionTasks[i]? = some q) (hv : FallsOn v s.sh.questionTasks.length i) (ht : ¬ IsTemporal q.sentence.term)
    (t : Term) (E : List Int) (hd : Deducible cfg (PutIn ops) t E) (hg : Ground t) (hi : ∃ θ, inst θ q.sentence.term = t)
    (hx : ShareAPart q.sentence.term t) :
    (∃ e, Remembered s.sh.mem q.sentence.term t e ∧ 0 < e) ∧
    ∀ e, Remembered s.sh.mem q.sentence.term t e → 0 < e → ∀ hd, Registered cfg.nGlobal q hd →
      ∃ call ∈ s'.log, call.handler = hd ∧ call.question = q.sentence.term ∧ CanAnswer q call.answer ∧
        ∃ e', e ≤ e' ∧ Expectation call.answer e' := by
  obtain ⟨k, hk, rfl, _⟩ := C119_everything_deduced cfg ops s h hs hf hc room hr t E hd
  obtain ⟨x, hx1, hx2⟩ := hx
  have hrec : Recalls s.sh := by
    refine Recalls.more (s := { sh := createShared, queue := [], log := [] }) hn h ?_ .init
    intro x cc mc now hx hj
    obtain ⟨tv, h1, h2, h3⟩ := hs _ hx hj
    exact ⟨hj, ⟨tv, h1, h3⟩, h2⟩
  constructor
  · obtain ⟨b, b1, b2, b3⟩ := hrec.found hm hk hx2
    obtain ⟨e, e1, e2⟩ := good_expects b3
    exact ⟨e, ⟨x, b, hx1, b1, b2, e1⟩, e2⟩
  · rintro e ⟨y, b, hy, hb, hbt, he⟩ he0 hd hhd
    have hcand : Candidate s.sh q.sentence.term b := .inr ⟨ht, y, hy, hb⟩
    have hcan : CanAnswer q b := ⟨(hrec.good.2.1.under hb).1, by rw [hbt]; exact (C03_match_iff_instance _ _ hg).2 hi⟩
    have h' : runSys cfg (ops ++ [.cycle v now]) = .ok s' := by
      unfold runSys
      rw [List.foldlM_append]
      exact R.bind_ok.2 ⟨s, h, foldlM_cons_ok.2 ⟨s', hcyc, rfl⟩⟩
    obtain ⟨⟨sh1, msg, calls⟩, g1, g2⟩ := R.bind_ok.1 hcyc
    cases Except.ok.inj g2
    rcases (reasonCycle_asks g1).2 with ⟨h0, _⟩ | ⟨j, q0, q', cands, h1, h2, h3, h4, h5⟩
    · rw [h0] at hq; cases hq
    have hji : j = i := by
      unfold task2SelByCreditRandom at h1
      rw [(runSys_shares h).weights] at h1
      exact selByWeight_ones hv h1
    subst hji
    rw [hq] at h2; cases h2
    have hlt := (List.getElem?_eq_some_iff.1 hq).1
    obtain ⟨f1, f2, _, _, _, f6, _⟩ := qaTryAll_spec h4
    have hbest := f6 b ((h3 b).2 hcand) hcan e he
    obtain ⟨tops, hh⟩ := runSys_history' h'
    obtain ⟨cands', calls', k1, k2⟩ := C19_question_history cfg tops _ _ hh j q' (by rw [h5, List.getElem?_set_self hlt])
    rcases best_reported k1 with hz | ⟨a, ha, hae⟩
    · rw [hz] at hbest; exact absurd (lt_of_lt_of_le he0 hbest) (lt_irrefl _)
    have hin := ha hd (by
      cases hd with
      | ofTask => exact f2.trans hhd
      | global i => exact hhd)
    unfold answersTo at hin
    obtain ⟨call, hcall, rfl⟩ := List.mem_map.1 hin
    obtain ⟨hmem, hh'⟩ := List.mem_filter.1 hcall
    obtain ⟨_, _, _, _, _, _, as, _, _, w3, _, _, w6⟩ := qaTryAll_spec k1
    obtain ⟨g1, g2⟩ := w6 call hmem
    have hc1 := (w3 _ g2).1
    refine ⟨call, k2.subset hmem, by simpa using hh', by rw [g1]; exact congrArg _ f1, ?_, _, hbest, hae⟩
    exact ⟨hc1.1, by rw [← f1]; exact hc1.2⟩

/-- the three statements, the question `?x --> d` and time to think -/
def threeAsked : List SysOp :=
  threeTold ++ .input (newEternalSentenceByTv (.Stmt .INH (.QVar "x") (.Name "d")) .QUESTION ⟨1, 1/2⟩ ⟨[4]⟩) true 1 0 :: think 12

theorem threeAsked_sane : ∀ op ∈ threeAsked, op.Sane := by
  intro op hop
  have h0 := threeTold_sane op
  simp only [threeAsked, List.mem_append, List.mem_cons] at hop h0
  rcases hop with hop | rfl | hop
  · exact h0 (.inl hop)
  · intro hj; cases hj
  · exact h0 (.inr hop)

theorem threeAsked_deducible : Deducible cfg1 (PutIn threeAsked) (.Stmt .INH (.Name "a") (.Name "d")) ([1, 2] ++ [3]) := by
  refine Deducible.weaken ?_ threeTold_deducible
  rintro s ⟨cc, mc, now, hm⟩
  refine ⟨cc, mc, now, ?_⟩
  simp only [threeAsked, List.mem_append, List.mem_cons] at hm ⊢
  tauto

/-- the conditions are met, with `a --> d` -/
example : ∃ s s', runSys cfg1 threeAsked = .ok s ∧ (SysOp.cycle (1/2) 12).run cfg1 s = .ok s' ∧ ∃ e, 0 < e ∧
    Remembered s.sh.mem (.Stmt .INH (.QVar "x") (.Name "d")) (.Stmt .INH (.Name "a") (.Name "d")) e ∧
    ∃ call ∈ s'.log, call.question = .Stmt .INH (.QVar "x") (.Name "d") ∧ ∃ e', e ≤ e' ∧ Expectation call.answer e' := by
  have h : (runSys cfg1 threeAsked).bind (fun s => ((SysOp.cycle (1/2) 12).run cfg1 s).map (fun _ => ((s.sh.judgementTasks, s.queue.length,
      s.sh.judgementTasksByTerm.all (fun p => decide (p.2.length ≤ 51)), decide (s.sh.heap.length ≤ 300)),
      roomy { createNar with sh := s.sh }, s.sh.questionTasks.map (·.sentence.term)))) =
      .ok (([], 0, true, true), true, [.Stmt .INH (.QVar "x") (.Name "d")]) := by decide +kernel
  obtain ⟨s, hs, h⟩ := R.bind_ok.1 h
  obtain ⟨s', hs', h⟩ := R.map_ok.1 h
  simp only [Prod.mk.injEq, decide_eq_true_eq] at h
  obtain ⟨⟨h1, h2, h3, h4⟩, h5, h6⟩ := h
  obtain ⟨q, hq, hqt⟩ : ∃ q, s.sh.questionTasks = [q] ∧ q.sentence.term = .Stmt .INH (.QVar "x") (.Name "d") := by
    cases hl : s.sh.questionTasks with
    | nil => rw [hl] at h6; cases h6
    | cons q l =>
      rw [hl] at h6
      simp only [List.map_cons, List.cons.injEq, List.map_eq_nil_iff] at h6
      exact ⟨q, by rw [h6.2], h6.1⟩
  obtain ⟨⟨e, k1, k2⟩, k3⟩ := C120_deducible_is_answered cfg1 rfl threeAsked s s' (1/2) 12 hs threeAsked_sane (by simp [threeAsked, threeTold, think])
    (by decide) (room_of_lengths h3 h4) (roomy_iff.1 h5) ⟨h1, List.length_eq_zero_iff.1 h2⟩ hs' 0 q (by rw [hq]; rfl)
    (by rw [hq]; unfold FallsOn; norm_num) (by rw [hqt]; rintro ⟨a, b, e⟩; cases e) _ _ threeAsked_deducible (isA_ground _ _)
    ⟨fun _ => .Name "a", by rw [hqt]; rfl⟩
    ⟨.Name "d", by rw [hqt]; exact .inside (by simp [parts]) (.refl _), .inside (by simp [parts]) (.refl _)⟩
  obtain ⟨call, c1, _, c3, _, c5⟩ := k3 e k1 k2 (.global 0) (show 0 < 1 by decide)
  rw [hqt] at k1 c3
  exact ⟨s, s', hs, hs', e, k2, k1, call, c1, c3, c5⟩

/-- In any history and at any time: whatever a handler is told about a question which is not about time can be deduced from what was put in,
with no more evidence than is given for it.  (As long as no more than 120 pieces of evidence are around.  An answer may be more complex than
what the reasoner keeps.) -/
theorem C120_answers_deducible (cfg : Cfg) (ops : List SysOp) (s : Sys) (h : runSys cfg ops = .ok s) (hs : ∀ op ∈ ops, op.Sane) (U : List Int)
    (hU : U.length ≤ 120) (he : EvidenceFrom U ops) (call : AnswerCall) (hcall : call ∈ s.log) (ht : ¬ IsTemporal call.question) :
    Warranted cfg (PutIn ops) call.answer := by
  have h0 : Grounded cfg (PutIn ops) U { sh := createShared, queue := [], log := [] } :=
    ⟨⟨by simp [createShared], by intro c hc; simp [createShared] at hc⟩, by simp⟩
  refine (warranted_more hU h (runSys_inv (ops := []) rfl) h0 ?_ call hcall).resolve_left (by simp) ht
  intro x cc mc now hm hj hc
  obtain ⟨tv, h1, h2, h3⟩ := hs _ hm hj
  have hp : PutIn ops x := ⟨cc, mc, now, hm⟩
  obtain ⟨e1, e2⟩ := he x hp
  exact ⟨⟨hj, ⟨tv, h1, h3⟩, h2⟩, hc, e1, e2, _, .told x hp hj hc, fun _ h => h⟩

/-- there are such answers: the one after the history above -/
example : ∃ s, runSys cfg1 (threeAsked ++ [.cycle (1/2) 12]) = .ok s ∧ s.log ≠ [] ∧
    ∀ call ∈ s.log, Warranted cfg1 (PutIn (threeAsked ++ [.cycle (1/2) 12])) call.answer := by
  have h : (runSys cfg1 (threeAsked ++ [.cycle (1/2) 12])).map (fun s => s.log.map (·.question)) =
      .ok [.Stmt .INH (.QVar "x") (.Name "d")] := by decide +kernel
  obtain ⟨s, hs, h⟩ := R.map_ok.1 h
  refine ⟨s, hs, (by intro e; rw [e] at h; cases h), fun call hcall => ?_⟩
  refine C120_answers_deducible cfg1 _ s hs ?_ [1, 2, 3, 4] (by decide) ?_ call hcall ?_
  · intro op hop
    rcases List.mem_append.1 hop with hop | hop
    · exact threeAsked_sane op hop
    · cases List.mem_singleton.1 hop; trivial
  · rintro x ⟨cc, mc, now, hm⟩
    simp only [threeAsked, threeTold, think, List.mem_append, List.mem_cons, List.not_mem_nil, or_false, SysOp.input.injEq, List.mem_flatMap,
      reduceCtorEq, and_false, exists_false] at hm
    rcases hm with (⟨rfl, _⟩ | ⟨rfl, _⟩ | ⟨rfl, _⟩) | ⟨rfl, _⟩ <;> simp [jdg, newEternalSentenceByTv]
  · have : call.question ∈ s.log.map (·.question) := List.mem_map_of_mem hcall
    rw [h, List.mem_singleton] at this
    rw [this]; rintro ⟨a, b, e⟩; cases e

/-- A new reasoner is told a handful of different statements and thinks to the end; then it is asked a question which is not about time.
After a single cycle, whatever is drawn, every deducible instance of the question which has a part in common with it is remembered, and all
handlers got an answer which is at least as good; and every answer is an instance of the question which has a part in common with it and can
be deduced from the statements, with no more evidence than is given for it. -/
theorem C120_exam (env : Env) (k : Nat) (sts : List (Term × Tv)) (ts : List NarOp) (r : Reasoner) (q : Term) (v : Rat) (hs : Handful sts)
    (ht : ∀ op ∈ ts, op.Thinking) (hc : thinkingCycles ts < 111) (h : runNar env (afterTelling k sts ++ ts) = .ok r) (room : Room r.sh)
    (hm : RoomEverywhere r.sh.mem) (hr : AtRest r.sys) (hp : Printable q) (hcq : calcComplexity q ≤ 64) (hnt : ¬ IsTemporal q)
    (cfg : Cfg) (hcfg : cfg.maxComplexity = 64) :
    ∃ r', moreNar env r [askFor q, .cycle v] = .ok r' ∧
      (∀ t E, Deducible cfg (fun s => ∃ i A, sts[i]? = some A ∧ s = toldAs i A) t E → Ground t → (∃ θ, inst θ q = t) → ShareAPart q t →
        ∃ e, Remembered r.sh.mem q t e ∧ ∀ hd, hd < k → ∃ call ∈ r'.answers, call.handler = .global hd ∧ call.question = q ∧
          ∃ e', e ≤ e' ∧ Expectation call.answer e') ∧
      ∀ call ∈ r'.answers, call.question = q ∧ (∃ θ, inst θ q = call.answer.term) ∧ ShareAPart q call.answer.term ∧
        ∃ E, Deducible cfg (fun s => ∃ i A, sts[i]? = some A ∧ s = toldAs i A) call.answer.term E ∧ ∀ e ∈ E, e ∈ call.answer.stamp.ids := by
  have h : runNar env (.handlers k :: (askAll [] ++ tellAll sts) ++ ts) = .ok r := h
  obtain ⟨cfg', U, hm', hU, hground, hrec, _, hq0, hk, hsafe, halive⟩ := new_best (qs := []) (by simp) hs ht h
  obtain ⟨hq0, ha0⟩ := hq0 rfl
  simp only [List.length_nil, Nat.zero_add] at hground
  obtain ⟨r1, g1⟩ := NarOp.run_total hsafe halive (op := askFor q) ⟨hp, (by intro h; cases h), (by intro h; cases h)⟩
  obtain ⟨e1, e2, e3, e4, t0, e5, e6, e7, e8⟩ := asked h hcq g1
  rw [hq0, List.nil_append] at e5
  have hr1 : runNar env (NarOp.handlers k :: (askAll [] ++ tellAll sts) ++ ts ++ [askFor q]) = .ok r1 :=
    moreNar_append.2 ⟨r, h, foldlM_cons_ok.2 ⟨r1, g1, rfl⟩⟩
  have huse : ∀ op ∈ NarOp.handlers k :: (askAll [] ++ tellAll sts) ++ ts ++ [askFor q], SafeUse env op := by
    intro op hop
    simp only [askAll, tellAll, List.map_nil, List.nil_append, List.mem_append, List.mem_cons, List.mem_map, List.not_mem_nil, or_false] at hop
    rcases hop with ((rfl | ⟨st, hst, rfl⟩) | hop) | rfl
    · exact trivial
    · exact hs.safe st hst
    · rcases ht op hop with rfl | ⟨v, rfl⟩ <;> exact trivial
    · exact ⟨hp, (by intro h; cases h), (by intro h; cases h)⟩
  obtain ⟨s1, s2⟩ := runNar_safe hr1 (SafeUse.telling huse)
  obtain ⟨r2, g2⟩ := cycle_total s1 (.inl (s2 (fun hm => huse _ hm))) v
  have hlook : r1.look.mem = r.sh.mem := by rw [← e1]; unfold Reasoner.look; split <;> rfl
  refine ⟨r2, foldlM_cons_ok.2 ⟨r1, g1, foldlM_cons_ok.2 ⟨r2, g2, rfl⟩⟩, ?_, ?_⟩
  · rintro t E hd hg hi ⟨x, hx1, hx2⟩
    obtain ⟨y, hy, rfl, _⟩ := C119_new_reasoner env k [] sts ts r (by simp) hs ht hc h room hr t E cfg hcfg (by simpa using hd)
    obtain ⟨b, b1, b2, b3⟩ := hrec.found hm hy hx2
    obtain ⟨e, he1, he2⟩ := good_expects b3
    refine ⟨e, ⟨x, b, hx1, b1, b2, he1⟩, ?_⟩
    have hcand : Candidate r1.look t0.sentence.term b := .inr ⟨by rw [e6]; exact hnt, x, by rw [e6]; exact hx1, by rw [hlook]; exact b1⟩
    have hcan : CanAnswer t0 b := ⟨b3.1, by rw [e6, b2]; exact (C03_match_iff_instance q _ hg).2 hi⟩
    obtain ⟨_, _, _, _, w4⟩ := C104_only_question env r1 r2 v t0 g2 e5 _ hcand hcan _ he1
    intro hd hhd
    obtain ⟨call, k1, k2, k3, _, k5, e', k6, k7⟩ := w4 (by rw [e7]; exact he2) hd (by rw [e3, hk]; exact hhd)
    exact ⟨call, List.mem_of_mem_drop k1, k2, k3.trans e6, e', k6, k7⟩
  · intro call hcall
    obtain ⟨_, calls, c2, _, hcase⟩ := cycle_asks g2
    rw [e2, ha0, List.nil_append] at c2
    rw [c2] at hcall
    rcases hcase with ⟨h0, _⟩ | ⟨j, q0, q', cands, d1, d2, d3, d4, d5⟩
    · rw [h0] at e5; cases e5
    have hq0t : q0 = t0 := by
      rw [e5] at d2
      have := List.mem_of_getElem? d2
      simpa using this
    subst hq0t
    obtain ⟨_, _, _, _, _, _, as, _, hsub, w3, _, _, w6⟩ := qaTryAll_spec d4
    obtain ⟨j1, j2⟩ := w6 call hcall
    rcases (d3 _).1 (hsub.subset j2) with ⟨hq, _⟩ | ⟨_, x, hx, hb⟩
    · rw [e6] at hq; exact absurd hq hnt
    rw [hlook] at hb
    rw [e6] at hx
    obtain ⟨b1, b2⟩ := hground.all.2.under hb
    obtain ⟨σ, hσ⟩ := Option.isSome_iff_exists.1 ((w3 _ j2).1).2
    rw [e6] at hσ
    obtain ⟨E, d1, d2⟩ := b1.deduced
    exact ⟨j1.trans e6, ⟨_, (unifySubst_eq_inst σ _).symm.trans (C02_match_sound _ _ σ hσ)⟩, ⟨x, hx, b2⟩, E, d1.limit (by rw [hcfg, hm']), d2⟩

theorem twoPremises_handful : Handful twoPremises where
  differ := by decide
  safe := by
    intro st hst
    simp only [twoPremises, List.mem_cons, List.not_mem_nil, or_false] at hst
    rcases hst with rfl | rfl <;>
    · refine ⟨⟨_, rfl⟩, fun _ _ => ⟨(by rintro ⟨a, b, e⟩; cases e), ?_, ?_⟩, fun h => by cases h⟩
      · exact wf_stmt.2 ⟨wf_iff.2 ⟨trivial, by simp [parts]⟩, wf_iff.2 ⟨trivial, by simp [parts]⟩⟩
      · unfold Tv.Sane; decide +kernel
  small := by decide

/-- five cycles, each followed by a round of the worker -/
def fiveRounds : List NarOp := (List.replicate 5 [NarOp.cycle (1/2), .declWork]).flatten

theorem fiveRounds_thinking : ∀ op ∈ fiveRounds, op.Thinking := by
  intro op hop
  simp only [fiveRounds, List.replicate, List.flatten_cons, List.flatten_nil, List.cons_append, List.nil_append, List.mem_cons, List.not_mem_nil,
    or_false] at hop
  casesm* _ ∨ _ <;> subst op
  all_goals first | exact .inl rfl | exact .inr ⟨_, rfl⟩

/-- such a reasoner exists, and is at rest with room -/
theorem two_rest : ∃ r, runNar env0 (afterTelling 1 twoPremises ++ fiveRounds) = .ok r ∧ Room r.sh ∧ RoomEverywhere r.sh.mem ∧ AtRest r.sys := by
  have h : (runNar env0 (afterTelling 1 twoPremises ++ fiveRounds)).map (fun r => (roomy r, r.sh.judgementTasks, r.queue.length,
      r.sh.judgementTasksByTerm.all (fun p => decide (p.2.length ≤ 51)), decide (r.sh.heap.length ≤ 300))) = .ok (true, [], 0, true, true) := by
    decide +kernel
  obtain ⟨r, hr, h⟩ := R.map_ok.1 h
  simp only [Prod.mk.injEq, decide_eq_true_eq] at h
  obtain ⟨h5, h1, h2, h3, h4⟩ := h
  exact ⟨r, hr, room_of_lengths h3 h4, roomy_iff.1 h5, h1, List.length_eq_zero_iff.1 h2⟩

/-- If only facts and general rules were told, and the question is not about a rule, a handler hears an answer exactly if some instance of
the question which has a part in common with it can be deduced. -/
theorem C120_answered_iff_deducible (env : Env) (k : Nat) (sts : List (Term × Tv)) (ts : List NarOp) (r : Reasoner) (c : Copula) (a b : Term)
    (v : Rat) (hs : Handful sts) (ht : ∀ op ∈ ts, op.Thinking) (hc : thinkingCycles ts < 111)
    (h : runNar env (afterTelling k sts ++ ts) = .ok r) (room : Room r.sh) (hm : RoomEverywhere r.sh.mem) (hr : AtRest r.sys)
    (hp : Printable (.Stmt c a b)) (hcq : calcComplexity (.Stmt c a b) ≤ 64) (h1 : c ≠ .PREDIMPL) (h2 : c ≠ .IMPL)
    (hfacts : ∀ st ∈ sts, FactOrRule st.1) (cfg : Cfg) (hcfg : cfg.maxComplexity = 64) :
    ∃ r', moreNar env r [askFor (.Stmt c a b), .cycle v] = .ok r' ∧ ∀ hd, hd < k →
      ((∃ call ∈ r'.answers, call.handler = .global hd) ↔
        ∃ t E, Deducible cfg (fun s => ∃ i A, sts[i]? = some A ∧ s = toldAs i A) t E ∧ (∃ θ, inst θ (.Stmt c a b) = t) ∧
          ShareAPart (.Stmt c a b) t) := by
  obtain ⟨r', g1, g2, g3⟩ := C120_exam env k sts ts r (.Stmt c a b) v hs ht hc h room hm hr hp hcq
    (by rintro ⟨x, y, e⟩; cases e; exact h1 rfl) cfg hcfg
  refine ⟨r', g1, fun hd hhd => ⟨?_, ?_⟩⟩
  · rintro ⟨call, hcall, _⟩
    obtain ⟨_, k2, k3, E, k4, _⟩ := g3 call hcall
    exact ⟨_, E, k4, k2, k3⟩
  · rintro ⟨t, E, k1, k2, k3⟩
    have hf : FactOrRule t := deducible_facts (by rintro _ ⟨i, A, hA, rfl⟩; exact hfacts A (List.mem_of_getElem? hA)) k1
    have hg : Ground t := by
      obtain ⟨θ, rfl⟩ := k2
      rw [inst] at hf ⊢
      exact hf.ground h2
    obtain ⟨e, _, w⟩ := g2 t E k1 hg k2 k3
    obtain ⟨call, hcall, hhd', _⟩ := w hd hhd
    exact ⟨call, hcall, hhd'⟩

/-- `a --> c` can be deduced, so the question is answered; and `c --> a` is not answered, so it cannot be deduced -/
example (v : Rat) : ∃ r, runNar env0 (afterTelling 1 twoPremises ++ fiveRounds) = .ok r ∧
    (∃ r', moreNar env0 r [askFor (.Stmt .INH (.Name "a") (.Name "c")), .cycle v] = .ok r' ∧ r'.answers ≠ []) ∧
    ¬ ∃ E, Deducible cfg1 (fun s => ∃ i A, twoPremises[i]? = some A ∧ s = toldAs i A) (.Stmt .INH (.Name "c") (.Name "a")) E := by
  obtain ⟨r, h1, h2, h3, h4⟩ := two_rest
  have hfacts : ∀ st ∈ twoPremises, FactOrRule st.1 := by
    intro st hst
    simp only [twoPremises, List.mem_cons, List.not_mem_nil, or_false] at hst
    rcases hst with rfl | rfl <;> exact .inl (isA_ground _ _)
  have key := fun (a b : String) (v : Rat) (hp : Printable (.Stmt .INH (.Name a) (.Name b)))
    (hcq : calcComplexity (.Stmt .INH (.Name a) (.Name b)) ≤ 64) =>
    C120_answered_iff_deducible env0 1 twoPremises fiveRounds r .INH (.Name a) (.Name b) v twoPremises_handful fiveRounds_thinking
      (by decide) h1 h2 h3 h4 hp hcq (by decide) (by decide) hfacts cfg1 rfl
  refine ⟨r, h1, ?_, ?_⟩
  · obtain ⟨r', k1, k2⟩ := key "a" "c" v ⟨_, rfl⟩ (by decide)
    have d1 : Deducible cfg1 (fun s => ∃ i A, twoPremises[i]? = some A ∧ s = toldAs i A) (.Stmt .INH (.Name "a") (.Name "b")) [0] :=
      .told (toldAs 0 (.Stmt .INH (.Name "a") (.Name "b"), ⟨1, 9/10⟩)) ⟨0, _, rfl, rfl⟩ rfl (by decide)
    have d2 : Deducible cfg1 (fun s => ∃ i A, twoPremises[i]? = some A ∧ s = toldAs i A) (.Stmt .INH (.Name "b") (.Name "c")) [1] :=
      .told (toldAs 1 (.Stmt .INH (.Name "b") (.Name "c"), ⟨1, 9/10⟩)) ⟨1, _, rfl, rfl⟩ rfl (by decide)
    have d3 : Deducible cfg1 (fun s => ∃ i A, twoPremises[i]? = some A ∧ s = toldAs i A) (.Stmt .INH (.Name "a") (.Name "c")) ([0] ++ [1]) :=
      Deducible.both _ _ (.Stmt .INH (.Name "a") (.Name "c")) _ _ d1 d2 (by decide)
      ⟨.Name "b", .inside (by simp [parts]) (.refl _), .inside (by simp [parts]) (.refl _)⟩
      ⟨⟨1, 1⟩, ⟨1, 1⟩, _, .deduction .INH _ _ _ _ _ (.inl rfl) (by decide)⟩ (by decide)
    obtain ⟨call, hc, _⟩ := (k2 0 (by decide)).2 ⟨_, _, d3, ⟨fun t => t, rfl⟩, ⟨_, .refl _, .refl _⟩⟩
    exact ⟨r', k1, List.ne_nil_of_mem hc⟩
  · rintro ⟨E, hE⟩
    have h : (runNar env0 (afterTelling 1 twoPremises ++ fiveRounds ++ [askFor (.Stmt .INH (.Name "c") (.Name "a")), .cycle (1/2)])).map
        (fun r => r.answers.length) = .ok 0 := by decide +kernel
    obtain ⟨r', k1, k2⟩ := key "c" "a" (1/2) ⟨_, rfl⟩ (by decide)
    obtain ⟨call, hc, _⟩ := (k2 0 (by decide)).2 ⟨_, E, hE, ⟨fun t => t, rfl⟩, ⟨_, .refl _, .refl _⟩⟩
    rw [show runNar env0 (afterTelling 1 twoPremises ++ fiveRounds ++ [askFor (.Stmt .INH (.Name "c") (.Name "a")), .cycle (1/2)]) = .ok r' from
      moreNar_append.2 ⟨r, h1, k1⟩] at h
    have := List.length_eq_zero_iff.1 (Except.ok.inj h)
    rw [this] at hc; cases hc

/-- Also while it is thinking: a new reasoner which was asked questions, was told a handful of different statements and thinks, gives no
answer to a question which is not about time but what can be deduced from the statements. -/
theorem C120_new_reasoner_answers (env : Env) (k : Nat) (qs : List Term) (sts : List (Term × Tv)) (ts : List NarOp) (r : Reasoner)
    (hq : ∀ q ∈ qs, Printable q ∧ calcComplexity q ≤ 64) (hs : Handful sts) (ht : ∀ op ∈ ts, op.Thinking)
    (h : runNar env (.handlers k :: (askAll qs ++ tellAll sts) ++ ts) = .ok r) (call : AnswerCall) (hcall : call ∈ r.answers)
    (hnt : ¬ IsTemporal call.question) (cfg : Cfg) :
    Warranted cfg (fun s => ∃ i A, sts[i]? = some A ∧ s = toldAs (qs.length + i) A) call.answer := by
  obtain ⟨cfg', U, _, _, _, _, ha, _⟩ := new_best hq hs ht h
  obtain ⟨n, E, h1, h2⟩ := ha call hcall hnt
  exact ⟨n, E, Deducible.limit (cfg := { cfg' with maxComplexity := n }) rfl h1, h2⟩

/-- there are such answers: two statements after the question `?x --> c` -/
example : ∃ r, runNar env0 (.handlers 1 :: (askAll [.Stmt .INH (.QVar "x") (.Name "c")] ++ tellAll twoPremises) ++ fiveRounds) = .ok r ∧
    r.answers ≠ [] ∧
    ∀ call ∈ r.answers, Warranted cfg1 (fun s => ∃ i A, twoPremises[i]? = some A ∧ s = toldAs (1 + i) A) call.answer := by
  have h : (runNar env0 (.handlers 1 :: (askAll [.Stmt .INH (.QVar "x") (.Name "c")] ++ tellAll twoPremises) ++ fiveRounds)).map
      (fun r => (r.answers.isEmpty, r.answers.all (fun c => decide (c.question = .Stmt .INH (.QVar "x") (.Name "c"))))) = .ok (false, true) := by
    decide +kernel
  obtain ⟨r, hr, h⟩ := R.map_ok.1 h
  simp only [Prod.mk.injEq] at h
  refine ⟨r, hr, (by intro e; rw [e] at h; exact absurd h.1 (by decide)), fun call hcall => ?_⟩
  refine C120_new_reasoner_answers env0 1 [.Stmt .INH (.QVar "x") (.Name "c")] twoPremises fiveRounds r ?_ twoPremises_handful
    fiveRounds_thinking hr call hcall ?_ cfg1
  · intro q hq
    cases List.mem_singleton.1 hq
    exact ⟨⟨_, rfl⟩, by decide⟩
  · have := List.all_eq_true.1 h.2 call hcall
    rw [of_decide_eq_true this]; rintro ⟨a, b, e⟩; cases e

end Nar.Props
