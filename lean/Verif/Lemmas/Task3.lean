import Verif.Spec.Task2
import Verif.Lemmas.Task2
/-! # Lemmas: whole cycles and the worker as histories of elementary actions -/
namespace Nar
open Term

theorem moreTasks_nil (cfg : Cfg) (st : Shared × List AnswerCall) : moreTasks cfg st [] = .ok st := rfl

theorem moreTasks_append {cfg : Cfg} {st st1 st2 : Shared × List AnswerCall} {a b : List TaskOp}
    (h1 : moreTasks cfg st a = .ok st1) (h2 : moreTasks cfg st1 b = .ok st2) : moreTasks cfg st (a ++ b) = .ok st2 := by
  unfold moreTasks at *
  rw [List.foldlM_append]
  exact R.bind_ok.2 ⟨st1, h1, h2⟩

theorem moreTasks_one {cfg : Cfg} {sh sh' : Shared} {log calls : List AnswerCall} {op : TaskOp}
    (h : op.run cfg sh = .ok (sh', calls)) : moreTasks cfg (sh, log) [op] = .ok (sh', log ++ calls) := by
  unfold moreTasks
  rw [List.foldlM_cons, R.bind_ok]
  exact ⟨(sh', log ++ calls), R.bind_ok.2 ⟨_, h, rfl⟩, rfl⟩

theorem runTasks_more {cfg : Cfg} {ops more : List TaskOp} {st st' : Shared × List AnswerCall}
    (h : runTasks cfg ops = .ok st) (h2 : moreTasks cfg st more = .ok st') : runTasks cfg (ops ++ more) = .ok st' :=
  moreTasks_append h h2

theorem buildMsg_more {cfg : Cfg} {sh sh' : Shared} {msg : Option Msg} (log : List AnswerCall)
    (h : buildMsg cfg sh = .ok (sh', msg)) : moreTasks cfg (sh, log) [.select] = .ok (sh', log) := by
  unfold buildMsg at h
  obtain ⟨⟨sh1, prim⟩, h1, h⟩ := R.bind_ok.1 h
  have hsel : TaskOp.run cfg sh .select = .ok (sh1, []) := by
    simp only [TaskOp.run]
    rw [h1]; rfl
  have key := moreTasks_one (log := log) hsel
  rw [List.append_nil] at key
  cases prim with
  | none => cases h; exact key
  | some p =>
    simp only at h
    obtain ⟨sec, _, h⟩ := R.bind_ok.1 h
    cases h; exact key

/-! ## the cycle counter -/

theorem foldl_counter {α} (f : Shared → α → Shared) (hf : ∀ sh a, (f sh a).cycleCounter = sh.cycleCounter) (l : List α) (sh : Shared) :
    (l.foldl f sh).cycleCounter = sh.cycleCounter := by
  induction l generalizing sh with
  | nil => rfl
  | cons a l ih => exact (ih (f sh a)).trans (hf sh a)

theorem creditQuestions_counter (sh : Shared) : (creditQuestions sh).cycleCounter = sh.cycleCounter := by
  unfold creditQuestions
  apply foldl_counter
  intro sh q
  unfold creditQuestion
  apply foldl_counter
  intro sh t
  split
  · apply foldl_counter
    intro sh r
    rfl
  · rfl

theorem baseCredit_counter {sh sh' : Shared} (h : baseCredit sh = .ok sh') : sh'.cycleCounter = sh.cycleCounter := by
  unfold baseCredit at h
  have h0 := foldl_counter (fun sh r => sh.modifyTask r (fun t => { t with credit := t.credit + 1/2 }))
    (fun _ _ => rfl) sh.judgementTasks sh
  refine foldlM_inv (fun x => x.cycleCounter = sh.cycleCounter) h h0 ?_
  intro r _ a b hab hstep
  obtain ⟨t, _, hstep⟩ := R.bind_ok.1 hstep
  obtain ⟨t', _, hstep⟩ := R.bind_ok.1 hstep
  cases hstep
  exact hab

theorem updateUsage_counter (sh : Shared) (msg : Msg) (now : Int) : (updateUsage sh msg now).cycleCounter = sh.cycleCounter := by
  refine updateUsage_inv (fun x => x.cycleCounter = sh.cycleCounter) msg now rfl ?_
  intro a r h
  rcases useTask_cases now a r with ⟨_, e⟩ | ⟨task, _, e⟩ <;> rw [e] <;> exact h

theorem buildMsg_counter {cfg : Cfg} {sh sh' : Shared} {msg : Option Msg} (h : buildMsg cfg sh = .ok (sh', msg)) :
    sh'.cycleCounter = sh.cycleCounter := by
  unfold buildMsg at h
  obtain ⟨⟨sh1, prim⟩, h1, h⟩ := R.bind_ok.1 h
  have hc : sh1.cycleCounter = sh.cycleCounter := by
    rcases selectPrimary_cases h1 with ⟨_, h1⟩ | ⟨_, _, _, _, h1⟩ <;> (cases h1; rfl)
  cases prim with
  | none => cases h; exact hc
  | some p =>
    simp only at h
    obtain ⟨sec, _, h⟩ := R.bind_ok.1 h
    cases h; exact hc

theorem everyCleanup_counter {cfg : Cfg} {sh sh' : Shared} (h : everyCleanup cfg sh = .ok sh') : sh'.cycleCounter = sh.cycleCounter := by
  unfold everyCleanup at h
  split at h
  · obtain ⟨sh1, h1, h⟩ := R.bind_ok.1 h
    unfold cleanupTasks at h1
    obtain ⟨_, _, h1⟩ := R.bind_ok.1 h1
    unfold rebuildLookup at h
    obtain ⟨_, _, h⟩ := R.bind_ok.1 h
    cases h1; cases h; rfl
  · cases h; rfl

/-! ## one cycle -/

theorem everyCleanup_more {cfg : Cfg} {sh sh' : Shared} (log : List AnswerCall) (h : everyCleanup cfg sh = .ok sh') :
    moreTasks cfg (sh, log) (if sh.cycleCounter % 111 = 0 then [.cleanup, .rebuild] else []) = .ok (sh', log) := by
  unfold everyCleanup at h
  split
  · rename_i hc
    rw [if_pos hc] at h
    obtain ⟨sh1, h1, h⟩ := R.bind_ok.1 h
    have k1 : moreTasks cfg (sh, log) [.cleanup] = .ok (sh1, log ++ []) :=
      moreTasks_one (by simp only [TaskOp.run]; rw [h1]; rfl)
    have k2 : moreTasks cfg (sh1, log ++ []) [.rebuild] = .ok (sh', log ++ [] ++ []) :=
      moreTasks_one (by simp only [TaskOp.run]; rw [h]; rfl)
    have := moreTasks_append k1 k2
    simpa using this
  · rename_i hc
    rw [if_neg hc] at h
    cases h; rfl

theorem everyForget_more {cfg : Cfg} {sh sh' : Shared} (log : List AnswerCall) (h : everyForget sh = .ok sh') :
    moreTasks cfg (sh, log) (if sh.cycleCounter % 173 = 0 then [.forget 3000] else []) = .ok (sh', log) := by
  unfold everyForget at h
  split
  · rename_i hc
    rw [if_pos hc] at h
    obtain ⟨m, h1, h⟩ := R.bind_ok.1 h
    have k1 : moreTasks cfg (sh, log) [.forget 3000] = .ok (sh', log ++ []) := by
      refine moreTasks_one ?_
      simp only [TaskOp.run]; rw [h1]; cases h; rfl
    simpa using k1
  · rename_i hc
    rw [if_neg hc] at h
    cases h; rfl

theorem reasonCycle_more {cfg : Cfg} {selVal : Rat} {now : Int} {sh sh' : Shared} {msg : Option Msg}
    {calls : List AnswerCall} (log : List AnswerCall) (h : reasonCycle cfg selVal now sh = .ok (sh', msg, calls)) :
    moreTasks cfg (sh, log) (cycleOps (sh.cycleCounter + 1) selVal now msg) = .ok (sh', log ++ calls) := by
  unfold reasonCycle at h
  obtain ⟨sh1, h1, h⟩ := R.bind_ok.1 h
  obtain ⟨⟨sh2, c2⟩, h2, h⟩ := R.bind_ok.1 h
  obtain ⟨⟨sh3, m3⟩, h3, h⟩ := R.bind_ok.1 h
  obtain ⟨sh4, h4, h⟩ := R.bind_ok.1 h
  obtain ⟨sh5, h5, h⟩ := R.bind_ok.1 h
  cases h
  have k1 : moreTasks cfg (sh, log) [.tick, .creditQuestions, .baseCredit] = .ok (sh1, log) := by
    have a1 : moreTasks cfg (sh, log) [.tick] = .ok ({ sh with cycleCounter := sh.cycleCounter + 1 }, log ++ []) :=
      moreTasks_one rfl
    have a2 : moreTasks cfg ({ sh with cycleCounter := sh.cycleCounter + 1 }, log ++ []) [.creditQuestions] =
        .ok (creditQuestions { sh with cycleCounter := sh.cycleCounter + 1 }, log ++ [] ++ []) := moreTasks_one rfl
    have a3 : moreTasks cfg (creditQuestions { sh with cycleCounter := sh.cycleCounter + 1 }, log ++ [] ++ []) [.baseCredit] =
        .ok (sh1, log ++ [] ++ [] ++ []) := moreTasks_one (by simp only [TaskOp.run]; rw [h1]; rfl)
    have := moreTasks_append (moreTasks_append a1 a2) a3
    simpa using this
  have k2 : moreTasks cfg (sh1, log) [.answer selVal] = .ok (sh2, log ++ calls) := moreTasks_one h2
  have k3 := buildMsg_more (log ++ calls) h3
  have k4 : moreTasks cfg (sh3, log ++ calls) (msg.toList.map (fun m => TaskOp.usage m now)) =
      .ok (useMsg sh3 now msg, log ++ calls) := by
    cases msg with
    | none => rfl
    | some m =>
      have := moreTasks_one (cfg := cfg) (sh := sh3) (log := log ++ calls) (op := .usage m now) rfl
      simpa [useMsg] using this
  have hc : (useMsg sh3 now msg).cycleCounter = sh.cycleCounter + 1 := by
    have e1 : (useMsg sh3 now msg).cycleCounter = sh3.cycleCounter := by
      cases msg with
      | none => rfl
      | some m => exact updateUsage_counter _ _ _
    obtain ⟨qs, hq⟩ := answerSampled_frame h2
    simp only at hq
    rw [e1, buildMsg_counter h3, hq, baseCredit_counter h1, creditQuestions_counter]
  have k5 := everyCleanup_more (log ++ calls) h4
  have k6 := everyForget_more (cfg := cfg) (log ++ calls) h5
  rw [hc] at k5
  rw [everyCleanup_counter h4, hc] at k6
  exact moreTasks_append (moreTasks_append (moreTasks_append (moreTasks_append k1 k2) k3) k4) (moreTasks_append k5 k6)

/-! ## the worker -/

theorem offerAll_more {cfg : Cfg} {sh sh' : Shared} {cs : List Sentence} {calls : List AnswerCall} (log : List AnswerCall)
    (h : offerAll cfg sh cs = .ok (sh', calls)) :
    moreTasks cfg (sh, log) (cs.map TaskOp.offer) = .ok (sh', log ++ calls) := by
  induction cs generalizing sh calls log with
  | nil => cases h; simp [moreTasks_nil]
  | cons c cs ih =>
    unfold offerAll at h
    obtain ⟨⟨sh1, c1⟩, h1, h⟩ := R.bind_ok.1 h
    obtain ⟨⟨sh2, c2⟩, h2, h⟩ := R.bind_ok.1 h
    cases h
    have k1 : moreTasks cfg (sh, log) [.offer c] = .ok (sh1, log ++ c1) := moreTasks_one h1
    have := moreTasks_append k1 (ih (log ++ c1) h2)
    simpa using this

theorem addAll_more {cfg : Cfg} {sh sh' : Shared} {cs : List (Sentence × Rat)} {f : Rat → Rat} {now : Int} (log : List AnswerCall)
    (h : cs.foldlM (fun sh c => memAddTask cfg sh c.1 true (f c.2) now) sh = .ok sh') :
    moreTasks cfg (sh, log) (cs.map (fun c => TaskOp.add c.1 true (f c.2) now)) = .ok (sh', log) := by
  induction cs generalizing sh with
  | nil => cases h; rfl
  | cons c cs ih =>
    rw [List.foldlM_cons] at h
    obtain ⟨sh1, h1, h⟩ := R.bind_ok.1 h
    have k1 : moreTasks cfg (sh, log) [.add c.1 true (f c.2) now] = .ok (sh1, log ++ []) :=
      moreTasks_one (by simp only [TaskOp.run]; rw [h1]; rfl)
    rw [List.append_nil] at k1
    exact moreTasks_append k1 (ih h)

theorem work_more {cfg : Cfg} {sh sh' : Shared} {msg : Msg} {calls : List AnswerCall} (log : List AnswerCall)
    (h : work cfg sh msg = .ok (sh', calls)) :
    ∃ concl p, workConclusions sh msg = .ok concl ∧ sh.heap[msg.primary]? = some p ∧
      moreTasks cfg (sh, log) (workOps p.mulCredit msg.cycleCounter concl) = .ok (sh', log ++ calls) := by
  unfold work at h
  obtain ⟨concl, h1, h⟩ := R.bind_ok.1 h
  obtain ⟨p, h2, h⟩ := R.bind_ok.1 h
  obtain ⟨⟨sh1, c1⟩, h3, h⟩ := R.bind_ok.1 h
  obtain ⟨sh2, h4, h⟩ := R.bind_ok.1 h
  cases h
  refine ⟨concl, p, h1, indexAt_ok.1 h2, ?_⟩
  have k1 := offerAll_more log h3
  rw [List.map_map] at k1
  have k2 := addAll_more (f := fun w => p.mulCredit * w) (log ++ calls) (by simpa using h4)
  exact moreTasks_append k1 k2

theorem mem_flatten_mapM {α β} {f : α → R (List β)} {l : List α} {rs : List (List β)} (h : l.mapM f = .ok rs) (x : β) :
    x ∈ rs.flatten ↔ ∃ a ∈ l, ∃ r, f a = .ok r ∧ x ∈ r := by
  have hf := mapM_ok_iff.1 h
  rw [List.mem_flatten]
  constructor
  · rintro ⟨r, hr, hx⟩
    obtain ⟨a, ha, e⟩ := forall₂_right_mem hf hr
    exact ⟨a, ha, r, e, hx⟩
  · rintro ⟨a, ha, r, e, hx⟩
    obtain ⟨r', hr', e'⟩ := forall₂_left_mem hf ha
    rw [e] at e'; cases e'
    exact ⟨r, hr', hx⟩

theorem infer_iff {p s : Sentence} {r : List (Sentence × Rat)} {c : Sentence} {w : Rat}
    (h : (do let (cs, _) ← inference p s; .ok cs : R (List (Sentence × Rat))) = .ok r) : (c, w) ∈ r ↔ Follows p s c w := by
  obtain ⟨⟨cs, b⟩, h1, h⟩ := R.bind_ok.1 h
  cases h
  constructor
  · intro hm; exact ⟨_, b, h1, hm⟩
  · rintro ⟨cs', b', h2, hm⟩
    rw [h1] at h2; cases h2; exact hm

theorem workConclusions_iff {sh : Shared} {msg : Msg} {concl : List (Sentence × Rat)}
    (h : workConclusions sh msg = .ok concl) :
    ∃ drawn, concl = nameCells msg.cycleCounter drawn ∧ ∀ c w, (c, w) ∈ drawn ↔ Concludes sh msg c w := by
  unfold workConclusions at h
  obtain ⟨p, h1, h⟩ := R.bind_ok.1 h
  obtain ⟨single, h2, h⟩ := R.bind_ok.1 h
  obtain ⟨secs, h3, h⟩ := R.bind_ok.1 h
  obtain ⟨partA, h4, h⟩ := R.bind_ok.1 h
  obtain ⟨partB, h5, h⟩ := R.bind_ok.1 h
  obtain ⟨partC, h6, h⟩ := R.bind_ok.1 h
  refine ⟨_, (Except.ok.inj h).symm, fun c w => ?_⟩
  have hp := indexAt_ok.1 h1
  have hsecs := derefs_iff.1 h3
  have hA : (c, w) ∈ partA.flatten → (c, w) ∈ partB.flatten := by
    rw [mem_flatten_mapM h4, mem_flatten_mapM h5]
    rintro ⟨⟨s, r⟩, hs, x, hx, hm⟩
    have hs := (List.of_mem_zip (List.mem_of_mem_take hs)).1
    simp only at hx
    split at hx
    · cases hx; cases hm
    · exact ⟨s, hs, x, hx, hm⟩
  have hB : (c, w) ∈ partB.flatten ↔ ∃ r ∈ msg.secondary, ∃ s, sh.heap[r]? = some s ∧ Follows p.sentence s.sentence c w := by
    rw [mem_flatten_mapM h5]
    constructor
    · rintro ⟨s, hs, x, hx, hm⟩
      obtain ⟨r, hr, e⟩ := forall₂_right_mem hsecs hs
      exact ⟨r, hr, s, e, (infer_iff hx).1 hm⟩
    · rintro ⟨r, hr, s, e, hf⟩
      obtain ⟨s', hs', e'⟩ := forall₂_left_mem hsecs hr
      rw [e] at e'; cases e'
      obtain ⟨cs, b, hi, hm⟩ := hf
      exact ⟨s, hs', cs, by rw [hi]; rfl, hm⟩
  have hC : (c, w) ∈ partC.flatten ↔ ∃ b, BeliefUnder sh.mem p.sentence.term b ∧ Follows p.sentence b c w := by
    rw [mem_flatten_mapM h6]
    have hmem : ∀ b, b ∈ (match sh.mem.get p.sentence.term with
        | some c => c.beliefsByExp ++ c.beliefsByUsage
        | none => []) ↔ BeliefUnder sh.mem p.sentence.term b := by
      intro b
      unfold BeliefUnder
      cases sh.mem.get p.sentence.term <;> simp
    constructor
    · rintro ⟨b, hb, x, hx, hm⟩
      exact ⟨b, (hmem b).1 hb, (infer_iff hx).1 hm⟩
    · rintro ⟨b, hb, cs, a, hi, hm⟩
      exact ⟨b, (hmem b).2 hb, cs, by rw [hi]; rfl, hm⟩
  have hS : (c, w) ∈ single ↔ FollowsAlone p.sentence c w := by
    constructor
    · intro hm; exact ⟨_, h2, hm⟩
    · rintro ⟨cs, h2', hm⟩
      rw [h2] at h2'; cases h2'; exact hm
  simp only [List.mem_append, hS, hC]
  unfold Concludes
  constructor
  · rintro (((h | h) | h) | h)
    · exact ⟨p, hp, .inl h⟩
    · exact ⟨p, hp, .inr (.inl (hB.1 (hA h)))⟩
    · exact ⟨p, hp, .inr (.inl (hB.1 h))⟩
    · exact ⟨p, hp, .inr (.inr h)⟩
  · rintro ⟨p', hp', h⟩
    rw [hp] at hp'; cases hp'
    rcases h with h | h | h
    · exact .inl (.inl (.inl h))
    · exact .inl (.inr (hB.2 h))
    · exact .inr h

/-- each conclusion of the worker is one of those which follow, with counters of its own -/
theorem workConclusions_mem {sh : Shared} {msg : Msg} {concl : List (Sentence × Rat)}
    (h : workConclusions sh msg = .ok concl) {c : Sentence × Rat} (hc : c ∈ concl) :
    ∃ c0 u, Concludes sh msg c0 c.2 ∧ c.1 = { c0 with usage := u } := by
  obtain ⟨drawn, rfl, hd⟩ := workConclusions_iff h
  unfold nameCells at hc
  obtain ⟨i, hi, rfl⟩ := List.mem_mapIdx.1 hc
  exact ⟨drawn[i].1, _, (hd _ _).1 (List.getElem_mem hi), rfl⟩

/-! ## the candidates for an answer -/

theorem isTemporal_iff (t : Term) : isTemporalQuestion t = true ↔ IsTemporal t := by
  unfold IsTemporal isTemporalQuestion
  split
  · simp
  · rename_i hn
    constructor
    · intro h; cases h
    · rintro ⟨a, b, rfl⟩; exact absurd rfl (hn a b)

theorem relevantBeliefs_iff (sh : Shared) (q : Task2) (b : Sentence) :
    b ∈ relevantBeliefs sh q ↔ Candidate sh q.sentence.term b := by
  have key : ∀ m : Mem, b ∈ (retUniqueSubterms q.sentence.term).flatMap (fun t => (retBeliefsOfConcept m t).getD []) ↔
      ∃ s, IsSubterm s q.sentence.term ∧ BeliefUnder m s b := by
    intro m
    rw [List.mem_flatMap]
    refine exists_congr fun s => ?_
    rw [mem_retUniqueSubterms]
    refine and_congr_right fun _ => ?_
    unfold BeliefUnder retBeliefsOfConcept
    cases m.get s <;> simp
  unfold relevantBeliefs Candidate
  by_cases h : IsTemporal q.sentence.term
  · simp only [(isTemporal_iff _).2 h, if_true, key, h, true_and, not_true_eq_false, false_and, or_false]
  · have hb : isTemporalQuestion q.sentence.term = false := by
      rw [← Bool.not_eq_true, isTemporal_iff]; exact h
    simp [hb, key, h]

/-! ## attention factors -/

theorem wt {a : Term} {punct : Punct} {tv : Option Tv} {x : Concl1} :
    (infNeg a punct tv = .ok (some x) → 0 ≤ x.2.2.2 ∧ x.2.2.2 ≤ 1) ∧
    (∀ i, infStructSubj1 a punct tv i = .ok (some x) → 0 ≤ x.2.2.2 ∧ x.2.2.2 ≤ 1) ∧
    (∀ i, infStructPred1 a punct tv i = .ok (some x) → 0 ≤ x.2.2.2 ∧ x.2.2.2 ≤ 1) ∧
    (infStructProd0 a punct tv = .ok (some x) → 0 ≤ x.2.2.2 ∧ x.2.2.2 ≤ 1) ∧
    (infStructProd1 a punct tv = .ok (some x) → 0 ≤ x.2.2.2 ∧ x.2.2.2 ≤ 1) ∧
    (infStructImg0 a punct tv = .ok (some x) → 0 ≤ x.2.2.2 ∧ x.2.2.2 ≤ 1) ∧
    (infStructImg1 a punct tv = .ok (some x) → 0 ≤ x.2.2.2 ∧ x.2.2.2 ≤ 1) ∧
    (infStructSetInt a punct tv = .ok (some x) → 0 ≤ x.2.2.2 ∧ x.2.2.2 ≤ 1) ∧
    (infStructSetExt a punct tv = .ok (some x) → 0 ≤ x.2.2.2 ∧ x.2.2.2 ≤ 1) := by
  refine ⟨?_, ?_, ?_, ?_, ?_, ?_, ?_, ?_, ?_⟩ <;> intros <;> rename_i h <;>
    (first
      | unfold infNeg at h | unfold infStructSubj1 at h | unfold infStructPred1 at h | unfold infStructProd0 at h
      | unfold infStructProd1 at h | unfold infStructImg0 at h | unfold infStructImg1 at h | unfold infStructSetInt at h
      | unfold infStructSetExt at h) <;>
    (repeat' (first | split at h | (obtain ⟨_, _, h⟩ := R.bind_ok.1 h))) <;>
    (first | (cases h; done) | (cases h; constructor <;> norm_num))

theorem single_weight {p c : Sentence} {w : Rat} (h : FollowsAlone p c w) : 0 ≤ w ∧ w ≤ 1 := by
  obtain ⟨cs, h, hm⟩ := h
  unfold infSinglePremise2 at h
  obtain ⟨tv, _, h⟩ := R.bind_ok.1 h
  obtain ⟨l, hl, h⟩ := R.bind_ok.1 h
  cases h
  obtain ⟨x, hx, hxe⟩ := List.mem_map.1 hm
  have hw : x.2.2.2 = w := (Prod.mk.inj hxe).2
  rw [← hw]
  unfold infSinglePremise at hl
  obtain ⟨rs, hrs, hl⟩ := R.bind_ok.1 hl
  obtain ⟨par, hpar, hl⟩ := R.bind_ok.1 hl
  cases hl
  rcases List.mem_append.1 hx with hx | hx
  · rw [List.mem_filterMap] at hx
    obtain ⟨o, ho, hox⟩ := hx
    simp only [id] at hox
    subst hox
    obtain ⟨a, ha, e⟩ := forall₂_right_mem (mapM_ok_iff.1 hrs) ho
    simp only [id] at e
    subst e
    obtain ⟨w1, w2, w3, w4, w5, w6, w7, w8, w9⟩ := @wt p.term p.punct tv x
    simp only [List.mem_cons, List.not_mem_nil, or_false] at ha
    rcases ha with ha | ha | ha | ha | ha | ha | ha | ha | ha | ha | ha | ha | ha
    · exact w1 ha.symm
    · exact w2 _ ha.symm
    · exact w2 _ ha.symm
    · exact w2 _ ha.symm
    · exact w3 _ ha.symm
    · exact w3 _ ha.symm
    · exact w3 _ ha.symm
    · exact w4 ha.symm
    · exact w5 ha.symm
    · exact w6 ha.symm
    · exact w7 ha.symm
    · exact w8 ha.symm
    · exact w9 ha.symm
  · unfold infStructDecomposePar at hpar
    split at hpar
    · cases hpar; simp at hx
    · split at hpar
      · obtain ⟨res, hres, hpar⟩ := R.bind_ok.1 hpar
        cases hpar
        simp only [Option.getD_some] at hx
        obtain ⟨a, _, e⟩ := forall₂_right_mem (mapM_ok_iff.1 hres) hx
        obtain ⟨_, _, e⟩ := R.bind_ok.1 e
        cases e
        constructor <;> norm_num
      · cases hpar; simp at hx

theorem follows_weight {p s c : Sentence} {w : Rat} (h : Follows p s c w) : w = 1 := by
  obtain ⟨cs, b, h, hm⟩ := h
  unfold inference at h
  obtain ⟨_, _, h⟩ := R.bind_ok.1 h
  obtain ⟨_, _, h⟩ := R.bind_ok.1 h
  unfold inference2 at h
  obtain ⟨⟨l, were⟩, _, h⟩ := R.bind_ok.1 h
  simp only at h
  split at h
  · cases h; cases hm
  · cases h
    obtain ⟨x, _, hx⟩ := List.mem_map.1 hm
    exact (Prod.mk.inj hx).2.symm

theorem concludes_weight {sh : Shared} {msg : Msg} {c : Sentence} {w : Rat} (h : Concludes sh msg c w) : 0 ≤ w ∧ w ≤ 1 := by
  obtain ⟨p, _, h | ⟨_, _, _, _, h⟩ | ⟨_, _, h⟩⟩ := h
  · exact single_weight h
  · rw [follows_weight h]; constructor <;> norm_num
  · rw [follows_weight h]; constructor <;> norm_num

theorem workConclusions_weight {sh : Shared} {msg : Msg} {concl : List (Sentence × Rat)}
    (h : workConclusions sh msg = .ok concl) {c : Sentence × Rat} (hc : c ∈ concl) : 0 ≤ c.2 ∧ c.2 ≤ 1 := by
  obtain ⟨c0, u, h1, _⟩ := workConclusions_mem h hc
  exact concludes_weight h1

/-! ## histories of the system -/

theorem SysOp.run_more {cfg : Cfg} {s s' : Sys} {op : SysOp} (h : op.run cfg s = .ok s') :
    ∃ ops, moreTasks cfg (s.sh, s.log) ops = .ok (s'.sh, s'.log) ∧
      (op.CreditSane → (∀ t ∈ s.sh.heap, 0 ≤ t.mulCredit) → ∀ o ∈ ops, o.CreditSane) := by
  cases op with
  | input x cc mc now =>
    obtain ⟨sh, h1, h⟩ := R.bind_ok.1 h
    cases h
    refine ⟨[.add x cc mc now], ?_, ?_⟩
    · have : moreTasks cfg (s.sh, s.log) [.add x cc mc now] = .ok (sh, s.log ++ []) :=
        moreTasks_one (by simp only [TaskOp.run]; rw [h1]; rfl)
      simpa using this
    · intro hs _ o ho
      rw [List.mem_singleton] at ho; subst ho; exact hs
  | cycle selVal now =>
    obtain ⟨⟨sh, msg, calls⟩, h1, h⟩ := R.bind_ok.1 h
    cases h
    refine ⟨_, reasonCycle_more s.log h1, ?_⟩
    intro _ _ o ho
    simp only [cycleOps, maintenance] at ho
    split at ho <;> split at ho <;> cases msg <;> simp at ho <;>
      (try rcases ho with rfl | rfl | rfl | rfl | rfl | rfl | rfl | rfl | rfl) <;> simp_all [TaskOp.CreditSane]
  | work =>
    simp only [SysOp.run] at h
    split at h
    · cases h
      exact ⟨[], by simp [moreTasks_nil], by simp⟩
    · obtain ⟨⟨sh, calls⟩, h1, h⟩ := R.bind_ok.1 h
      cases h
      obtain ⟨concl, p, hc, hp, hm⟩ := work_more s.log h1
      refine ⟨_, hm, ?_⟩
      intro _ ht o ho
      simp only [workOps, List.mem_append, List.mem_map] at ho
      rcases ho with ⟨c, _, rfl⟩ | ⟨c, hcm, rfl⟩
      · trivial
      · have hw := (workConclusions_weight hc hcm).1
        exact mul_nonneg (ht p (List.mem_of_getElem? hp)) hw
  | flush =>
    cases h
    refine ⟨[.flush], ?_, by simp [TaskOp.CreditSane]⟩
    have : moreTasks cfg (s.sh, s.log) [.flush] = .ok (flushTasks s.sh, s.log ++ []) := moreTasks_one rfl
    simpa using this
  | newStampId =>
    cases h
    refine ⟨[.newStampId], ?_, by simp [TaskOp.CreditSane]⟩
    have : moreTasks cfg (s.sh, s.log) [.newStampId] = .ok (_, s.log ++ []) := moreTasks_one rfl
    simpa using this
  | procMem m =>
    cases h
    refine ⟨[.procMem m], ?_, by simp [TaskOp.CreditSane]⟩
    have : moreTasks cfg (s.sh, s.log) [.procMem m] = .ok (_, s.log ++ []) := moreTasks_one rfl
    simpa using this

theorem runSys_history {cfg : Cfg} {ops : List SysOp} {s : Sys} (h : runSys cfg ops = .ok s)
    (hs : ∀ op ∈ ops, op.CreditSane) :
    ∃ tops, runTasks cfg tops = .ok (s.sh, s.log) ∧ ∀ o ∈ tops, o.CreditSane := by
  refine foldlM_inv (fun s : Sys => ∃ tops, runTasks cfg tops = .ok (s.sh, s.log) ∧ ∀ o ∈ tops, o.CreditSane) h
    ⟨[], rfl, by simp⟩ ?_
  rintro op hop a b ⟨tops, h1, h2⟩ hrun
  obtain ⟨more, h3, h4⟩ := SysOp.run_more hrun
  refine ⟨tops ++ more, runTasks_more h1 h3, ?_⟩
  intro o ho
  rcases List.mem_append.1 ho with ho | ho
  · exact h2 o ho
  · refine h4 (hs op hop) ?_ o ho
    have := runTasks_inv (fun st => CreditOk st.1) h1 (by simp [CreditOk, createShared])
      (fun op hop sh log sh' calls _ hP hrun => TaskOp.run_credit hrun hP (h2 op hop))
    exact fun t ht => (this.2.1 t ht).2.2

theorem runSys_history' {cfg : Cfg} {ops : List SysOp} {s : Sys} (h : runSys cfg ops = .ok s) :
    ∃ tops, runTasks cfg tops = .ok (s.sh, s.log) := by
  refine foldlM_inv (fun s : Sys => ∃ tops, runTasks cfg tops = .ok (s.sh, s.log)) h ⟨[], rfl⟩ ?_
  rintro op hop a b ⟨tops, h1⟩ hrun
  obtain ⟨more, h3, _⟩ := SysOp.run_more hrun
  exact ⟨tops ++ more, runTasks_more h1 h3⟩

end Nar
