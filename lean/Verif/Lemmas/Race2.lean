import Verif.Lemmas.Race
/-! # Every action keeps the invariant of simultaneous additions; an addition which is not disturbed -/
namespace Nar
open Term

theorem makeTask_cases {sh : Shared} {cc : Bool} {mc : Rat} {s : Sentence} {r : Shared × Option Task}
    (h : makeTask sh cc mc s = .ok r) : r = (sh, none) ∨
      ∃ task, r = ({ sh with taskIdCounter := sh.taskIdCounter + 1 }, some task) ∧ task.id = sh.taskIdCounter ∧
        task.sentence.term = s.term := by
  obtain ⟨tasks, _, h⟩ := R.bind_ok.1 h
  split at h
  · cases h; exact .inl rfl
  · obtain ⟨task, htask, h⟩ := R.bind_ok.1 h
    cases h
    have := core_eq_iff.1 (payCredit_core htask)
    exact .inr ⟨task, rfl, this.1, this.2.1⟩

theorem Race.put_put (st : Race) (sh sh' : Shared) (k : Nat) (a : Option Adding) :
    ({ st with sh := sh' } : Race).put sh k a = st.put sh k a := rfl

theorem RaceInv.step {cfg : Cfg} {st : Race} (h : RaceInv cfg st) {k : Nat} {a : Adding} (ha : st.adding k = some a)
    {r : Shared × Option Adding} (hr : a.step cfg st.sh = .ok r) : RaceInv cfg (st.put r.1 k r.2) := by
  have hsents := h.sents k a ha
  unfold Adding.step at hr
  split at hr
  · rename_i t ts res hst
    obtain ⟨x, hx, hr⟩ := R.bind_ok.1 hr
    cases hr
    have h1 : RaceInv cfg { st with sh := { st.sh with mem := x.1 } } := h.frame rfl rfl rfl rfl
    obtain ⟨hc, hsame⟩ := h.same k a _ _ ha hst
    have hres := reviseAt_result hx hsame
    refine h1.goOn k _ ?_ ?_ ?_ ?_ ?_
    · intro b r term todo hb hst'
      rw [show st.adding k = some a from ha] at hb; cases hb; rw [hst] at hst'; cases hst'
    · intro b hb; cases hb
      intro s hs
      simp only [Adding.sents, List.mem_cons, Option.mem_toList] at hs
      rcases hs with rfl | hs
      · exact hc
      · rw [hres s hs]; exact hc
    · intro b ts res hb hst'
      cases hb; cases hst'
      exact ⟨hc, hres⟩
    · intro b task term todo hb hst'; cases hb; cases hst'
    · intro b r term todo hb hst'; cases hb; cases hst'
  · rename_i r hst
    cases hr
    refine h.goOn k _ ?_ ?_ ?_ ?_ ?_
    · intro b r term todo hb hst'
      rw [ha] at hb; cases hb; rw [hst] at hst'; cases hst'
    · intro b hb; cases hb
      intro s hs
      simp only [Adding.sents] at hs hsents
      rw [hst] at hsents
      exact hsents s (by simpa using hs)
    · intro b ts res hb hst'; cases hb; cases hst'
    · intro b task term todo hb hst'; cases hb; cases hst'
    · intro b r term todo hb hst'; cases hb; cases hst'
  · rename_i hst
    obtain ⟨m, hm, hr⟩ := R.bind_ok.1 hr
    cases hr
    have h1 : RaceInv cfg { st with sh := { st.sh with mem := m } } := h.frame rfl rfl rfl rfl
    refine h1.goOn k _ ?_ ?_ ?_ ?_ ?_
    · intro b r term todo hb hst'
      rw [show st.adding k = some a from ha] at hb; cases hb; rw [hst] at hst'; cases hst'
    · intro b hb; cases hb
      intro s hs
      simp only [Adding.sents] at hs hsents
      rw [hst] at hsents
      exact hsents s (by simpa using hs)
    · intro b ts res hb hst'; cases hb; cases hst'
    · intro b task term todo hb hst'; cases hb; cases hst'
    · intro b r term todo hb hst'; cases hb; cases hst'
  · rename_i hst
    cases hr
    refine h.goOn k none ?_ ?_ ?_ ?_ ?_
    · intro b r term todo hb hst'
      rw [ha] at hb; cases hb; rw [hst] at hst'; cases hst'
    all_goals intro b; intros; contradiction
  · rename_i s todo hst
    have hfile : ∀ r term todo, a.stage ≠ .file r term todo := by
      intro r term todo hst'; rw [hst] at hst'; cases hst'
    have hsents' : ∀ x ∈ s :: todo, (calcComplexity x.term : Int) ≤ cfg.maxComplexity := by
      simp only [Adding.sents] at hsents
      rw [hst] at hsents; exact hsents
    split at hr
    · obtain ⟨x, hx, hr⟩ := R.bind_ok.1 hr
      cases hr
      rcases makeTask_cases hx with rfl | ⟨task, rfl, hid, hsen⟩
      · refine h.goOn k none ?_ ?_ ?_ ?_ ?_
        · intro b r term todo hb
          rw [ha] at hb; cases hb; exact hfile r term todo
        all_goals intro b; intros; contradiction
      · refine h.make k a _ task todo ha hfile ?_ hid ?_ ?_
        · simp only; rw [hsen]
        · rw [hsen]; exact hsents' s (by simp)
        · exact fun x hx => hsents' x (by simp [hx])
    · cases hr
      have h1 : RaceInv cfg { st with sh := { st.sh with questionTasks := st.sh.questionTasks ++
            [{ sentence := shallowCopySentence s, handler := false, bestAnswerExp := 0, prio := 1 }] } } := h.frame rfl rfl rfl rfl
      refine h1.goOn k _ ?_ ?_ ?_ ?_ ?_
      · intro b r term todo hb
        rw [show st.adding k = some a from ha] at hb; cases hb; exact hfile r term todo
      · intro b hb; cases hb
        intro x hx
        exact hsents' x (by simp only [Adding.sents] at hx; simp [hx])
      · intro b ts res hb hst'; cases hb; cases hst'
      · intro b task term todo hb hst'; cases hb; cases hst'
      · intro b r term todo hb hst'; cases hb; cases hst'
    · cases hr
      refine h.goOn k _ ?_ ?_ ?_ ?_ ?_
      · intro b r term todo hb
        rw [ha] at hb; cases hb; exact hfile r term todo
      · intro b hb; cases hb
        intro x hx
        exact hsents' x (by simp only [Adding.sents] at hx; simp [hx])
      · intro b ts res hb hst'; cases hb; cases hst'
      · intro b task term todo hb hst'; cases hb; cases hst'
      · intro b r term todo hb hst'; cases hb; cases hst'
  · rename_i task term todo hst
    cases hr
    exact h.push k a _ task term todo ha hst rfl
  · rename_i r term todo hst
    cases hr
    exact h.file k a _ r term todo ha hst rfl

theorem RaceInv.begin {cfg : Cfg} {st : Race} (h : RaceInv cfg st) {k : Nat} (ha : st.adding k = none) (s : Sentence) (cc : Bool)
    (mc : Rat) (now : Int) : RaceInv cfg (st.put st.sh k (beginAdding cfg s cc mc now)) := by
  have hb : ∀ a, beginAdding cfg s cc mc now = some a → (calcComplexity s.term : Int) ≤ cfg.maxComplexity ∧
      a = { sentence := s, calcCredit := cc, mulCredit := mc, now := now,
            stage := .revise (if s.punct = .JUGEMENT then retSubterms s.term else []) none } := by
    intro a h
    unfold beginAdding at h
    split at h
    · cases h
    · cases h; exact ⟨by omega, rfl⟩
  refine h.goOn k _ ?_ ?_ ?_ ?_ ?_
  · intro a r term todo h; rw [ha] at h; cases h
  · intro a h s' hs'
    obtain ⟨h1, rfl⟩ := hb a h
    simp only [Adding.sents, Option.toList_none, List.mem_singleton] at hs'
    subst hs'; exact h1
  · intro a ts res h hst
    obtain ⟨h1, rfl⟩ := hb a h
    cases hst
    exact ⟨h1, nofun⟩
  · intro a task term todo h hst
    obtain ⟨h1, rfl⟩ := hb a h
    cases hst
  · intro a task term todo h hst
    obtain ⟨h1, rfl⟩ := hb a h
    cases hst

/-! ## An addition which is not disturbed -/

/-- the next `n` sections of thread `k` -/
def solo (k n : Nat) : List RaceOp := List.replicate n (.next k)

theorem moreRace_append (cfg : Cfg) (st : Race) (a b : List RaceOp) :
    moreRace cfg st (a ++ b) = (moreRace cfg st a).bind fun st => moreRace cfg st b := by
  unfold moreRace; rw [List.foldlM_append]; rfl

theorem moreRace_cons (cfg : Cfg) (st : Race) (op : RaceOp) (b : List RaceOp) :
    moreRace cfg st (op :: b) = (op.run cfg st).bind fun st => moreRace cfg st b := rfl

theorem next_of {cfg : Cfg} {st : Race} {k : Nat} {a : Adding} (ha : st.adding k = some a) :
    (RaceOp.next k).run cfg st = (a.step cfg st.sh).bind fun r => .ok (st.put r.1 k r.2) := by
  simp only [RaceOp.run, ha]; rfl

/-- after one section, another `n` -/
theorem solo_step {cfg : Cfg} {st : Race} {k n : Nat} {a : Adding} (ha : st.adding k = some a) :
    moreRace cfg st (solo k (n + 1)) = (a.step cfg st.sh).bind fun r => moreRace cfg (st.put r.1 k r.2) (solo k n) := by
  rw [show solo k (n + 1) = .next k :: solo k n from rfl, moreRace_cons, next_of ha]
  cases a.step cfg st.sh <;> rfl

theorem put_twice (st : Race) (sh sh' : Shared) (k : Nat) (a b : Option Adding) :
    (st.put sh k a).put sh' k b = st.put sh' k b := by
  unfold Race.put
  simp only [Race.mk.injEq, true_and]
  funext j; split <;> simp_all

theorem solo_idle {cfg : Cfg} {st : Race} {k : Nat} (h : st.adding k = none) (n : Nat) :
    moreRace cfg st (solo k n) = .ok st := by
  induction n with
  | zero => rfl
  | succ n ih =>
    rw [show solo k (n + 1) = .next k :: solo k n from rfl, moreRace_cons]
    simp only [RaceOp.run, h]
    exact ih

/-- entering the tasks -/
theorem solo_each {cfg : Cfg} (k : Nat) (ss : List Sentence) : ∀ (st : Race) (a : Adding), st.adding k = some a → a.stage = .each ss →
    ∃ n, moreRace cfg st (solo k n) = (addTasks st.sh a.calcCredit a.mulCredit ss).map fun sh => st.put sh k none := by
  induction ss with
  | nil =>
    intro st a ha hst
    refine ⟨1, ?_⟩
    rw [solo_step ha]
    have : a.step cfg st.sh = .ok (st.sh, none) := by unfold Adding.step; rw [hst]
    rw [this]; rfl
  | cons s ss ih =>
    intro st a ha hst
    unfold addTasks
    cases hp : s.punct with
    | GOAL =>
      obtain ⟨n, hn⟩ := ih (st.put st.sh k (some { a with stage := .each ss })) _ (Race.put_self ..) rfl
      refine ⟨n + 1, ?_⟩
      rw [solo_step ha]
      have : a.step cfg st.sh = .ok (st.sh, some { a with stage := .each ss }) := by
        unfold Adding.step; simp only [hst, hp]
      rw [this]
      simp only [put_twice] at hn
      exact hn
    | QUESTION =>
      obtain ⟨n, hn⟩ := ih (st.put { st.sh with questionTasks := st.sh.questionTasks ++
            [{ sentence := shallowCopySentence s, handler := false, bestAnswerExp := 0, prio := 1 }] } k
              (some { a with stage := .each ss })) _ (Race.put_self ..) rfl
      refine ⟨n + 1, ?_⟩
      rw [solo_step ha]
      have : a.step cfg st.sh = .ok ({ st.sh with questionTasks := st.sh.questionTasks ++
            [{ sentence := shallowCopySentence s, handler := false, bestAnswerExp := 0, prio := 1 }] },
              some { a with stage := .each ss }) := by
        unfold Adding.step; simp only [hst, hp]
      rw [this]
      simp only [put_twice] at hn
      exact hn
    | JUGEMENT =>
      have hstep : a.step cfg st.sh = (makeTask st.sh a.calcCredit a.mulCredit s).bind fun x =>
          .ok (x.1, x.2.map fun task => { a with stage := .push task s.term ss }) := by
        unfold Adding.step; simp only [hst, hp]; rfl
      simp only
      cases hd : st.sh.derefs st.sh.judgementTasks with
      | error e =>
        refine ⟨1, ?_⟩
        rw [solo_step ha, hstep]
        unfold makeTask; rw [hd]; rfl
      | ok tasks =>
        by_cases hex : taskExists tasks s = true
        · refine ⟨1, ?_⟩
          rw [solo_step ha, hstep]
          have hm : makeTask st.sh a.calcCredit a.mulCredit s = .ok (st.sh, none) := by
            unfold makeTask; rw [hd]; exact if_pos hex
          rw [hm]
          have he : (do let tasks ← (Except.ok tasks : R (List Task)); if taskExists tasks s = true then Except.ok st.sh else do
              let task : Task := { sentence := shallowCopySentence s, credit := 1, qaCredit := 0,
                                   mulCredit := a.mulCredit, id := st.sh.taskIdCounter, derivTime := st.sh.cycleCounter }
              let task ← payCredit a.calcCredit task
              let r := st.sh.heap.length
              addTasks { st.sh with
                  taskIdCounter := st.sh.taskIdCounter + 1
                  heap := st.sh.heap ++ [task]
                  judgementTasks := st.sh.judgementTasks ++ [r]
                  judgementTasksByTerm := populateTaskByTermLookup st.sh.judgementTasksByTerm s.term r }
                a.calcCredit a.mulCredit ss : R Shared) = .ok st.sh := if_pos hex
          rw [he]; rfl
        · let task0 : Task := { sentence := shallowCopySentence s, credit := 1, qaCredit := 0,
                                   mulCredit := a.mulCredit, id := st.sh.taskIdCounter, derivTime := st.sh.cycleCounter }
          have he : (do let tasks ← (Except.ok tasks : R (List Task)); if taskExists tasks s = true then Except.ok st.sh else do
              let task : Task := { sentence := shallowCopySentence s, credit := 1, qaCredit := 0,
                                   mulCredit := a.mulCredit, id := st.sh.taskIdCounter, derivTime := st.sh.cycleCounter }
              let task ← payCredit a.calcCredit task
              let r := st.sh.heap.length
              addTasks { st.sh with
                  taskIdCounter := st.sh.taskIdCounter + 1
                  heap := st.sh.heap ++ [task]
                  judgementTasks := st.sh.judgementTasks ++ [r]
                  judgementTasksByTerm := populateTaskByTermLookup st.sh.judgementTasksByTerm s.term r }
                a.calcCredit a.mulCredit ss : R Shared) = (payCredit a.calcCredit task0).bind fun task =>
              addTasks { st.sh with
                  taskIdCounter := st.sh.taskIdCounter + 1
                  heap := st.sh.heap ++ [task]
                  judgementTasks := st.sh.judgementTasks ++ [st.sh.heap.length]
                  judgementTasksByTerm := populateTaskByTermLookup st.sh.judgementTasksByTerm s.term st.sh.heap.length }
                a.calcCredit a.mulCredit ss := if_neg hex
          rw [he]
          have hm : makeTask st.sh a.calcCredit a.mulCredit s = (payCredit a.calcCredit task0).bind fun task =>
              .ok ({ st.sh with taskIdCounter := st.sh.taskIdCounter + 1 }, some task) := by
            unfold makeTask; rw [hd]; exact if_neg hex
          cases hpay : payCredit a.calcCredit task0 with
          | error e =>
            refine ⟨1, ?_⟩
            rw [solo_step ha, hstep, hm, hpay]; rfl
          | ok task =>
            rw [hpay] at hm
            obtain ⟨n, hn⟩ := ih (st.put { st.sh with
                  taskIdCounter := st.sh.taskIdCounter + 1
                  heap := st.sh.heap ++ [task]
                  judgementTasks := st.sh.judgementTasks ++ [st.sh.heap.length]
                  judgementTasksByTerm := populateTaskByTermLookup st.sh.judgementTasksByTerm s.term st.sh.heap.length }
                    k (some { a with stage := .each ss })) _ (Race.put_self ..) rfl
            simp only [put_twice] at hn
            refine ⟨n + 3, ?_⟩
            rw [solo_step ha, hstep, hm]
            simp only [Except.bind, Option.map_some]
            rw [solo_step (Race.put_self ..)]
            simp only [Adding.step, Race.put_sh, Except.bind]
            rw [solo_step (Race.put_self ..)]
            simp only [Adding.step, Race.put_sh, Except.bind, put_twice]
            exact hn

/-- revising the concepts -/
theorem solo_revise {cfg : Cfg} (k : Nat) (ts : List Term) : ∀ (st : Race) (a : Adding) (res : Option Sentence),
    st.adding k = some a → a.stage = .revise ts res →
    ∃ n, moreRace cfg st (solo k n) = (ts.foldlM (reviseAt a.sentence) (st.sh.mem, res) >>= fun (x : Mem × Option Sentence) =>
      (match x.2 with
        | some r => (.ok (x.1, some r) : R (Mem × Option Sentence))
        | none => do
          let m ← storeInConcepts x.1 a.sentence cfg.nBeliefs a.now
          .ok (m, none)) >>= fun (y : Mem × Option Sentence) =>
      (addTasks { st.sh with mem := y.1 } a.calcCredit a.mulCredit (a.sentence :: y.2.toList)).map fun sh => st.put sh k none) := by
  induction ts with
  | nil =>
    intro st a res ha hst
    cases res with
    | some r =>
      obtain ⟨n, hn⟩ := solo_each (cfg := cfg) k [a.sentence, r] (st.put st.sh k (some { a with stage := .each [a.sentence, r] })) _
        (Race.put_self ..) rfl
      simp only [put_twice] at hn
      refine ⟨n + 1, ?_⟩
      rw [solo_step ha]
      have : a.step cfg st.sh = .ok (st.sh, some { a with stage := .each [a.sentence, r] }) := by
        unfold Adding.step; simp only [hst]
      rw [this]
      exact hn
    | none =>
      have hstep : a.step cfg st.sh = (storeInConcepts st.sh.mem a.sentence cfg.nBeliefs a.now).bind fun m =>
          .ok ({ st.sh with mem := m }, some { a with stage := .each [a.sentence] }) := by
        unfold Adding.step; simp only [hst]; rfl
      cases hm : storeInConcepts st.sh.mem a.sentence cfg.nBeliefs a.now with
      | error e =>
        refine ⟨1, ?_⟩
        rw [solo_step ha, hstep, hm]
        simp only [List.foldlM_nil, pure_bind]
        rw [hm]; rfl
      | ok m =>
        obtain ⟨n, hn⟩ := solo_each (cfg := cfg) k [a.sentence] (st.put { st.sh with mem := m } k (some { a with stage := .each [a.sentence] })) _
          (Race.put_self ..) rfl
        simp only [put_twice] at hn
        refine ⟨n + 1, ?_⟩
        rw [solo_step ha, hstep, hm]
        simp only [List.foldlM_nil, pure_bind]
        rw [hm]
        exact hn
  | cons t ts ih =>
    intro st a res ha hst
    have hstep : a.step cfg st.sh = (reviseAt a.sentence (st.sh.mem, res) t).bind fun x =>
        .ok ({ st.sh with mem := x.1 }, some { a with stage := .revise ts x.2 }) := by
      unfold Adding.step; simp only [hst]; rfl
    rw [List.foldlM_cons]
    cases hx : reviseAt a.sentence (st.sh.mem, res) t with
    | error e =>
      refine ⟨1, ?_⟩
      rw [solo_step ha, hstep, hx]; rfl
    | ok x =>
      obtain ⟨n, hn⟩ := ih (st.put { st.sh with mem := x.1 } k (some { a with stage := .revise ts x.2 })) _ x.2 (Race.put_self ..) rfl
      simp only [put_twice] at hn
      refine ⟨n + 1, ?_⟩
      rw [solo_step ha, hstep, hx]
      exact hn

/-- an addition whose sections follow each other is `memAddTask` -/
theorem solo_add {cfg : Cfg} {st : Race} {k : Nat} (h : st.adding k = none) (s : Sentence) (cc : Bool) (mc : Rat) (now : Int) :
    ∃ n, moreRace cfg st (.begin k s cc mc now :: solo k n) = (memAddTask cfg st.sh s cc mc now).map fun sh => st.put sh k none := by
  simp only [show ∀ n, moreRace cfg st (.begin k s cc mc now :: solo k n) =
    moreRace cfg (st.put st.sh k (beginAdding cfg s cc mc now)) (solo k n) by intro n; rw [moreRace_cons]; simp only [RaceOp.run, h]; rfl]
  by_cases hc : (calcComplexity s.term : Int) > cfg.maxComplexity
  · refine ⟨0, ?_⟩
    unfold memAddTask beginAdding
    rw [if_pos hc, if_pos hc]; rfl
  · let a0 : Adding := { sentence := s, calcCredit := cc, mulCredit := mc, now := now,
                         stage := .revise (if s.punct = .JUGEMENT then retSubterms s.term else []) none }
    have hb : beginAdding cfg s cc mc now = some a0 := if_neg hc
    obtain ⟨n, hn⟩ := solo_revise (cfg := cfg) k (if s.punct = .JUGEMENT then retSubterms s.term else [])
      (st.put st.sh k (beginAdding cfg s cc mc now)) _ none (by rw [Race.put_self, hb]) rfl
    refine ⟨n, hn.trans ?_⟩
    simp only [put_twice, Race.put_sh]
    have hadd : memAddTask cfg st.sh s cc mc now = addBelief st.sh.mem s cfg.nBeliefs now >>= fun x =>
        addTasks { st.sh with mem := x.1 } cc mc (s :: x.2.toList) := if_neg hc
    rw [hadd]
    have hrev : memReviseBelief st.sh.mem s =
        (if s.punct = .JUGEMENT then retSubterms s.term else []).foldlM (reviseAt s) (st.sh.mem, none) := by
      unfold memReviseBelief
      by_cases hp : s.punct = .JUGEMENT
      · rw [if_neg (by simp [hp]), if_pos hp]
      · rw [if_pos hp, if_neg hp]; rfl
    unfold addBelief
    rw [hrev]
    generalize List.foldlM (m := R) (reviseAt s) (st.sh.mem, none) _ = r
    cases r with
    | error e => rfl
    | ok x =>
      obtain ⟨m, res⟩ := x
      cases res with
      | some r => rfl
      | none =>
        simp only [a0, bind, Except.bind]
        cases storeInConcepts m s cfg.nBeliefs now <;> rfl

/-! ## All actions -/

theorem moreRace_inv {cfg : Cfg} (P : Race → Prop) {st st' : Race} {ops : List RaceOp} (h : moreRace cfg st ops = .ok st')
    (h0 : P st) (hs : ∀ op ∈ ops, ∀ a b, P a → op.run cfg a = .ok b → P b) : P st' :=
  foldlM_inv P h h0 (fun op hop a b ha hb => hs op hop a b ha hb)

theorem RaceInv.begin' {cfg : Cfg} {st st' : Race} (h : RaceInv cfg st) {k : Nat} {s : Sentence} {cc : Bool}
    {mc : Rat} {now : Int} (hr : (RaceOp.begin k s cc mc now).run cfg st = .ok st') : RaceInv cfg st' := by
  simp only [RaceOp.run] at hr
  split at hr
  · rename_i hk; cases hr; exact h.begin hk s cc mc now
  · cases hr; exact h

theorem RaceInv.next {cfg : Cfg} {st st' : Race} (h : RaceInv cfg st) {k : Nat}
    (hr : (RaceOp.next k).run cfg st = .ok st') : RaceInv cfg st' := by
  simp only [RaceOp.run] at hr
  split at hr
  · cases hr; exact h
  · rename_i a ha
    obtain ⟨x, hx, hr⟩ := R.bind_ok.1 hr
    cases hr; exact h.step ha hx

theorem put_idle {st : Race} {k : Nat} (h : st.adding k = none) (sh : Shared) : st.put sh k none = { st with sh := sh } := by
  unfold Race.put
  simp only [Race.mk.injEq, true_and]
  funext j; split
  · rename_i hj; rw [hj, h]
  · rfl

/-- an addition in one go -/
theorem RaceInv.add {cfg : Cfg} {st : Race} (h : RaceInv cfg st) {s : Sentence} {cc : Bool} {mc : Rat} {now : Int} {sh' : Shared}
    (hr : memAddTask cfg st.sh s cc mc now = .ok sh') : RaceInv cfg { st with sh := sh' } := by
  obtain ⟨N, hN⟩ := h.idle
  have hk := hN N (le_refl N)
  obtain ⟨n, hn⟩ := solo_add (cfg := cfg) hk s cc mc now
  rw [hr] at hn
  rw [← put_idle hk]
  refine moreRace_inv (RaceInv cfg) hn h ?_
  intro op hop a b ha hb
  rcases List.mem_cons.1 hop with rfl | hop
  · exact ha.begin' hb
  · rw [List.eq_of_mem_replicate hop] at hb
    exact ha.next hb

theorem RaceInv.other {cfg : Cfg} {st : Race} (h : RaceInv cfg st) {op : TaskOp} {r : Shared × List AnswerCall}
    (hr : op.run cfg st.sh = .ok r) : RaceInv cfg { st with sh := r.1 } := by
  have hsame : ∀ sh', SameBut st.sh sh' → RaceInv cfg { st with sh := sh' } :=
    fun sh' hs => h.frame hs.1 hs.2.1 hs.2.2.1 hs.2.2.2.1
  cases op with
  | add s cc mc now =>
    obtain ⟨sh', h1, rfl⟩ := R.map_ok.1 hr
    exact h.add h1
  | tick => cases hr; exact h.frame rfl rfl rfl rfl
  | creditQuestions => cases hr; exact hsame _ (creditQuestions_same st.sh)
  | baseCredit =>
    obtain ⟨sh', h1, rfl⟩ := R.map_ok.1 hr
    exact hsame _ (baseCredit_same h1)
  | answer v =>
    obtain ⟨qs, hq⟩ := answerSampled_frame hr
    rw [hq]; exact h.frame rfl rfl rfl rfl
  | offer c =>
    obtain ⟨qs, hq⟩ := offerConclusion_frame hr
    rw [hq]; exact h.frame rfl rfl rfl rfl
  | select =>
    obtain ⟨r', h1, rfl⟩ := R.map_ok.1 hr
    rcases selectPrimary_cases h1 with ⟨_, rfl⟩ | ⟨tasks, p, _, hp, rfl⟩
    · exact h
    · have hlt : taskSelByCreditTop cfg.decay tasks st.sh.cycleCounter < st.sh.judgementTasks.length := by
        by_contra hge
        rw [List.getElem?_eq_none (by omega)] at hp; cases hp
      have hperm := swapRemove_perm st.sh.judgementTasks _ hlt
      have hp2 := List.getElem_cons_eraseIdx_perm hlt
      refine h.shrink
        (swapRemove st.sh.judgementTasks (taskSelByCreditTop cfg.decay tasks st.sh.cycleCounter) ++
          [st.sh.judgementTasks[taskSelByCreditTop cfg.decay tasks st.sh.cycleCounter]]) _ ?_ ?_
      · exact (List.perm_append_singleton _ _).trans ((hperm.cons _).trans hp2)
      · exact List.sublist_append_left _ _
  | usage msg now =>
    cases hr
    have hs := updateUsage_same st.sh msg now
    exact h.frame hs.core hs.working hs.byTerm hs.counter
  | cleanup =>
    obtain ⟨sh', h1, rfl⟩ := R.map_ok.1 hr
    obtain ⟨sorted, hp, _, _, rfl⟩ := cleanupTasks_spec h1
    exact h.shrink (sorted.map (·.2)) _ hp ((List.filter_sublist.trans (List.take_sublist _ _)).map _)
  | rebuild =>
    obtain ⟨sh', h1, rfl⟩ := R.map_ok.1 hr
    obtain ⟨m, rfl, k1, k2, k3⟩ := rebuildLookup_facts h1
    exact { h with sound := k2, keys := k1, complete := fun r hr t ht => .inl (k3 r hr t ht) }
  | forget n =>
    obtain ⟨m, h1, rfl⟩ := R.map_ok.1 hr
    exact h.frame rfl rfl rfl rfl
  | flush =>
    cases hr
    exact { h with valid := nofun, nodup := List.nodup_nil, sound := nofun, complete := nofun, keys := List.nodup_nil }
  | newStampId => cases hr; exact h.frame rfl rfl rfl rfl
  | procMem m => cases hr; exact h.frame rfl rfl rfl rfl

theorem RaceInv.run {cfg : Cfg} {st st' : Race} (h : RaceInv cfg st) {op : RaceOp} (hr : op.run cfg st = .ok st') : RaceInv cfg st' := by
  cases op with
  | begin k s cc mc now => exact h.begin' hr
  | next k => exact h.next hr
  | other op =>
    obtain ⟨r, h1, hr⟩ := R.bind_ok.1 hr
    cases hr
    exact h.other h1

theorem RaceInv.start (cfg : Cfg) : RaceInv cfg ⟨createShared, fun _ => none⟩ := by
  constructor <;> simp [createShared]

theorem runRace_inv {cfg : Cfg} {st : Race} {ops : List RaceOp} (h : runRace cfg ops = .ok st) : RaceInv cfg st :=
  moreRace_inv (RaceInv cfg) h (RaceInv.start cfg) (fun _ _ _ _ ha hb => ha.run hb)

end Nar
