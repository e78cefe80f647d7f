import Verif.Lemmas.Longago2
/-! # Helper lemmas: the continuation of a course -/
namespace Nar
open Term

theorem moreSys_join {cfg : Cfg} {s s1 s2 : Sys} {a b : List SysOp} (h1 : moreSys cfg s a = .ok s1) (h2 : moreSys cfg s1 b = .ok s2) :
    moreSys cfg s (a ++ b) = .ok s2 := by
  unfold moreSys at *
  rw [List.foldlM_append, h1]
  exact h2

theorem numberedIn_terms (as : List Lecture) : ∀ n m, (numberedIn n as).map (·.2.1) = (numberedIn m as).map (·.2.1) := by
  induction as with
  | nil => intro n m; rfl
  | cons a as ih =>
    intro n m
    cases a with
    | tell st => simp only [numberedIn, List.map_cons]; rw [ih (n + 1) (m + 1)]
    | ask q => exact ih _ _
    | cycle v => exact ih _ _
    | work => exact ih _ _

theorem toldTerms_append (as bs : List Lecture) : toldTerms (as ++ bs) = toldTerms as ++ toldTerms bs := by
  unfold toldTerms
  rw [numberedIn_append, List.map_append, numberedIn_terms bs (0 + inputsIn as) 0]

theorem counter_step {cfg : Cfg} {s s' : Sys} {op : SysOp} (h : op.run cfg s = .ok s') (hi : Inv cfg s.sh) :
    s'.sh.cycleCounter = s.sh.cycleCounter + cyclesIn [op] := by
  cases op with
  | input x cc mc now =>
    obtain ⟨sh1, h1, h⟩ := R.bind_ok.1 h
    cases h
    simpa [cyclesIn] using memAddTask_clock h1
  | cycle v now =>
    obtain ⟨⟨sh1, msg, calls⟩, h1, h⟩ := R.bind_ok.1 h
    cases h
    simpa [cyclesIn] using (reasonCycle_taken h1 hi).2.2.1
  | work =>
    simp only [SysOp.run] at h
    cases hq : s.queue with
    | nil =>
      rw [hq] at h
      rw [← Except.ok.inj h]
      simp [cyclesIn]
    | cons m rest =>
      rw [hq] at h
      simp only at h
      obtain ⟨⟨sh1, calls⟩, h1, h⟩ := R.bind_ok.1 h
      rw [← Except.ok.inj h]
      simpa [cyclesIn] using (work_grown h1).clock
  | flush => cases Except.ok.inj h; simp [cyclesIn, flushTasks]
  | newStampId => cases Except.ok.inj h; simp [cyclesIn]
  | procMem m => cases Except.ok.inj h; simp [cyclesIn]

theorem counter_more {cfg : Cfg} {ops : List SysOp} : ∀ {s s' : Sys}, moreSys cfg s ops = .ok s' → Inv cfg s.sh →
    s'.sh.cycleCounter = s.sh.cycleCounter + cyclesIn ops := by
  induction ops with
  | nil => intro s s' h _; cases h; simp [cyclesIn]
  | cons op ops ih =>
    intro s s' h hi
    obtain ⟨s1, h1, h2⟩ := foldlM_cons_ok.1 h
    have := cyclesIn_append [op] ops
    rw [show [op] ++ ops = op :: ops from rfl] at this
    have k1 := counter_step h1 hi
    have k2 := ih h2 ((SysOp.run_kept h1).inv hi)
    omega

/-- the part of a course after some point, for the declarative system -/
structure Onward (env : Env) (r r' : Reasoner) (bs : List Lecture) (ops : List SysOp) : Prop where
  run : moreSys (r.cfg env) r.sys ops = .ok r'.sys
  cfg : r'.cfg env = r.cfg env
  cycles : cyclesIn ops = cyclesOf bs
  sane : ∀ op ∈ ops, op.Sane
  told : ∀ s, PutIn ops s → s.punct = .JUGEMENT → s.term ∈ toldTerms bs

theorem course_onward {env : Env} {k : Nat} {as : List Lecture} {r1 : Reasoner} (h1 : runNar env (course k as) = .ok r1) : ∀ {bs : List Lecture} {r2 : Reasoner},
    (∀ a ∈ as ++ bs, a.Fine) → runNar env (course k (as ++ bs)) = .ok r2 → ∃ ops, Onward env r1 r2 bs ops := by
  intro bs
  induction bs using List.reverseRecOn with
  | nil =>
    intro r2 hf h2
    rw [List.append_nil] at h2
    cases Except.ok.inj (h1.symm.trans h2)
    exact ⟨[], rfl, rfl, rfl, by simp, by rintro s ⟨_, _, _, h⟩; cases h⟩
  | append_singleton bs a ih =>
    intro r2 hf h2
    have h' : moreNar env createNar (course k (as ++ bs) ++ [a.op]) = .ok r2 := by
      have : course k (as ++ (bs ++ [a])) = course k (as ++ bs) ++ [a.op] := by simp [course]
      rw [← this]; exact h2
    obtain ⟨r0, g1, g2⟩ := moreNar_append.1 h'
    obtain ⟨r3, h3, g3⟩ := foldlM_cons_ok.1 g2
    cases g3
    have hf0 : ∀ a ∈ as ++ bs, a.Fine := fun x hx => hf x (by
      rcases List.mem_append.1 hx with hx | hx
      · exact List.mem_append_left _ hx
      · exact List.mem_append_right _ (List.mem_append_left _ hx))
    obtain ⟨ops, o⟩ := ih hf0 g1
    obtain ⟨_, _, _, hcount, hsafe, halive⟩ := course_sim hf0 g1
    have hfa : a.Fine := hf a (by simp)
    clear ih h2 h' g2
    have join : ∀ (more : List SysOp), moreSys (r0.cfg env) r0.sys more = .ok r2.sys → r2.cfg env = r0.cfg env → cyclesIn more = cyclesOf [a] →
        (∀ op ∈ more, op.Sane) → (∀ s, PutIn more s → s.punct = .JUGEMENT → s.term ∈ toldTerms [a]) → ∃ ops, Onward env r1 r2 (bs ++ [a]) ops := by
      intro more m1 m2 m3 m4 m5
      refine ⟨ops ++ more, moreSys_join o.run (by rw [← o.cfg]; exact m1), m2.trans o.cfg, by rw [cyclesIn_append, cyclesOf_append, o.cycles, m3],
        fun op hop => (List.mem_append.1 hop).elim (o.sane op) (m4 op), fun s hs hj => ?_⟩
      rw [toldTerms_append]
      rcases putIn_append.1 hs with hs | hs
      · exact List.mem_append_left _ (o.told s hs hj)
      · exact List.mem_append_right _ (m5 s hs hj)
    cases a with
    | tell st =>
      obtain ⟨sh', k1, rfl⟩ := inputT2_statement (hfa.2.1 rfl rfl).1 h3
      refine join [.newStampId, .input (newEternalSentenceByTv st.1 .JUGEMENT st.2 ⟨[r0.sh.stampIdCounter]⟩) true 1 r0.proc.t]
        (foldlM_cons_ok.2 ⟨_, rfl, foldlM_cons_ok.2 ⟨_, R.bind_ok.2 ⟨sh', k1, rfl⟩, rfl⟩⟩) rfl rfl ?_ ?_
      · intro op hop
        simp only [List.mem_cons, List.not_mem_nil, or_false] at hop
        rcases hop with rfl | rfl
        · exact trivial
        · exact fun _ => ⟨st.2, rfl, (hfa.2.1 rfl rfl).2⟩
      · rintro s ⟨cc, mc, n, hm⟩ _
        simp only [List.mem_cons, List.not_mem_nil, or_false, reduceCtorEq, false_or, SysOp.input.injEq] at hm
        rw [hm.1]
        simp [toldTerms, numberedIn, newEternalSentenceByTv]
    | ask q =>
      obtain ⟨sh', k1, rfl⟩ := inputT2_question h3
      refine join [.newStampId, .input (newEternalSentenceByTv q .QUESTION ⟨1, 1/2⟩ ⟨[r0.sh.stampIdCounter]⟩) true 1 r0.proc.t]
        (foldlM_cons_ok.2 ⟨_, rfl, foldlM_cons_ok.2 ⟨_, R.bind_ok.2 ⟨sh', k1, rfl⟩, rfl⟩⟩) rfl rfl ?_ ?_
      · intro op hop
        simp only [List.mem_cons, List.not_mem_nil, or_false] at hop
        rcases hop with rfl | rfl
        · exact trivial
        · exact fun hj => by cases hj
      · rintro s ⟨cc, mc, n, hm⟩ hj
        simp only [List.mem_cons, List.not_mem_nil, or_false, reduceCtorEq, false_or, SysOp.input.injEq] at hm
        rw [hm.1] at hj
        cases hj
    | cycle v =>
      obtain ⟨c1, c2, c3⟩ := cycle_sim_ops (show cycle env r0 v = .ok r2 from h3)
      refine join _ c3 c1 rfl ?_ ?_
      · intro op hop
        simp only [List.mem_cons, List.not_mem_nil, or_false] at hop
        rcases hop with rfl | rfl | rfl
        · exact procMem_sane hsafe.look.good.2.2
        · exact trivial
        · exact procMem_sane hsafe.good.2.2
      · rintro s ⟨cc, mc, now, hm⟩
        simp at hm
    | work =>
      have e : r2 = declWork env r0 := (Except.ok.inj h3).symm
      subst e
      obtain ⟨c1, c2⟩ := declWork_sim hsafe halive
      refine join [.work] (foldlM_cons_ok.2 ⟨_, c2, rfl⟩) c1 rfl ?_ ?_
      · intro op hop
        rw [List.mem_singleton.1 hop]; exact trivial
      · rintro s ⟨cc, mc, now, hm⟩
        simp at hm

/-- a course never fails -/
theorem course_total (env : Env) (k : Nat) {as : List Lecture} (hf : ∀ a ∈ as, a.Fine) : ∃ r, runNar env (course k as) = .ok r := by
  induction as using List.reverseRecOn with
  | nil => exact ⟨_, rfl⟩
  | append_singleton as a ih =>
    have hf0 : ∀ a ∈ as, a.Fine := fun x hx => hf x (List.mem_append_left _ hx)
    obtain ⟨r, h⟩ := ih hf0
    obtain ⟨_, _, _, _, h1, h2⟩ := course_sim hf0 h
    obtain ⟨r', h'⟩ := NarOp.run_total h1 h2 ((hf a (by simp)).use)
    refine ⟨r', ?_⟩
    rw [show course k (as ++ [a]) = course k as ++ [a.op] by simp [course]]
    exact moreNar_append.2 ⟨r, h, foldlM_cons_ok.2 ⟨r', h', rfl⟩⟩

/-- after the cycle in which the lookup is rebuilt only pending tasks are available -/
theorem course_trimmed {env : Env} {k : Nat} {as : List Lecture} {v : Rat} {r : Reasoner} (hf : ∀ a ∈ as ++ [.cycle v], a.Fine)
    (hn : (cyclesOf as + 1) % 111 = 0) (h : runNar env (course k (as ++ [.cycle v])) = .ok r) : OnlyPending r.sh := by
  have h' : moreNar env createNar (course k as ++ [.cycle v]) = .ok r := by
    have : course k (as ++ [.cycle v]) = course k as ++ [.cycle v] := by simp [course, Lecture.op]
    rw [← this]; exact h
  obtain ⟨r0, g1, g2⟩ := moreNar_append.1 h'
  obtain ⟨r1, h3, g3⟩ := foldlM_cons_ok.1 g2
  cases g3
  obtain ⟨ops, k1, k2, _⟩ := course_sim (fun a ha => hf a (List.mem_append_left _ ha)) g1
  have hcount : r0.sh.cycleCounter = cyclesOf as := by
    have := counter_more (s := ⟨createShared, [], []⟩) k1 (runSys_inv (cfg := r0.cfg env) (ops := []) rfl)
    rw [k2.cycles] at this
    simp only [createShared, Int.zero_add] at this
    exact this
  obtain ⟨c1, c2, c3⟩ := cycle_sim_ops (show cycle env r0 v = .ok r from h3)
  obtain ⟨s1, a1, b1⟩ := foldlM_cons_ok.1 c3
  obtain ⟨s2, a2, b2⟩ := foldlM_cons_ok.1 b1
  obtain ⟨s3, a3, b3⟩ := foldlM_cons_ok.1 b2
  cases b3
  cases Except.ok.inj a1
  obtain ⟨⟨sh1, msg, calls⟩, e1, e2⟩ := R.bind_ok.1 a2
  cases Except.ok.inj e2
  have hi : Inv (r0.cfg env) ({ r0.sys.sh with procMem := r0.look.procMem } : Shared) :=
    (SysOp.run_kept (op := .procMem r0.look.procMem) (s := r0.sys) (cfg := r0.cfg env) rfl).inv (runSys_inv k1)
  have hs := (reasonCycle_sub e1).2 (by
    rw [(reasonCycle_taken e1 hi).2.2.1]
    show (r0.sh.cycleCounter + 1) % 111 = 0
    rw [hcount]; omega)
  have e : r.sys.sh = { sh1 with procMem := r0.sh.procMem } := by rw [← Except.ok.inj a3]
  intro x hx
  have ej : r.sh.judgementTasks = sh1.judgementTasks := congrArg (·.judgementTasks) e
  have et : r.sh.judgementTasksByTerm = sh1.judgementTasksByTerm := congrArg (·.judgementTasksByTerm) e
  unfold TaskKept at hx
  rw [ej, et] at hx
  rw [ej]
  exact hs x hx

/-- when only simple facts are told everything is a simple fact -/
theorem course_simple {env : Env} {k : Nat} {as : List Lecture} {r : Reasoner} (hf : ∀ a ∈ as, a.Fine) (h : runNar env (course k as) = .ok r)
    (hs : ∀ t ∈ toldTerms as, SimpleFact t) : Throughout (OldOrNew (fun _ => False) (· ∈ toldTerms as)) r.sh := by
  obtain ⟨ops, k1, k2, _⟩ := course_sim hf h
  have : Apart (fun _ => True) (fun _ => False) (· ∈ toldTerms as) ⟨createShared, [], []⟩ :=
    ⟨⟨fun _ _ => trivial, fun _ _ => trivial, by intro m hm; cases hm⟩, by intro r t _ ht; simp [createShared] at ht,
      ⟨(by intro t ht; cases ht), (by intro c hc; cases hc)⟩⟩
  refine (apart_more hs k1 (runSys_inv (cfg := r.cfg env) (ops := []) rfl) this ?_).1.all
  intro x hx hj
  obtain ⟨p, p1, rfl⟩ := k2.told x hx hj
  exact List.mem_map.2 ⟨p, p1, rfl⟩

end Nar
