import Verif.Lemmas.Best3
import Verif.Spec.Course
/-! # Helper lemmas: a course is a history of the declarative system -/
namespace Nar
open Term

theorem inputsIn_append (a b : List Lecture) : inputsIn (a ++ b) = inputsIn a + inputsIn b := by
  induction a with
  | nil => simp [inputsIn]
  | cons x a ih => cases x <;> simp [inputsIn, ih] <;> omega

theorem cyclesOf_append (a b : List Lecture) : cyclesOf (a ++ b) = cyclesOf a + cyclesOf b := by
  induction a with
  | nil => simp [cyclesOf]
  | cons x a ih => cases x <;> simp [cyclesOf, ih]; omega

theorem numberedIn_append (a b : List Lecture) : ∀ n, numberedIn n (a ++ b) = numberedIn n a ++ numberedIn (n + inputsIn a) b := by
  induction a with
  | nil => simp [numberedIn, inputsIn]
  | cons x a ih => intro n; cases x <;> simp [numberedIn, inputsIn, ih] <;> congr 1 <;> omega

theorem numberedIn_lt {as : List Lecture} : ∀ {n : Nat} {p : Nat × Term × Tv}, p ∈ numberedIn n as → n ≤ p.1 ∧ p.1 < n + inputsIn as := by
  induction as with
  | nil => intro n p h; cases h
  | cons a as ih =>
    intro n p h
    cases a with
    | tell st =>
      simp only [numberedIn, List.mem_cons] at h
      simp only [inputsIn]
      rcases h with rfl | h
      · exact ⟨le_refl _, by simp only; omega⟩
      · have := ih h; omega
    | ask q => have := ih (show p ∈ numberedIn (n + 1) as from h); simp only [inputsIn]; omega
    | cycle v => exact ih (show p ∈ numberedIn n as from h)
    | work => exact ih (show p ∈ numberedIn n as from h)

/-- different statements have different numbers -/
theorem numberedIn_nodup (as : List Lecture) : ∀ n, ((numberedIn n as).map (·.1)).Nodup := by
  induction as with
  | nil => intro n; exact List.nodup_nil
  | cons a as ih =>
    intro n
    cases a with
    | tell st =>
      simp only [numberedIn, List.map_cons, List.nodup_cons]
      refine ⟨fun hm => ?_, ih _⟩
      obtain ⟨p, hp, e⟩ := List.mem_map.1 hm
      have := (numberedIn_lt hp).1
      omega
    | ask q => exact ih _
    | cycle v => exact ih _
    | work => exact ih _

theorem cycle_sim_ops {env : Env} {r r' : Reasoner} {v : Rat} (h : cycle env r v = .ok r') :
    r'.cfg env = r.cfg env ∧ r'.sh.stampIdCounter = r.sh.stampIdCounter ∧
      moreSys (r.cfg env) r.sys [.procMem r.look.procMem, .cycle v (r.currentTime + 1), .procMem r.sh.procMem] = .ok r'.sys := by
  unfold cycle at h
  obtain ⟨⟨sh, msg, calls⟩, h1, h⟩ := R.bind_ok.1 h
  have key : r' = { r with sh := { sh with procMem := r.sh.procMem }, currentTime := r.currentTime + 1, answers := r.answers ++ calls, queue := r.queue ++ msg.toList } := by
    cases msg with
    | none => cases h; simp
    | some m =>
      simp only [sendMsg] at h
      split at h
      · cases h; rfl
      · cases h
  refine ⟨by rw [key]; rfl, ?_, ?_⟩
  · rw [key]
    have : sh.stampIdCounter = r.look.stampIdCounter := (Prod.mk.inj (reasonCycle_outer h1)).1
    rw [show ({ sh with procMem := r.sh.procMem } : Shared).stampIdCounter = sh.stampIdCounter from rfl, this]
    unfold Reasoner.look
    split <;> rfl
  · have e : ({ r.sh with procMem := r.look.procMem } : Shared) = r.look := by
      unfold Reasoner.look
      split <;> rfl
    have step2 : (SysOp.cycle v (r.currentTime + 1)).run (r.cfg env) ⟨r.look, r.queue, r.answers⟩ =
        .ok ⟨sh, r.queue ++ msg.toList, r.answers ++ calls⟩ := by
      simp only [SysOp.run]
      rw [h1]; rfl
    refine foldlM_cons_ok.2 ⟨⟨r.look, r.queue, r.answers⟩, ?_, foldlM_cons_ok.2 ⟨_, step2, foldlM_cons_ok.2 ⟨r'.sys, ?_, rfl⟩⟩⟩
    · rw [← e]; rfl
    · rw [key]; rfl

theorem declWork_counter {env : Env} {r : Reasoner} : (declWork env r).sh.stampIdCounter = r.sh.stampIdCounter := by
  unfold declWork
  split
  · split
    · rfl
    · split
      · rename_i h
        exact (Prod.mk.inj (work_outer h)).1
      · rfl
  · rfl

theorem Lecture.Fine.use {env : Env} {a : Lecture} (h : a.Fine) : SafeUse env a.op := by
  cases a with
  | tell st => exact h
  | ask q => exact ⟨h, (by intro h; cases h), (by intro h; cases h)⟩
  | cycle v => exact trivial
  | work => exact trivial

theorem course_use {env : Env} {k : Nat} {as : List Lecture} (h : ∀ a ∈ as, a.Fine) : ∀ op ∈ course k as, SafeUse env op := by
  intro op hop
  rcases List.mem_cons.1 hop with rfl | hop
  · exact trivial
  · obtain ⟨a, ha, rfl⟩ := List.mem_map.1 hop
    exact (h a ha).use

/-- what a course is for the declarative system -/
structure CourseSim (k : Nat) (as : List Lecture) (cfg : Cfg) (ops : List SysOp) : Prop where
  flush : SysOp.flush ∉ ops
  cycles : cyclesIn ops = cyclesOf as
  sane : ∀ op ∈ ops, op.Sane
  told : ∀ s, PutIn ops s → s.punct = .JUGEMENT → Lectured as s
  heard : ∀ s, Lectured as s → PutIn ops s
  evidence : EvidenceFrom ((List.range (inputsIn as)).map (fun i : Nat => (i : Int))) ops
  asks : NoQuestions as → ∀ s, PutIn ops s → s.punct = .JUGEMENT
  complexity : cfg.maxComplexity = 64
  beliefs : cfg.nBeliefs = 20
  handlers : cfg.nGlobal = k

theorem putIn_append {a b : List SysOp} {s : Sentence} : PutIn (a ++ b) s ↔ PutIn a s ∨ PutIn b s := by
  unfold PutIn
  simp only [List.mem_append]
  constructor
  · rintro ⟨cc, mc, now, h | h⟩
    · exact .inl ⟨cc, mc, now, h⟩
    · exact .inr ⟨cc, mc, now, h⟩
  · rintro (⟨cc, mc, now, h⟩ | ⟨cc, mc, now, h⟩)
    · exact ⟨cc, mc, now, .inl h⟩
    · exact ⟨cc, mc, now, .inr h⟩

theorem CourseSim.think {k : Nat} {as : List Lecture} {cfg : Cfg} {ops more : List SysOp} (h : CourseSim k as cfg ops) {a : Lecture}
    (ha : (∃ v, a = .cycle v) ∨ a = .work) (hc : cyclesIn more = cyclesOf [a]) (hs : ∀ op ∈ more, op.Sane) (hf : SysOp.flush ∉ more)
    (hi : ∀ s, ¬ PutIn more s) : CourseSim k (as ++ [a]) cfg (ops ++ more) := by
  have hn : ∀ n, numberedIn n [a] = [] := by rcases ha with ⟨v, rfl⟩ | rfl <;> intro n <;> rfl
  have hin : inputsIn [a] = 0 := by rcases ha with ⟨v, rfl⟩ | rfl <;> rfl
  have hl : ∀ s, Lectured (as ++ [a]) s ↔ Lectured as s := by intro s; simp [Lectured, numberedIn_append, hn]
  have hp : ∀ s, PutIn (ops ++ more) s ↔ PutIn ops s := fun s => ⟨fun h => (putIn_append.1 h).resolve_right (hi s), fun h => putIn_append.2 (.inl h)⟩
  exact {
    flush := by simp [h.flush, hf]
    cycles := by rw [cyclesIn_append, cyclesOf_append, h.cycles, hc]
    sane := fun op hop => (List.mem_append.1 hop).elim (h.sane op) (hs op)
    told := fun s k1 k2 => (hl s).2 (h.told s ((hp s).1 k1) k2)
    heard := fun s k1 => (hp s).2 (h.heard s ((hl s).1 k1))
    evidence := fun s k1 => by rw [inputsIn_append, hin]; exact h.evidence s ((hp s).1 k1)
    asks := fun hq s k1 => h.asks (fun x hx => hq x (List.mem_append_left _ hx)) s ((hp s).1 k1)
    complexity := h.complexity
    beliefs := h.beliefs
    handlers := h.handlers }

theorem CourseSim.input {k : Nat} {as : List Lecture} {cfg : Cfg} {ops : List SysOp} (h : CourseSim k as cfg ops) {a : Lecture} {s : Sentence}
    {now : Int} (hs : (SysOp.input s true 1 now).Sane) (hst : s.stamp.ids = [((inputsIn as : Nat) : Int)])
    (ha : (∃ st, a = .tell st ∧ s = toldAs (inputsIn as) st) ∨ ∃ q, a = .ask q ∧ s.punct ≠ .JUGEMENT) :
    CourseSim k (as ++ [a]) cfg (ops ++ [.newStampId, .input s true 1 now]) := by
  have hin : inputsIn [a] = 1 := by rcases ha with ⟨_, rfl, _⟩ | ⟨_, rfl, _⟩ <;> rfl
  have hcy : cyclesOf [a] = 0 := by rcases ha with ⟨_, rfl, _⟩ | ⟨_, rfl, _⟩ <;> rfl
  have hp : ∀ x, PutIn (ops ++ [.newStampId, .input s true 1 now]) x ↔ PutIn ops x ∨ x = s := by
    intro x
    rw [putIn_append]
    refine or_congr Iff.rfl ⟨?_, ?_⟩
    · rintro ⟨cc, mc, n, hm⟩
      simp only [List.mem_cons, List.not_mem_nil, or_false, reduceCtorEq, false_or, SysOp.input.injEq] at hm
      exact hm.1
    · rintro rfl
      exact ⟨_, _, _, List.mem_cons_of_mem _ List.mem_cons_self⟩
  exact {
    flush := by simp [h.flush]
    cycles := by rw [cyclesIn_append, cyclesOf_append, h.cycles, hcy]; rfl
    sane := by
      intro op hop
      rcases List.mem_append.1 hop with hop | hop
      · exact h.sane op hop
      · simp only [List.mem_cons, List.not_mem_nil, or_false] at hop
        rcases hop with rfl | rfl
        · exact trivial
        · exact hs
    told := by
      intro x k1 k2
      unfold Lectured
      rw [numberedIn_append]
      rcases (hp x).1 k1 with k1 | rfl
      · obtain ⟨p, p1, p2⟩ := h.told x k1 k2
        exact ⟨p, List.mem_append_left _ p1, p2⟩
      · rcases ha with ⟨st, rfl, e⟩ | ⟨_, _, e⟩
        · exact ⟨(inputsIn as, st), List.mem_append_right _ (by simp [numberedIn]), e⟩
        · exact absurd k2 e
    heard := by
      rintro x ⟨p, p1, rfl⟩
      rw [numberedIn_append] at p1
      refine (hp _).2 ?_
      rcases List.mem_append.1 p1 with p1 | p1
      · exact .inl (h.heard _ ⟨p, p1, rfl⟩)
      · rcases ha with ⟨st, rfl, e⟩ | ⟨_, rfl, e⟩
        · simp only [numberedIn, List.mem_singleton, Nat.zero_add] at p1
          rw [p1, e]; exact .inr rfl
        · simp [numberedIn] at p1
    evidence := by
      intro x k1
      rw [inputsIn_append, hin]
      rcases (hp x).1 k1 with k1 | rfl
      · obtain ⟨g1, g2⟩ := h.evidence x k1
        refine ⟨g1, fun e he => ?_⟩
        obtain ⟨i, hi, rfl⟩ := List.mem_map.1 (g2 e he)
        exact List.mem_map.2 ⟨i, by rw [List.mem_range] at hi ⊢; omega, rfl⟩
      · rw [hst]
        refine ⟨by simp, fun e he => List.mem_map.2 ⟨inputsIn as, by simp, (List.mem_singleton.1 he).symm⟩⟩
    asks := by
      intro hq x k1
      rcases (hp x).1 k1 with k1 | rfl
      · exact h.asks (fun y hy => hq y (List.mem_append_left _ hy)) x k1
      · rcases ha with ⟨st, _, e⟩ | ⟨q, rfl, _⟩
        · rw [e]; rfl
        · exact absurd rfl (hq _ (List.mem_append_right _ (by simp)) q)
    complexity := h.complexity
    beliefs := h.beliefs
    handlers := h.handlers }

theorem procMem_sane {m : Mem} (h : MemP HasExp m) : (SysOp.procMem m).Sane := fun c hc =>
  ⟨fun b hb => let ⟨e, he⟩ := (h c hc).1 b hb; ⟨e, (expOf_iff _ _).1 he⟩, fun b hb => let ⟨e, he⟩ := (h c hc).2 b hb; ⟨e, (expOf_iff _ _).1 he⟩⟩

/-- a course is a history of the declarative system -/
theorem course_sim {env : Env} {k : Nat} {as : List Lecture} (hf : ∀ a ∈ as, a.Fine) : ∀ {r : Reasoner}, runNar env (course k as) = .ok r →
    ∃ ops, runSys (r.cfg env) ops = .ok r.sys ∧ CourseSim k as (r.cfg env) ops ∧ r.sh.stampIdCounter = inputsIn as ∧ Safe env r ∧
      r.workerAlive = true := by
  induction as using List.reverseRecOn with
  | nil =>
    intro r h
    obtain ⟨s1, s2⟩ := runNar_safe h (SafeUse.telling (course_use (env := env) hf))
    have e : r = { createNar with nGlobal := k } := (Except.ok.inj h).symm
    refine ⟨[], by rw [e]; rfl, ?_, by rw [e]; rfl, s1, by rw [e]; rfl⟩
    exact {
      flush := by simp
      cycles := rfl
      sane := by simp
      told := by rintro s ⟨_, _, _, h⟩; cases h
      heard := by rintro s ⟨_, h, _⟩; cases h
      evidence := by rintro s ⟨_, _, _, h⟩; cases h
      asks := by rintro _ s ⟨_, _, _, h⟩; cases h
      complexity := by rw [e]; rfl
      beliefs := by rw [e]; rfl
      handlers := by rw [e]; rfl }
  | append_singleton as a ih =>
    intro r h
    obtain ⟨s1, s2⟩ := runNar_safe h (SafeUse.telling (course_use (env := env) hf))
    have halive : r.workerAlive = true := s2 (fun hm => course_use (env := env) hf _ hm)
    have h' : moreNar env createNar (course k as ++ [a.op]) = .ok r := by
      have : course k (as ++ [a]) = course k as ++ [a.op] := by simp [course]
      rw [← this]; exact h
    obtain ⟨r0, h1, h2⟩ := moreNar_append.1 h'
    obtain ⟨r1, h3, h4⟩ := foldlM_cons_ok.1 h2
    cases h4
    obtain ⟨ops, g1, g2, g3, g4, g5⟩ := ih (fun x hx => hf x (List.mem_append_left _ hx)) h1
    have hfa := hf a (List.mem_append_right _ (by simp))
    clear ih h h' h2
    cases a with
    | tell st =>
      obtain ⟨sh', k1, rfl⟩ := inputT2_statement (hfa.2.1 rfl rfl).1 h3
      have ho : sh'.stampIdCounter = r0.sh.stampIdCounter + 1 := (Prod.mk.inj (memAddTask_outer k1)).1
      refine ⟨ops ++ [.newStampId, .input (toldAs (inputsIn as) st) true 1 r0.proc.t], ?_, ?_, ?_, s1, halive⟩
      · refine runSys_moreSys g1 (foldlM_cons_ok.2 ⟨_, rfl, foldlM_cons_ok.2 ⟨_, R.bind_ok.2 ⟨sh', ?_, rfl⟩, rfl⟩⟩)
        rw [g3] at k1
        rw [show ({ r0.sys.sh with stampIdCounter := r0.sys.sh.stampIdCounter + 1 } : Shared) = { r0.sh with stampIdCounter := (inputsIn as : Int) + 1 }
          from by rw [← g3]; rfl]
        exact k1
      · exact g2.input (fun _ => ⟨st.2, rfl, (hfa.2.1 rfl rfl).2⟩) rfl (.inl ⟨st, rfl, rfl⟩)
      · show sh'.stampIdCounter = _
        rw [ho, g3, inputsIn_append]; rfl
    | ask q =>
      obtain ⟨sh', k1, rfl⟩ := inputT2_question h3
      have ho : sh'.stampIdCounter = r0.sh.stampIdCounter + 1 := (Prod.mk.inj (memAddTask_outer k1)).1
      refine ⟨ops ++ [.newStampId, .input (newEternalSentenceByTv q .QUESTION ⟨1, 1/2⟩ ⟨[(inputsIn as : Int)]⟩) true 1 r0.proc.t], ?_, ?_, ?_, s1, halive⟩
      · refine runSys_moreSys g1 (foldlM_cons_ok.2 ⟨_, rfl, foldlM_cons_ok.2 ⟨_, R.bind_ok.2 ⟨sh', ?_, rfl⟩, rfl⟩⟩)
        rw [g3] at k1
        rw [show ({ r0.sys.sh with stampIdCounter := r0.sys.sh.stampIdCounter + 1 } : Shared) = { r0.sh with stampIdCounter := (inputsIn as : Int) + 1 }
          from by rw [← g3]; rfl]
        exact k1
      · exact g2.input (fun hj => by cases hj) rfl (.inr ⟨q, rfl, by intro e; cases e⟩)
      · show sh'.stampIdCounter = _
        rw [ho, g3, inputsIn_append]; rfl
    | cycle v =>
      obtain ⟨c1, c2, c3⟩ := cycle_sim_ops (show cycle env r0 v = .ok r from h3)
      rw [c1]
      refine ⟨_, runSys_moreSys g1 c3, g2.think (.inl ⟨v, rfl⟩) rfl ?_ (by simp) ?_, ?_, s1, halive⟩
      · intro op hop
        simp only [List.mem_cons, List.not_mem_nil, or_false] at hop
        rcases hop with rfl | rfl | rfl
        · exact procMem_sane g4.look.good.2.2
        · exact trivial
        · exact procMem_sane g4.good.2.2
      · rintro s ⟨cc, mc, now, hm⟩
        simp at hm
      · rw [c2, g3, inputsIn_append]; rfl
    | work =>
      have e : r = declWork env r0 := (Except.ok.inj h3).symm
      subst e
      obtain ⟨c1, c2⟩ := declWork_sim g4 g5
      rw [c1]
      refine ⟨_, runSys_moreSys (b := [.work]) g1 (foldlM_cons_ok.2 ⟨_, c2, rfl⟩), g2.think (.inr rfl) rfl ?_ (by simp) ?_, ?_, s1, halive⟩
      · intro op hop
        rw [List.mem_singleton.1 hop]; exact trivial
      · rintro s ⟨cc, mc, now, hm⟩
        simp at hm
      · rw [declWork_counter, g3, inputsIn_append]; rfl

/-- evidence may be renamed, if different pieces do not get the same name -/
theorem Deducible.moved {cfg cfg' : Cfg} (hc : cfg'.maxComplexity = cfg.maxComplexity) {told told' : Sentence → Prop} {R : Int → Int → Prop}
    (hR : ∀ e f x, R e x → R f x → e = f)
    (ht : ∀ s, told s → s.punct = .JUGEMENT → ∃ s', told' s' ∧ s'.punct = .JUGEMENT ∧ s'.term = s.term ∧
      ∀ x ∈ s'.stamp.ids, ∃ e ∈ s.stamp.ids, R e x)
    {t : Term} {E : List Int} (h : Deducible cfg told t E) : ∃ F, Deducible cfg' told' t F ∧ ∀ x ∈ F, ∃ e ∈ E, R e x := by
  induction h with
  | told s h1 h2 h3 =>
    obtain ⟨s', k1, k2, k3, k4⟩ := ht s h1 h2
    exact ⟨_, k3 ▸ .told s' k1 k2 (by rw [k3, hc]; exact h3), k4⟩
  | alone a c E _ h1 h2 ih =>
    obtain ⟨F, k1, k2⟩ := ih
    exact ⟨F, .alone a c F k1 h1 (by rw [hc]; exact h2), k2⟩
  | both a b c E E' _ _ h1 h2 h3 h4 ih1 ih2 =>
    obtain ⟨F, k1, k2⟩ := ih1
    obtain ⟨F', k1', k2'⟩ := ih2
    refine ⟨F ++ F', .both a b c F F' k1 k1' ?_ h2 h3 (by rw [hc]; exact h4), ?_⟩
    · intro x hx hx'
      obtain ⟨e, he, r1⟩ := k2 x hx
      obtain ⟨f, hf, r2⟩ := k2' x hx'
      exact h1 e he (hR e f x r1 r2 ▸ hf)
    · intro x hx
      rcases List.mem_append.1 hx with hx | hx
      · obtain ⟨e, he, r1⟩ := k2 x hx
        exact ⟨e, List.mem_append_left _ he, r1⟩
      · obtain ⟨e, he, r1⟩ := k2' x hx
        exact ⟨e, List.mem_append_right _ he, r1⟩

end Nar
