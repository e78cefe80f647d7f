import Verif.Lemmas.Lives
/-! # Helper lemmas: a course with acting in between is a history of the declarative system -/
namespace Nar
open Term

/-- what a life is for the declarative system: the statements got the numbers in `told`, statements and questions the numbers `nums` -/
structure LifeSim (as : List Lecture) (cfg : Cfg) (ops : List SysOp) (told : List (Nat × Term × Tv)) (nums : List Nat) (next : Nat) : Prop where
  flush : SysOp.flush ∉ ops
  cycles : cyclesIn ops = cyclesOf as
  sane : ∀ op ∈ ops, op.Sane
  source : ∀ s, PutIn ops s → s.punct = .JUGEMENT → ∃ p ∈ told, s = toldAs p.1 p.2
  heard : ∀ p ∈ told, PutIn ops (toldAs p.1 p.2)
  evidence : EvidenceFrom (nums.map (fun i : Nat => (i : Int))) ops
  asks : NoQuestions as → ∀ s, PutIn ops s → s.punct = .JUGEMENT
  complexity : cfg.maxComplexity = 64
  beliefs : cfg.nBeliefs = 20
  count : nums.length = inputsIn as
  below : ∀ n ∈ nums, n < next
  among : ∀ p ∈ told, p.1 ∈ nums
  nodup : (told.map (·.1)).Nodup
  terms : told.map (·.2.1) = toldTerms as

theorem numberedIn_terms (as : List Lecture) : ∀ n m, (numberedIn n as).map (·.2.1) = (numberedIn m as).map (·.2.1) := by
  induction as with
  | nil => intro n m; rfl
  | cons a as ih =>
    intro n m
    cases a with
    | tell st => simp only [numberedIn, List.map_cons]; rw [ih (n + 1) (m + 1)]
    | ask q => exact ih _ _
    | cycle v => exact ih _ _
    | work => exact ih _ _

theorem toldTerms_append (as bs : List Lecture) : toldTerms (as ++ bs) = toldTerms as ++ toldTerms bs := by
  unfold toldTerms
  rw [numberedIn_append, List.map_append, numberedIn_terms bs (0 + inputsIn as) 0]

/-- acting in between -/
theorem LifeSim.other {as : List Lecture} {cfg : Cfg} {ops more : List SysOp} {told : List (Nat × Term × Tv)} {nums : List Nat} {next next' : Nat}
    (h : LifeSim as cfg ops told nums next) {a : List Lecture} (ha : (∃ v, a = [.cycle v]) ∨ a = [.work] ∨ a = []) (hc : cyclesIn more = cyclesOf a)
    (hs : ∀ op ∈ more, op.Sane) (hf : SysOp.flush ∉ more) (hi : ∀ s, ¬ PutIn more s) (hx : next ≤ next') :
    LifeSim (as ++ a) cfg (ops ++ more) told nums next' := by
  have hin : inputsIn a = 0 := by rcases ha with ⟨v, rfl⟩ | rfl | rfl <;> rfl
  have ht : toldTerms a = [] := by rcases ha with ⟨v, rfl⟩ | rfl | rfl <;> rfl
  have hp : ∀ s, PutIn (ops ++ more) s ↔ PutIn ops s := fun s => ⟨fun h => (putIn_append.1 h).resolve_right (hi s), fun h => putIn_append.2 (.inl h)⟩
  exact {
    flush := by simp [h.flush, hf]
    cycles := by rw [cyclesIn_append, cyclesOf_append, h.cycles, hc]
    sane := fun op hop => (List.mem_append.1 hop).elim (h.sane op) (hs op)
    source := fun s k1 k2 => h.source s ((hp s).1 k1) k2
    heard := fun p k1 => (hp _).2 (h.heard p k1)
    evidence := fun s k1 => h.evidence s ((hp s).1 k1)
    asks := fun hq s k1 => h.asks (fun x hx => hq x (List.mem_append_left _ hx)) s ((hp s).1 k1)
    complexity := h.complexity
    beliefs := h.beliefs
    count := by rw [inputsIn_append, hin]; exact h.count
    below := fun n hn => Nat.lt_of_lt_of_le (h.below n hn) hx
    among := h.among
    nodup := h.nodup
    terms := by rw [toldTerms_append, ht, List.append_nil]; exact h.terms }

theorem LifeSim.input {as : List Lecture} {cfg : Cfg} {ops : List SysOp} {told : List (Nat × Term × Tv)} {nums : List Nat} {next : Nat}
    (h : LifeSim as cfg ops told nums next) {a : Lecture} {s : Sentence} {now : Int} (hs : (SysOp.input s true 1 now).Sane)
    (hst : s.stamp.ids = [(next : Int)])
    (ha : (∃ st, a = .tell st ∧ s = toldAs next st) ∨ ∃ q, a = .ask q ∧ s.punct ≠ .JUGEMENT) :
    ∃ told', LifeSim (as ++ [a]) cfg (ops ++ [.newStampId, .input s true 1 now]) told' (nums ++ [next]) (next + 1) := by
  have hin : inputsIn [a] = 1 := by rcases ha with ⟨_, rfl, _⟩ | ⟨_, rfl, _⟩ <;> rfl
  have hcy : cyclesOf [a] = 0 := by rcases ha with ⟨_, rfl, _⟩ | ⟨_, rfl, _⟩ <;> rfl
  have hp : ∀ x, PutIn (ops ++ [.newStampId, .input s true 1 now]) x ↔ PutIn ops x ∨ x = s := by
    intro x
    rw [putIn_append]
    refine or_congr Iff.rfl ⟨?_, ?_⟩
    · rintro ⟨cc, mc, n, hm⟩
      simp only [List.mem_cons, List.not_mem_nil, or_false, reduceCtorEq, false_or, SysOp.input.injEq] at hm
      exact hm.1
    · rintro rfl
      exact ⟨_, _, _, List.mem_cons_of_mem _ List.mem_cons_self⟩
  have hnew : ∀ p ∈ told, p.1 ≠ next := fun p hp e => by
    have := h.below _ (h.among p hp); omega
  obtain ⟨new, hnw⟩ : ∃ new : List (Nat × Term × Tv), (∃ st, a = .tell st ∧ new = [(next, st)]) ∨ ((∃ q, a = .ask q) ∧ new = []) := by
    rcases ha with ⟨st, rfl, _⟩ | ⟨q, rfl, _⟩
    · exact ⟨_, .inl ⟨st, rfl, rfl⟩⟩
    · exact ⟨_, .inr ⟨⟨q, rfl⟩, rfl⟩⟩
  have hmem : ∀ p, p ∈ new → p.1 = next ∧ s = toldAs p.1 p.2 := by
    intro p hp
    rcases hnw with ⟨st, e, rfl⟩ | ⟨_, rfl⟩
    · rw [List.mem_singleton.1 hp]
      rcases ha with ⟨st', e', k⟩ | ⟨q, e', _⟩
      · rw [e] at e'; cases e'; exact ⟨rfl, k⟩
      · rw [e] at e'; cases e'
    · cases hp
  refine ⟨told ++ new, ?_⟩
  exact {
    flush := by simp [h.flush]
    cycles := by rw [cyclesIn_append, cyclesOf_append, h.cycles, hcy]; rfl
    sane := by
      intro op hop
      rcases List.mem_append.1 hop with hop | hop
      · exact h.sane op hop
      · simp only [List.mem_cons, List.not_mem_nil, or_false] at hop
        rcases hop with rfl | rfl
        · exact trivial
        · exact hs
    source := by
      intro x k1 k2
      rcases (hp x).1 k1 with k1 | rfl
      · obtain ⟨p, p1, p2⟩ := h.source x k1 k2
        exact ⟨p, List.mem_append_left _ p1, p2⟩
      · rcases ha with ⟨st, rfl, e⟩ | ⟨_, _, e⟩
        · rcases hnw with ⟨st', e', rfl⟩ | ⟨⟨q, e'⟩, _⟩
          · cases e'
            exact ⟨(next, st), List.mem_append_right _ (by simp), e⟩
          · cases e'
        · exact absurd k2 e
    heard := by
      intro p p1
      refine (hp _).2 ?_
      rcases List.mem_append.1 p1 with p1 | p1
      · exact .inl (h.heard _ p1)
      · exact .inr (hmem p p1).2.symm
    evidence := by
      intro x k1
      rcases (hp x).1 k1 with k1 | rfl
      · obtain ⟨g1, g2⟩ := h.evidence x k1
        exact ⟨g1, fun e he => by rw [List.map_append]; exact List.mem_append_left _ (g2 e he)⟩
      · rw [hst]
        exact ⟨by simp, fun e he => by rw [List.mem_singleton.1 he]; simp⟩
    asks := by
      intro hq x k1
      rcases (hp x).1 k1 with k1 | rfl
      · exact h.asks (fun y hy => hq y (List.mem_append_left _ hy)) x k1
      · rcases ha with ⟨st, _, e⟩ | ⟨q, rfl, _⟩
        · rw [e]; rfl
        · exact absurd rfl (hq _ (List.mem_append_right _ (by simp)) q)
    complexity := h.complexity
    beliefs := h.beliefs
    count := by rw [inputsIn_append, hin, List.length_append, h.count]; rfl
    below := by
      intro n hn
      rcases List.mem_append.1 hn with hn | hn
      · have := h.below n hn; omega
      · rw [List.mem_singleton.1 hn]; omega
    among := by
      intro p hp
      rcases List.mem_append.1 hp with hp | hp
      · exact List.mem_append_left _ (h.among p hp)
      · exact List.mem_append_right _ (by rw [(hmem p hp).1]; simp)
    nodup := by
      rw [List.map_append, List.nodup_append]
      refine ⟨h.nodup, ?_, ?_⟩
      · rcases hnw with ⟨st, _, rfl⟩ | ⟨_, rfl⟩ <;> simp
      · intro x hx y hy
        obtain ⟨p, hp, rfl⟩ := List.mem_map.1 hx
        obtain ⟨q, hq, rfl⟩ := List.mem_map.1 hy
        rw [(hmem q hq).1]
        exact hnew p hp
    terms := by
      rw [toldTerms_append, List.map_append, h.terms]
      rcases hnw with ⟨st, rfl, rfl⟩ | ⟨⟨q, rfl⟩, rfl⟩ <;> rfl }

/-- the state after a life -/
def Lived (env : Env) (k : Nat) (as : List Lecture) (r : Reasoner) : Prop :=
  ∃ ops told nums next, runSys (r.cfg env) ops = .ok r.sys ∧ LifeSim as (r.cfg env) ops told nums next ∧
    r.sh.stampIdCounter = (next : Nat) ∧ r.nGlobal = k

theorem Lived.input {env : Env} {k : Nat} {as : List Lecture} {r r' : Reasoner} (h : Lived env k as r) {t : Term} {punct : Punct} {tv : Tv}
    {ev : Bool} {rng : List Nat} {a : Lecture} (hr : inputT2 env r t punct tv ev rng = .ok r') (hn : ¬ ForActing t punct ev)
    (hs : punct = .JUGEMENT → SaneStatement t tv)
    (ha : (a = .tell (t, tv) ∧ punct = .JUGEMENT) ∨ a = .ask t ∧ punct = .QUESTION) : Lived env k (as ++ [a]) r' := by
  obtain ⟨ops, told, nums, next, g1, g2, g3, g4⟩ := h
  obtain ⟨c1, _, c2, c3, c4, c5, _⟩ := inputT2_cases hr
  have k1 := (inputT2_frame hr).2.2.2.2 hn
  have hcfg : r'.cfg env = r.cfg env := by unfold Reasoner.cfg; rw [c3, c4, c5]
  have ho : r'.sh.stampIdCounter = r.sh.stampIdCounter + 1 := (Prod.mk.inj (memAddTask_outer k1)).1
  have hsane : (SysOp.input (newEternalSentenceByTv t punct tv ⟨[(next : Int)]⟩) true 1 r.proc.t).Sane := by
    intro hj
    have : punct = .JUGEMENT := hj
    subst this
    exact ⟨tv, rfl, hs rfl⟩
  obtain ⟨told', g5⟩ := g2.input (a := a) hsane rfl (by
    rcases ha with ⟨rfl, rfl⟩ | ⟨rfl, rfl⟩
    · exact .inl ⟨(t, tv), rfl, rfl⟩
    · exact .inr ⟨t, rfl, by intro e; cases e⟩)
  refine ⟨_, told', _, next + 1, ?_, by rw [hcfg]; exact g5, by rw [ho, g3]; push_cast; rfl, by rw [c3, g4]⟩
  rw [hcfg]
  refine runSys_moreSys g1 (foldlM_cons_ok.2 ⟨_, rfl, foldlM_cons_ok.2 ⟨r'.sys, R.bind_ok.2 ⟨r'.sh, ?_, ?_⟩, rfl⟩⟩)
  · rw [← g3]; exact k1
  · unfold Reasoner.sys; rw [c1, c2]

theorem Lived.act {env : Env} {k : Nat} {as : List Lecture} {r r' : Reasoner} (h : Lived env k as r) (hm : SameMind r r') : Lived env k as r' := by
  obtain ⟨ops, told, nums, next, g1, g2, g3, g4⟩ := h
  obtain ⟨c1, c2, c3, c4, c5, hsh⟩ := hm
  have hcfg : r'.cfg env = r.cfg env := by unfold Reasoner.cfg; rw [c3, c4, c5]
  rcases hsh with hsh | hsh
  · refine ⟨ops, told, nums, next, ?_, by rw [hcfg]; exact g2, by rw [hsh]; exact g3, by rw [c3, g4]⟩
    rw [hcfg, g1]
    unfold Reasoner.sys; rw [c1, c2, hsh]
  · have g5 := g2.other (more := [.newStampId]) (a := []) (next' := next + 1) (.inr (.inr rfl)) rfl (by simp [SysOp.Sane]) (by simp)
      (by rintro s ⟨cc, mc, now, hx⟩; simp at hx) (by omega)
    rw [List.append_nil] at g5
    refine ⟨_, told, nums, next + 1, ?_, by rw [hcfg]; exact g5, by rw [hsh]; show r.sh.stampIdCounter + 1 = _; rw [g3]; push_cast; rfl, by rw [c3, g4]⟩
    rw [hcfg]
    refine runSys_moreSys g1 (foldlM_cons_ok.2 ⟨r'.sys, ?_, rfl⟩)
    unfold Reasoner.sys; rw [c1, c2, hsh]; rfl

theorem Lived.cycle {env : Env} {k : Nat} {as : List Lecture} {r r' : Reasoner} (h : Lived env k as r) (hs : Safe env r) {v : Rat}
    (hr : Nar.cycle env r v = .ok r') : Lived env k (as ++ [.cycle v]) r' := by
  obtain ⟨ops, told, nums, next, g1, g2, g3, g4⟩ := h
  obtain ⟨c1, c2, c3⟩ := cycle_sim_ops hr
  have hk : r'.nGlobal = r.nGlobal := by
    have := congrArg Cfg.nGlobal c1
    exact this
  refine ⟨_, told, nums, next, by rw [c1]; exact runSys_moreSys g1 c3, ?_, by rw [c2, g3], by rw [hk, g4]⟩
  rw [c1]
  refine g2.other (.inl ⟨v, rfl⟩) rfl ?_ (by simp) ?_ (le_refl _)
  · intro op hop
    simp only [List.mem_cons, List.not_mem_nil, or_false] at hop
    rcases hop with rfl | rfl | rfl
    · exact procMem_sane hs.look.good.2.2
    · exact trivial
    · exact procMem_sane hs.good.2.2
  · rintro s ⟨cc, mc, now, hm⟩
    simp at hm

theorem Lived.work {env : Env} {k : Nat} {as : List Lecture} {r : Reasoner} (h : Lived env k as r) (hs : Safe env r) (ha : r.workerAlive = true) :
    Lived env k (as ++ [.work]) (declWork env r) := by
  obtain ⟨ops, told, nums, next, g1, g2, g3, g4⟩ := h
  obtain ⟨c1, c2⟩ := declWork_sim hs ha
  have hk : (declWork env r).nGlobal = r.nGlobal := congrArg Cfg.nGlobal c1
  refine ⟨_, told, nums, next, by rw [c1]; exact runSys_moreSys (b := [.work]) g1 (foldlM_cons_ok.2 ⟨_, c2, rfl⟩), ?_,
    by rw [declWork_counter, g3], by rw [hk, g4]⟩
  rw [c1]
  refine g2.other (.inr (.inl rfl)) rfl ?_ (by simp) ?_ (le_refl _)
  · intro op hop
    rw [List.mem_singleton.1 hop]; exact trivial
  · rintro s ⟨cc, mc, now, hm⟩
    simp at hm

theorem Lived.start (env : Env) (k : Nat) : Lived env k [] { createNar with nGlobal := k } := by
  refine ⟨[], [], [], 0, rfl, ?_, rfl, rfl⟩
  exact {
    flush := by simp
    cycles := rfl
    sane := by simp
    source := by rintro s ⟨_, _, _, h⟩; cases h
    heard := fun _ h => by cases h
    evidence := by rintro s ⟨_, _, _, h⟩; cases h
    asks := by rintro _ s ⟨_, _, _, h⟩; cases h
    complexity := rfl
    beliefs := rfl
    count := rfl
    below := fun _ h => by cases h
    among := fun _ h => by cases h
    nodup := List.nodup_nil
    terms := rfl }

theorem Lives.lived_from {env : Env} {k : Nat} {ops : List NarOp} {as : List Lecture} (hl : Lives env ops as) : ∀ {pre : List NarOp} {as0 : List Lecture}
    {r0 r : Reasoner}, (∀ a ∈ as, a.Fine) → runNar env pre = .ok r0 → Lived env k as0 r0 → moreNar env r0 ops = .ok r →
      SaneTelling env (pre ++ ops) → NarOp.workerLost ∉ pre ++ ops → NoReports r.proc.ops → Lived env k (as0 ++ as) r := by
  induction hl with
  | nil => intro pre as0 r0 r _ _ h h1 _ _ _; cases h1; rw [List.append_nil]; exact h
  | @learn a ops as _ ih =>
    intro pre as0 r0 r hf hp h h1 hs hw hn
    obtain ⟨r1, h2, h3⟩ := foldlM_cons_ok.1 h1
    have hp1 : runNar env (pre ++ [a.op]) = .ok r1 := moreNar_append.2 ⟨r0, hp, foldlM_cons_ok.2 ⟨r1, h2, rfl⟩⟩
    obtain ⟨s1, s2⟩ := runNar_safe hp hs.prefix
    have halive := s2 (fun hm => hw (List.mem_append_left _ hm))
    have hfa := hf a List.mem_cons_self
    have hlv : Lived env k (as0 ++ [a]) r1 := by
      cases a with
      | tell st => exact h.input h2 (not_forActing_statement (hfa.2.1 rfl rfl).1) (fun _ => (hfa.2.1 rfl rfl).2) (.inl ⟨rfl, rfl⟩)
      | ask q => exact h.input h2 (by simp [ForActing]) (fun e => by cases e) (.inr ⟨rfl, rfl⟩)
      | cycle v => exact h.cycle s1 h2
      | work => cases h2; exact h.work s1 halive
    have := @ih (pre ++ [a.op]) (as0 ++ [a]) r1 r (fun x hx => hf x (List.mem_cons_of_mem _ hx)) hp1 hlv h3 (by simpa using hs) (by simpa using hw) hn
    simpa using this
  | @statement l d st ops as hd _ ih =>
    intro pre as0 r0 r hf hp h h1 hs hw hn
    obtain ⟨r1, h2, h3⟩ := foldlM_cons_ok.1 h1
    have hp1 : runNar env (pre ++ [.line l d]) = .ok r1 := moreNar_append.2 ⟨r0, hp, foldlM_cons_ok.2 ⟨r1, h2, rfl⟩⟩
    have hfa := hf (.tell st) List.mem_cons_self
    have hlv : Lived env k (as0 ++ [.tell st]) r1 :=
      h.input (lineReads_run hd h2) (not_forActing_statement (hfa.2.1 rfl rfl).1) (fun _ => (hfa.2.1 rfl rfl).2) (.inl ⟨rfl, rfl⟩)
    have := @ih (pre ++ [.line l d]) (as0 ++ [.tell st]) r1 r (fun x hx => hf x (List.mem_cons_of_mem _ hx)) hp1 hlv h3 (by simpa using hs) (by simpa using hw) hn
    simpa using this
  | @question l d q tv ops as hd _ ih =>
    intro pre as0 r0 r hf hp h h1 hs hw hn
    obtain ⟨r1, h2, h3⟩ := foldlM_cons_ok.1 h1
    have hp1 : runNar env (pre ++ [.line l d]) = .ok r1 := moreNar_append.2 ⟨r0, hp, foldlM_cons_ok.2 ⟨r1, h2, rfl⟩⟩
    have hlv : Lived env k (as0 ++ [.ask q]) r1 :=
      h.input (lineReads_run hd h2) (by simp [ForActing]) (fun e => by cases e) (.inr ⟨rfl, rfl⟩)
    have := @ih (pre ++ [.line l d]) (as0 ++ [.ask q]) r1 r (fun x hx => hf x (List.mem_cons_of_mem _ hx)) hp1 hlv h3 (by simpa using hs) (by simpa using hw) hn
    simpa using this
  | @act op ops as ha _ ih =>
    intro pre as0 r0 r hf hp h h1 hs hw hn
    obtain ⟨r1, h2, h3⟩ := foldlM_cons_ok.1 h1
    have hp1 : runNar env (pre ++ [op]) = .ok r1 := moreNar_append.2 ⟨r0, hp, foldlM_cons_ok.2 ⟨r1, h2, rfl⟩⟩
    have hlv : Lived env k as0 r1 := h.act (ha.mind (hn.before h1) h2)
    exact @ih (pre ++ [op]) as0 r1 r hf hp1 hlv h3 (by simpa using hs) (by simpa using hw) hn

/-- a life is a history of the declarative system, and leaves the reasoner in order -/
theorem Lives.lived {env : Env} {k : Nat} {ops : List NarOp} {as : List Lecture} {r : Reasoner} (hl : Lives env ops as) (hf : ∀ a ∈ as, a.Fine)
    (h : runNar env (.handlers k :: ops) = .ok r) (hn : NoReports r.proc.ops) : Lived env k as r ∧ Safe env r ∧ r.workerAlive = true := by
  obtain ⟨hs, hw⟩ := hl.telling hf h hn
  have hw' : NarOp.workerLost ∉ NarOp.handlers k :: ops := by simpa using hw
  obtain ⟨s1, s2⟩ := runNar_safe h hs
  refine ⟨?_, s1, s2 hw'⟩
  obtain ⟨r0, h1, h2⟩ := foldlM_cons_ok.1 h
  have e : r0 = { createNar with nGlobal := k } := (Except.ok.inj h1).symm
  have := hl.lived_from (k := k) (pre := [.handlers k]) (as0 := []) (r0 := r0) hf (foldlM_cons_ok.2 ⟨r0, h1, rfl⟩) (e ▸ Lived.start env k) h2 hs hw' hn
  exact this

theorem Lives.append {env : Env} {a b : List NarOp} {as bs : List Lecture} (h : Lives env a as) (h' : Lives env b bs) : Lives env (a ++ b) (as ++ bs) := by
  induction h with
  | nil => exact h'
  | learn x _ ih => exact .learn x ih
  | statement d k _ ih => exact .statement d k ih
  | question d k _ ih => exact .question d k ih
  | act k _ ih => exact .act k ih

/-- a course is a life without acting -/
theorem Lives.course (env : Env) (as : List Lecture) : Lives env (as.map Lecture.op) as := by
  induction as with
  | nil => exact .nil
  | cons a as ih => exact .learn a ih

/-- the numbers do not matter for what can be deduced -/
theorem LifeSim.deducible {as : List Lecture} {cfg0 cfg cfg' : Cfg} {ops : List SysOp} {told : List (Nat × Term × Tv)} {nums : List Nat} {next : Nat}
    (h : LifeSim as cfg0 ops told nums next) {n : Int} (h1 : cfg.maxComplexity = n) (h2 : cfg'.maxComplexity = n) {t : Term} :
    (∃ E, Deducible cfg (PutIn ops) t E) ↔ ∃ E, Deducible cfg' (Lectured as) t E := by
  have hc : cfg'.maxComplexity = cfg.maxComplexity := h2.trans h1.symm
  constructor
  · rintro ⟨E, hd⟩
    have hsub : (told.map (·.2.1)).Subperm ((numberedIn 0 as).map (·.2.1)) := by
      rw [h.terms]; exact List.Subperm.refl _
    obtain ⟨R, r1, r2⟩ := renumbered (numberedIn_nodup as 0) hsub
    obtain ⟨F, k, _⟩ := hd.moved hc (told' := Lectured as) r1 (by
      intro s hs hj
      obtain ⟨p, hp, rfl⟩ := h.source s hs hj
      obtain ⟨p', q1, q2, q3⟩ := r2 p hp
      refine ⟨_, ⟨p', q1, rfl⟩, rfl, q2, fun x hx => ?_⟩
      have : x = (p'.1 : Int) := by simpa [toldAs, newEternalSentenceByTv] using hx
      exact ⟨p.1, by simp [toldAs, newEternalSentenceByTv], this ▸ q3⟩)
    exact ⟨F, k⟩
  · rintro ⟨E, hd⟩
    have hsub : ((numberedIn 0 as).map (·.2.1)).Subperm (told.map (·.2.1)) := by
      rw [h.terms]; exact List.Subperm.refl _
    obtain ⟨R, r1, r2⟩ := renumbered h.nodup hsub
    obtain ⟨F, k, _⟩ := hd.moved hc.symm (told' := PutIn ops) r1 (by
      rintro s ⟨p, hp, rfl⟩ _
      obtain ⟨p', q1, q2, q3⟩ := r2 p hp
      refine ⟨_, h.heard p' q1, rfl, q2, fun x hx => ?_⟩
      have : x = (p'.1 : Int) := by simpa [toldAs, newEternalSentenceByTv] using hx
      exact ⟨p.1, by simp [toldAs, newEternalSentenceByTv], this ▸ q3⟩)
    exact ⟨F, k⟩

theorem LifeSim.recalls {as : List Lecture} {cfg : Cfg} {ops : List SysOp} {told : List (Nat × Term × Tv)} {nums : List Nat} {next : Nat} {s : Sys}
    (h : LifeSim as cfg ops told nums next) (hr : runSys cfg ops = .ok s) : Recalls s.sh := by
  refine Recalls.more (s := { sh := createShared, queue := [], log := [] }) h.beliefs hr ?_ .init
  intro x cc mc now hx hj
  obtain ⟨tv, h1, h2, h3⟩ := h.sane _ hx hj
  exact ⟨hj, ⟨tv, h1, h3⟩, h2⟩

theorem LifeSim.silent {as : List Lecture} {cfg : Cfg} {ops : List SysOp} {told : List (Nat × Term × Tv)} {nums : List Nat} {next : Nat} {s : Sys}
    (h : LifeSim as cfg ops told nums next) (hr : runSys cfg ops = .ok s) (hq : NoQuestions as) : s.sh.questionTasks = [] ∧ s.log = [] := by
  refine silent_sys (s := { sh := createShared, queue := [], log := [] }) h.beliefs hr ?_ .init rfl
  intro x cc mc now hx
  have hj := h.asks hq x ⟨_, _, _, hx⟩
  obtain ⟨tv, h1, h2, h3⟩ := h.sane _ hx hj
  exact ⟨hj, ⟨tv, h1, h3⟩, h2⟩

end Nar
