import Verif.Spec.Bounded2
import Verif.Lemmas.Bounded4
import Verif.Lemmas.Course1
/-! # Helper lemmas: the limits of the reasoner as a whole -/
namespace Nar
open Term

theorem Limited.other {cfg cfg' : Cfg} {s : Sys} (h : Limited cfg s) (h1 : cfg'.maxComplexity = cfg.maxComplexity)
    (h2 : cfg'.nBeliefs = cfg.nBeliefs) : Limited cfg' s where
  inv := ⟨⟨h.inv.inv.valid, h.inv.inv.ids, h.inv.inv.fresh, h.inv.inv.nodup, (by rw [h1]; exact h.inv.inv.complexity), h.inv.inv.diff,
    h.inv.inv.sound, h.inv.inv.complete, h.inv.inv.keys⟩, h.inv.good⟩
  queue := h.queue
  tables := by rw [h2]; exact h.tables
  partners := h.partners

/-- the settings which matter never change -/
structure BuiltIn (r : Reasoner) : Prop where
  complexity : r.maxComplexity = 64
  beliefs : r.nConceptBeliefs = 20

theorem BuiltIn.limit {env : Env} {r : Reasoner} (h : BuiltIn r) : roundLimit (r.cfg env) = 15757 := by
  simp only [roundLimit, Reasoner.cfg, h.complexity, h.beliefs]
  decide

theorem runNar_builtIn {env : Env} {ops : List NarOp} {r : Reasoner} (h : runNar env ops = .ok r) : BuiltIn r :=
  ⟨(runNar_WDecl h).complexity, (runNar_WDecl h).beliefs⟩

/-- telling is an action of the declarative system -/
theorem inputT2_sim {env : Env} {r r' : Reasoner} {term : Term} {punct : Punct} {tv : Tv} {e : Bool} {rng : List Nat}
    (h : inputT2 env r term punct tv e rng = .ok r') (hs : SafeInput term punct tv e) :
    ∃ sops : List SysOp, (∀ op ∈ sops, op.Sane) ∧ (∀ op ∈ sops, ∀ v now, op ≠ .cycle v now) ∧ load (r.cfg env) sops ≤ 2 ∧
      moreSys (r.cfg env) r.sys sops = .ok r'.sys := by
  obtain ⟨c1, c2, c3, c4, c5, c6, c7, c8⟩ := inputT2_cases h
  rcases c8 with c8 | ⟨c8, _, hp⟩
  · refine ⟨[.newStampId], by simp [SysOp.Sane], by simp, by simp [load, SysOp.mayAdd], ?_⟩
    refine foldlM_cons_ok.2 ⟨_, rfl, ?_⟩
    show Except.ok _ = Except.ok _
    simp only [Reasoner.sys, c1, c3, c8]
  · refine ⟨[.newStampId, .input (newEternalSentenceByTv term punct tv ⟨[r.sh.stampIdCounter]⟩) true 1 r.proc.t], ?_, by simp,
      by simp [load, SysOp.mayAdd], ?_⟩
    · intro op hop
      simp only [List.mem_cons, List.not_mem_nil, or_false] at hop
      rcases hop with rfl | rfl
      · trivial
      · intro hj
        rcases hp with ⟨hq, _⟩ | ⟨hj', he, _⟩
        · rw [hq] at hj; cases hj
        · subst hj'; exact ⟨tv, rfl, (hs.2.1 rfl he).2⟩
    · refine foldlM_cons_ok.2 ⟨_, rfl, foldlM_cons_ok.2 ⟨_, R.bind_ok.2 ⟨r'.sh, c8, rfl⟩, ?_⟩⟩
      show Except.ok _ = Except.ok _
      simp only [Reasoner.sys, c1, c3]

theorem quiet_sim {env : Env} {r r' : Reasoner} {op : NarOp} (h : op.run env r = .ok r') (hs : Safe env r) (ha : r.workerAlive = true)
    (hu : BuiltIn r) (ho : SafeUse env op) (hn : op.NoCycle) :
    ∃ sops : List SysOp, (∀ o ∈ sops, o.Sane) ∧ (∀ o ∈ sops, ∀ v now, o ≠ .cycle v now) ∧ load (r.cfg env) sops ≤ op.mayBring ∧
      moreSys (r.cfg env) r.sys sops = .ok r'.sys := by
  have nothing : r'.sys = r.sys → ∃ sops : List SysOp, (∀ o ∈ sops, o.Sane) ∧ (∀ o ∈ sops, ∀ v now, o ≠ .cycle v now) ∧
      load (r.cfg env) sops ≤ op.mayBring ∧ moreSys (r.cfg env) r.sys sops = .ok r'.sys := fun e =>
    ⟨[], by simp, by simp, by simp [load], by rw [e]; rfl⟩
  cases op with
  | tell term punct tv e rng => exact inputT2_sim h ho
  | cycle v => exact hn.elim
  | declWork =>
    obtain ⟨c1, c2⟩ := declWork_sim hs ha
    have e : r' = declWork env r := (Except.ok.inj h).symm
    subst e
    refine ⟨[.work], by simp [SysOp.Sane], by simp, ?_, foldlM_cons_ok.2 ⟨_, c2, rfl⟩⟩
    simp [load, SysOp.mayAdd, hu.limit, NarOp.mayBring]
  | procWork rng => exact nothing (by rw [← Except.ok.inj h]; rfl)
  | handlers n => exact nothing (by rw [← Except.ok.inj h]; rfl)
  | verbosity v => exact nothing (by rw [← Except.ok.inj h]; rfl)
  | workerLost => exact ho.elim
  | link => exact nothing (by rw [← Except.ok.inj h]; rfl)
  | line l d =>
    obtain ⟨⟨r1, q, out⟩, h1, hr'⟩ := R.map_ok.1 h
    simp only at hr'
    subst hr'
    obtain ⟨hd, hr, _⟩ := input_ok h1
    obtain ⟨c, hc, hm⟩ := ho
    rw [hd] at hc
    have hn : ∀ arg, commandOf (trimNewline l) ≠ .cycles arg := hn
    rw [← Except.ok.inj hc] at hm
    clear hc hd h1 h
    generalize commandOf (trimNewline l) = c at hr hm hn
    cases c with
    | comment | quit | empty | babbleOff | babbleOn | debugMemory => exact nothing (by rw [← (Prod.mk.inj (Except.ok.inj hr)).1] <;> rfl)
    | flush =>
      refine ⟨[.flush], by simp [SysOp.Sane], by simp, by simp [load, SysOp.mayAdd], ?_⟩
      rw [← (Prod.mk.inj (Except.ok.inj hr)).1]; rfl
    | register arg =>
      refine nothing ?_
      simp only [runCommand] at hr
      split at hr <;> (rw [← (Prod.mk.inj (Except.ok.inj hr)).1] <;> rfl)
    | cycles arg => exact absurd rfl (hn arg)
    | narsese =>
      obtain ⟨⟨r2, b⟩, h2, h3⟩ := R.bind_ok.1 hr
      obtain ⟨rfl, _⟩ := Prod.mk.inj (Except.ok.inj h3)
      unfold inputN at h2
      obtain ⟨x, hx, h2⟩ := R.bind_ok.1 h2
      rcases x with _ | ⟨term, tv, punct, isEvent⟩
      · exact nothing (by rw [← (Prod.mk.inj (Except.ok.inj h2)).1])
      · obtain ⟨r3, h4, h5⟩ := R.bind_ok.1 h2
        obtain ⟨rfl, _⟩ := Prod.mk.inj (Except.ok.inj h5)
        exact inputT2_sim h4 (safeInput_of_text hx (hm.2 _ _ _ _ hx))
    | showEvidence | step | stepA | stepB | nlp _ | debugTasks => exact hm.elim

/-- what is known about a reasoner in declarative use -/
structure Fit (env : Env) (r : Reasoner) : Prop where
  safe : Safe env r
  alive : r.workerAlive = true
  usual : BuiltIn r
  limited : Limited (r.cfg env) r.sys

theorem sh_sane {env : Env} {r : Reasoner} (hs : Safe env r) {v : Rat} :
    ∀ op ∈ ([.procMem r.look.procMem, .cycle v (r.currentTime + 1), .procMem r.sh.procMem] : List SysOp), op.Sane := by
  intro op hop
  simp only [List.mem_cons, List.not_mem_nil, or_false] at hop
  rcases hop with rfl | rfl | rfl
  · exact procMem_sane hs.look.good.2.2
  · exact trivial
  · exact procMem_sane hs.good.2.2

theorem cycle_limited {env : Env} {r r' : Reasoner} {v : Rat} (h : cycle env r v = .ok r') (hs : Safe env r) (hl : Limited (r.cfg env) r.sys) :
    Limited (r'.cfg env) r'.sys ∧ r'.sh.cycleCounter = r.sh.cycleCounter + 1 ∧ (∀ n, KeepsAtMost r.sh n → KeepsAtMost r'.sh n) ∧
      (r'.sh.cycleCounter % 111 = 0 → KeepsAtMost r'.sh 30) := by
  obtain ⟨c1, _, c3⟩ := cycle_sim_ops h
  obtain ⟨a1, _⟩ := light_limited hl (sh_sane hs) c3
  rw [c1]
  refine ⟨a1, ?_⟩
  obtain ⟨s1, e1, g⟩ := foldlM_cons_ok.1 c3
  obtain ⟨s2, e2, g⟩ := foldlM_cons_ok.1 g
  obtain ⟨s3, e3, g⟩ := foldlM_cons_ok.1 g
  obtain ⟨⟨sh, msg, calls⟩, g1, g2⟩ := R.bind_ok.1 e2
  have f1 : s1.sh = { r.sh with procMem := r.look.procMem } := by rw [← Except.ok.inj e1]; rfl
  have f2 : s2.sh = sh := by rw [← Except.ok.inj g2]
  have f3 : r'.sh = { s2.sh with procMem := r.sh.procMem } := by
    have : r'.sys.sh = { s2.sh with procMem := r.sh.procMem } := by rw [← Except.ok.inj g, ← Except.ok.inj e3]
    exact this
  have key : ∀ n, KeepsAtMost r.sh n → r'.sh.cycleCounter = r.sh.cycleCounter + 1 ∧ KeepsAtMost r'.sh n ∧
      (r'.sh.cycleCounter % 111 = 0 → KeepsAtMost r'.sh 30) := by
    intro n hn
    have hk : KeepsAtMost s1.sh n := by rw [f1]; exact hn.same rfl rfl
    obtain ⟨k1, k2, k3, _⟩ := reasonCycle_keeps g1 hk
    rw [f3, f2]
    refine ⟨by rw [show ({ sh with procMem := r.sh.procMem } : Shared).cycleCounter = sh.cycleCounter from rfl, k1, f1], k2.same rfl rfl, fun hz => (k3 hz).same rfl rfl⟩
  have h0 : KeepsAtMost r.sh (r.sh.judgementTasks ++ r.sh.judgementTasksByTerm.flatMap (·.2)).length :=
    ⟨_, le_refl _, fun x hx => by
      rcases hx with hx | ⟨p, hp, hx⟩
      · exact List.mem_append_left _ hx
      · exact List.mem_append_right _ (List.mem_flatMap.2 ⟨p, hp, hx⟩)⟩
  exact ⟨(key _ h0).1, fun n hn => (key n hn).2.1, (key _ h0).2.2⟩

theorem BuiltIn.keeps {env : Env} {r : Reasoner} (h : BuiltIn r) {r' : Reasoner} (h' : BuiltIn r') {s : Sys} (hl : Limited (r.cfg env) s) :
    Limited (r'.cfg env) s := by
  refine hl.other ?_ ?_
  · show r'.maxComplexity = r.maxComplexity; rw [h.complexity, h'.complexity]
  · show r'.nConceptBeliefs = r.nConceptBeliefs; rw [h.beliefs, h'.beliefs]

/-- one action which is no cycle -/
theorem quiet_limited {env : Env} {r r' : Reasoner} {op : NarOp} (h : op.run env r = .ok r') (hf : Fit env r) (hu' : BuiltIn r')
    (ho : SafeUse env op) (hn : op.NoCycle) :
    Limited (r'.cfg env) r'.sys ∧ r'.sh.cycleCounter = r.sh.cycleCounter ∧
      ∀ n, KeepsAtMost r.sh n → KeepsAtMost r'.sh (n + op.mayBring) := by
  obtain ⟨sops, s1, s2, s3, s4⟩ := quiet_sim h hf.safe hf.alive hf.usual ho hn
  obtain ⟨a1, a2⟩ := light_limited hf.limited s1 s4
  refine ⟨hf.usual.keeps hu' a1, ?_, fun n hn => ?_⟩
  · exact (a2 (r.sh.judgementTasks ++ r.sh.judgementTasksByTerm.flatMap (·.2)).length ⟨_, le_refl _, fun x hx => by
      rcases hx with hx | ⟨p, hp, hx⟩
      · exact List.mem_append_left _ hx
      · exact List.mem_append_right _ (List.mem_flatMap.2 ⟨p, hp, hx⟩)⟩).2 s2
  · exact (a2 n hn).1.mono (by omega)

theorem declWork_settings (env : Env) (r : Reasoner) (h : BuiltIn r) : BuiltIn (declWork env r) := by
  unfold declWork
  split
  · split
    · exact h
    · split <;> exact ⟨h.complexity, h.beliefs⟩
  · exact h

theorem cycle_settings {env : Env} {r r' : Reasoner} {v : Rat} (h : cycle env r v = .ok r') (hb : BuiltIn r) : BuiltIn r' := by
  have e := (cycle_sim_ops h).1
  exact ⟨(congrArg Cfg.maxComplexity e).trans hb.complexity, (congrArg Cfg.nBeliefs e).trans hb.beliefs⟩

theorem Fit.work {env : Env} {r : Reasoner} (h : Fit env r) : Fit env (declWork env r) := by
  obtain ⟨a1, a2⟩ := declWork_safe h.safe
  have hb := declWork_settings env r h.usual
  exact ⟨a1, a2.trans h.alive, hb, (quiet_limited (op := .declWork) rfl h hb trivial trivial).1⟩

theorem Fit.works {env : Env} (n : Nat) {r : Reasoner} (h : Fit env r) : Fit env (declWorkN env r n) := by
  induction n generalizing r with
  | zero => exact h
  | succ n ih => exact ih h.work

theorem Fit.cycle {env : Env} {r r' : Reasoner} {v : Rat} (h : Fit env r) (hc : Nar.cycle env r v = .ok r') : Fit env r' := by
  obtain ⟨a1, a2⟩ := cycle_safe h.safe hc
  exact ⟨a1, a2.trans h.alive, cycle_settings hc h.usual, (cycle_limited hc h.safe h.limited).1⟩

theorem Fit.cycles {env : Env} {draws : Nat → Rat × Nat} {n i : Nat} {r r' : Reasoner} (h : Fit env r)
    (hc : cyclesLoop env draws n i r = .ok r') : Fit env r' := by
  induction n generalizing r i with
  | zero => cases hc; exact h
  | succ n ih =>
    unfold cyclesLoop at hc
    obtain ⟨r1, h1, hc⟩ := R.bind_ok.1 hc
    exact ih ((h.works _).cycle h1) hc

theorem Fit.start (env : Env) : Fit env createNar := by
  obtain ⟨s1, s2⟩ := runNar_safe (env := env) (ops := []) rfl (SafeUse.telling (fun o k => by cases k))
  exact ⟨s1, rfl, ⟨rfl, rfl⟩, Limited.start _⟩

/-- every action of a declarative use -/
theorem runNar_fit {env : Env} {ops : List NarOp} {r : Reasoner} (hs : ∀ op ∈ ops, SafeUse env op) (h : runNar env ops = .ok r) :
    Fit env r := by
  induction ops using List.reverseRecOn generalizing r with
  | nil => cases h; exact Fit.start env
  | append_singleton ops op ih =>
    obtain ⟨r0, h0, h1⟩ := moreNar_append.1 h
    have hf := ih (fun o k => hs o (List.mem_append_left _ k)) h0
    obtain ⟨r2, h2, h3⟩ := foldlM_cons_ok.1 h1
    have e : r2 = r := Except.ok.inj h3
    subst e
    have hop := hs op (List.mem_append_right _ (by simp))
    have hb := runNar_builtIn h
    obtain ⟨s1, s2⟩ := runNar_safe h (SafeUse.telling hs)
    have halive : r2.workerAlive = true := s2 (fun k => hs _ k)
    by_cases hn : op.NoCycle
    · exact ⟨s1, halive, hb, (quiet_limited h2 hf hb hop hn).1⟩
    · cases op with
      | cycle v => exact hf.cycle h2
      | line l d =>
        obtain ⟨⟨r1, q, out⟩, g1, g2⟩ := R.map_ok.1 h2
        simp only at g2
        subst g2
        obtain ⟨_, g3, _⟩ := input_ok g1
        simp only [NarOp.NoCycle, not_forall, not_not] at hn
        obtain ⟨arg, harg⟩ := hn
        rw [harg] at g3
        obtain ⟨n, _, g3⟩ := R.bind_ok.1 g3
        obtain ⟨r4, g4, g3⟩ := R.bind_ok.1 g3
        obtain ⟨rfl, _⟩ := Prod.mk.inj (Except.ok.inj g3)
        exact hf.cycles g4
      | _ => exact absurd trivial hn

theorem light_use {env : Env} {pre ops : List NarOp} {r r' : Reasoner} (hp : ∀ op ∈ pre, SafeUse env op) (h0 : runNar env pre = .ok r)
    (hs : ∀ op ∈ ops, SafeUse env op) (hq : ∀ op ∈ ops, op.NoCycle) (h : moreNar env r ops = .ok r') :
    r'.sh.cycleCounter = r.sh.cycleCounter ∧ ∀ n, KeepsAtMost r.sh n → KeepsAtMost r'.sh (n + (ops.map NarOp.mayBring).sum) := by
  induction ops generalizing pre r with
  | nil => cases h; exact ⟨rfl, fun n hn => hn⟩
  | cons op ops ih =>
    obtain ⟨r1, h1, h2⟩ := foldlM_cons_ok.1 h
    have hp1 : ∀ o ∈ pre ++ [op], SafeUse env o := by
      intro o ho
      rcases List.mem_append.1 ho with ho | ho
      · exact hp o ho
      · rw [List.mem_singleton.1 ho]; exact hs op (by simp)
    have g : runNar env (pre ++ [op]) = .ok r1 := moreNar_append.2 ⟨r, h0, foldlM_cons_ok.2 ⟨r1, h1, rfl⟩⟩
    obtain ⟨_, a2, a3⟩ := quiet_limited h1 (runNar_fit hp h0) (runNar_builtIn g) (hs op (by simp)) (hq op (by simp))
    obtain ⟨b1, b2⟩ := ih hp1 g (fun o k => hs o (by simp [k])) (fun o k => hq o (by simp [k])) h2
    refine ⟨b1.trans a2, fun n hn => (b2 _ (a3 n hn)).mono ?_⟩
    simp only [List.map_cons, List.sum_cons]; omega

theorem stretches_limited {env : Env} {k : Nat} (ds : List Stretch) (hd : ∀ d ∈ ds, LightUse env k d.before) {pre : List NarOp} {r r' : Reasoner}
    (hp : ∀ op ∈ pre, SafeUse env op) (h0 : runNar env pre = .ok r) (c : Nat) (hc : r.sh.cycleCounter = c)
    (hk : KeepsAtMost r.sh (30 + (c % 111) * k)) (h : moreNar env r (ds.flatMap Stretch.ops) = .ok r') :
    r'.sh.cycleCounter = ((c + ds.length : Nat) : Int) ∧ KeepsAtMost r'.sh (30 + ((c + ds.length) % 111) * k) := by
  induction ds generalizing pre r c with
  | nil => cases h; exact ⟨by simpa using hc, by simpa using hk⟩
  | cons d ds ih =>
    rw [List.flatMap_cons] at h
    obtain ⟨r1, h1, h⟩ := moreNar_append.1 h
    have g : runNar env (pre ++ d.ops) = .ok r1 := moreNar_append.2 ⟨r, h0, h1⟩
    unfold Stretch.ops at h1
    obtain ⟨r2, h2, h3⟩ := moreNar_append.1 h1
    obtain ⟨r3, h5, h4⟩ := foldlM_cons_ok.1 h3
    have e : r3 = r1 := Except.ok.inj h4
    subst e
    have hl := hd d (by simp)
    obtain ⟨a1, a2⟩ := light_use hp h0 hl.safe hl.quiet h2
    have hp2 : ∀ o ∈ pre ++ d.before, SafeUse env o := by
      intro o ho
      rcases List.mem_append.1 ho with ho | ho
      · exact hp o ho
      · exact hl.safe o ho
    have g2 : runNar env (pre ++ d.before) = .ok r2 := moreNar_append.2 ⟨r, h0, h2⟩
    have hf := runNar_fit hp2 g2
    obtain ⟨_, b2, b3, b4⟩ := cycle_limited (show Nar.cycle env r2 d.selVal = .ok r3 from h5) hf.safe hf.limited
    have hc' : r3.sh.cycleCounter = ((c + 1 : Nat) : Int) := by rw [b2, a1, hc]; push_cast; rfl
    have hk' : KeepsAtMost r3.sh (30 + ((c + 1) % 111) * k) := by
      by_cases hz : (c + 1) % 111 = 0
      · refine (b4 ?_).mono (by omega)
        rw [hc']; omega
      · refine (b3 _ (a2 _ hk)).mono ?_
        have e1 : (c + 1) % 111 = c % 111 + 1 := by omega
        rw [e1, Nat.add_mul]
        have := hl.load
        omega
    have hp3 : ∀ o ∈ pre ++ d.ops, SafeUse env o := by
      intro o ho
      rcases List.mem_append.1 ho with ho | ho
      · exact hp o ho
      · rcases List.mem_append.1 ho with ho | ho
        · exact hl.safe o ho
        · rw [List.mem_singleton.1 ho]; trivial
    obtain ⟨i1, i2⟩ := ih (fun x hx => hd x (by simp [hx])) hp3 g (c + 1) hc' hk' h
    have e2 : c + 1 + ds.length = c + (d :: ds).length := by simp only [List.length_cons]; omega
    rw [e2] at i1 i2
    exact ⟨i1, i2⟩

theorem addTasks_grow {cc : Bool} {mc : Rat} {ss : List Sentence} {sh sh' : Shared} (h : addTasks sh cc mc ss = .ok sh') :
    sh.judgementTasks.length ≤ sh'.judgementTasks.length := by
  induction ss generalizing sh with
  | nil => cases h; exact le_refl _
  | cons s ss ih =>
    unfold addTasks at h
    cases hp : s.punct with
    | JUGEMENT =>
      rw [hp] at h
      obtain ⟨tasks, g1, h⟩ := R.bind_ok.1 h
      split at h
      · cases h; exact le_refl _
      · obtain ⟨task, g2, h⟩ := R.bind_ok.1 h
        have := ih h
        simp only [List.length_append, List.length_cons, List.length_nil] at this
        omega
    | QUESTION => rw [hp] at h; have := ih (sh := { sh with questionTasks := _ }) h; exact this
    | GOAL => rw [hp] at h; exact ih h

/-- after a statement was told which is not too complex, something is pending -/
theorem addTasks_pending {cc : Bool} {mc : Rat} {s : Sentence} {ss : List Sentence} {sh sh' : Shared} (hj : s.punct = .JUGEMENT)
    (h : addTasks sh cc mc (s :: ss) = .ok sh') : sh'.judgementTasks ≠ [] := by
  unfold addTasks at h
  rw [hj] at h
  obtain ⟨tasks, g1, h⟩ := R.bind_ok.1 h
  split at h
  · rename_i hex
    cases h
    intro e
    unfold taskExists at hex
    obtain ⟨t, htm, _⟩ := List.any_eq_true.1 hex
    obtain ⟨a, ha, _⟩ := forall₂_right_mem (derefs_iff.1 g1) htm
    rw [e] at ha; cases ha
  · obtain ⟨task, g2, h⟩ := R.bind_ok.1 h
    have := addTasks_grow h
    intro e
    rw [e] at this
    simp at this

theorem told_pending {env : Env} {r r' : Reasoner} {term : Term} {tv : Tv} {rng : List Nat} (hn : ¬ IsTemporal term)
    (hc : (calcComplexity term : Int) ≤ r.maxComplexity) (h : inputT2 env r term .JUGEMENT tv false rng = .ok r') :
    r'.sh.judgementTasks ≠ [] ∧ r'.queue = r.queue := by
  obtain ⟨sh', h1, rfl⟩ := inputT2_statement hn h
  refine ⟨?_, rfl⟩
  rcases memAddTask_cases h1 with ⟨hx, _⟩ | ⟨_, mem, rev, _, h2⟩
  · have : r.maxComplexity < (calcComplexity term : Int) := hx
    omega
  · exact addTasks_pending rfl h2

end Nar
