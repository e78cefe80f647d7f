import Verif.Lemmas.Chance1
import Verif.Lemmas.Whole3
import Verif.Lemmas.Programs3
/-! # What is believed is not a matter of chance: the reasoner as a whole -/
namespace Nar
open Term

/-- two reasoners which think alike -/
structure Twin (r r' : Reasoner) : Prop where
  sh : r.sh.blank = r'.sh.blank
  queue : r.queue = r'.queue
  alive : r.workerAlive = r'.workerAlive
  time : r.currentTime = r'.currentTime
  steps : r.proc.t = r'.proc.t
  ops : r.proc.ops = r'.proc.ops
  beliefs : r.nConceptBeliefs = r'.nConceptBeliefs
  complexity : r.maxComplexity = r'.maxComplexity

theorem Twin.cfg {r r' : Reasoner} (h : Twin r r') (env : Env) : r'.cfg env = { r.cfg env with nGlobal := r'.nGlobal } := by
  unfold Reasoner.cfg
  rw [h.beliefs, h.complexity]

theorem Twin.stamp {r r' : Reasoner} (h : Twin r r') : r'.sh.stampIdCounter = r.sh.stampIdCounter := by
  have : r.sh.blank.stampIdCounter = r'.sh.blank.stampIdCounter := by rw [h.sh]
  exact this.symm

theorem memAddTask_twin {cfg : Cfg} (n : Nat) {s s' t t' : Shared} (h : s.blank = s'.blank) {x : Sentence} {cc : Bool} {mul : Rat} {now : Int}
    (h1 : memAddTask cfg s x cc mul now = .ok t) (h2 : memAddTask { cfg with nGlobal := n } s' x cc mul now = .ok t') :
    t.blank = t'.blank := by
  have k1 := memAddTask_blank cfg n s x cc mul now
  have k2 := memAddTask_blank { cfg with nGlobal := n } n s' x cc mul now
  rw [h1] at k1
  rw [h2] at k2
  rw [h] at k1
  exact Except.ok.inj (k1.symm.trans k2)

/-- what a sentence told does to declarative knowledge -/
theorem inputT2_frame {env : Env} {r r' : Reasoner} {term : Term} {punct : Punct} {tv : Tv} {isEvent : Bool} {rng : List Nat}
    (h : inputT2 env r term punct tv isEvent rng = .ok r') :
    r'.currentTime = r.currentTime ∧ r'.proc.t = r.proc.t ∧ r'.proc.ops = r.proc.ops ∧
    (ForActing term punct isEvent → r'.sh = { r.sh with stampIdCounter := r.sh.stampIdCounter + 1 }) ∧
    (¬ ForActing term punct isEvent → memAddTask (r.cfg env) { r.sh with stampIdCounter := r.sh.stampIdCounter + 1 }
        (newEternalSentenceByTv term punct tv ⟨[r.sh.stampIdCounter]⟩) true 1 r.proc.t = .ok r'.sh) := by
  unfold inputT2 at h
  obtain ⟨_, _, h⟩ := R.bind_ok.1 h
  cases isEvent with
  | true =>
    simp only [if_true] at h
    unfold inputEventT at h
    cases punct with
    | GOAL =>
      obtain ⟨g, hg, h⟩ := R.bind_ok.1 h
      cases h; simp [ForActing]
    | QUESTION =>
      simp only [newEternalSentenceByTv] at h
      unfold addInputTask at h
      obtain ⟨sh, hs, h⟩ := R.bind_ok.1 h
      cases h
      exact ⟨rfl, rfl, rfl, fun hn => by simp [ForActing] at hn, fun _ => hs⟩
    | JUGEMENT => cases h; simp [ForActing, eventHappened]
  | false =>
    simp only [Bool.false_eq_true, if_false] at h
    unfold inputEternalT at h
    split at h
    · rename_i ht
      replace ht : isTemporalQuestion term = true := ht
      cases punct with
      | GOAL => cases h; simp [ForActing]
      | QUESTION => cases h; simp [ForActing]
      | JUGEMENT =>
        obtain ⟨g, hg, h⟩ := R.bind_ok.1 h
        cases h; simp [ForActing, ht]
    · rename_i hn
      replace hn : ¬ isTemporalQuestion term = true := hn
      cases punct with
      | GOAL => cases h; simp [ForActing]
      | QUESTION => cases h; simp [ForActing]
      | JUGEMENT =>
        simp only [newEternalSentenceByTv] at h
        unfold addInputTask at h
        obtain ⟨sh, hs, h⟩ := R.bind_ok.1 h
        cases h
        exact ⟨rfl, rfl, rfl, fun hx => by simp [ForActing, hn] at hx, fun _ => hs⟩

theorem Twin.input {env : Env} {r r' s s' : Reasoner} (h : Twin r r') {term term' : Term} {punct punct' : Punct} {tv tv' : Tv}
    {isEvent isEvent' : Bool} {rng rng' : List Nat} (h1 : inputT2 env r term punct tv isEvent rng = .ok s)
    (h2 : inputT2 env r' term' punct' tv' isEvent' rng' = .ok s')
    (hs : (term = term' ∧ punct = punct' ∧ tv = tv' ∧ isEvent = isEvent') ∨
      (ForActing term punct isEvent ∧ ForActing term' punct' isEvent')) : Twin s s' := by
  obtain ⟨a1, a2, a3, a4, a5⟩ := inputT2_frame h1
  obtain ⟨b1, b2, b3, b4, b5⟩ := inputT2_frame h2
  obtain ⟨c1, c2, c3, c4, c5, c6, c7, _⟩ := inputT2_cases h1
  obtain ⟨d1, d2, d3, d4, d5, d6, d7, _⟩ := inputT2_cases h2
  have hst : ({ r.sh with stampIdCounter := r.sh.stampIdCounter + 1 } : Shared).blank =
      ({ r'.sh with stampIdCounter := r'.sh.stampIdCounter + 1 } : Shared).blank := by
    have : ({ r.sh.blank with stampIdCounter := r.sh.blank.stampIdCounter + 1 } : Shared) =
      { r'.sh.blank with stampIdCounter := r'.sh.blank.stampIdCounter + 1 } := by rw [h.sh]
    exact this
  refine ⟨?_, by rw [c1, d1, h.queue], by rw [c2, d2, h.alive], by rw [a1, b1, h.time], by rw [a2, b2, h.steps],
    by rw [a3, b3, h.ops], by rw [c5, d5, h.beliefs], by rw [c6, d6, h.complexity]⟩
  have both : ForActing term punct isEvent → ForActing term' punct' isEvent' → s.sh.blank = s'.sh.blank := by
    intro k1 k2
    rw [a4 k1, b4 k2]
    exact hst
  rcases hs with ⟨rfl, rfl, rfl, rfl⟩ | ⟨k1, k2⟩
  · by_cases hk : ForActing term punct isEvent
    · exact both hk hk
    · have m1 := a5 hk
      have m2 := b5 hk
      rw [h.cfg env, h.stamp, ← h.steps] at m2
      rw [h.stamp] at hst
      exact memAddTask_twin _ hst m1 m2
  · exact both k1 k2

theorem look_blank (r : Reasoner) : r.look.blank = r.sh.blank := by
  unfold Reasoner.look
  split <;> rfl

theorem cycle_frame {env : Env} {r s : Reasoner} {v : Rat} (h : Nar.cycle env r v = .ok s) :
    s.proc = r.proc ∧ s.workerAlive = r.workerAlive ∧ s.currentTime = r.currentTime + 1 ∧ s.nConceptBeliefs = r.nConceptBeliefs ∧
      s.maxComplexity = r.maxComplexity ∧ ∃ m, s.queue = r.queue ++ m.toList ∧
      ∀ n, thinkCycle { r.cfg env with nGlobal := n } (r.currentTime + 1) r.sh.blank = .ok (s.sh.blank, m) := by
  unfold Nar.cycle at h
  obtain ⟨⟨sh, m, calls⟩, h1, h⟩ := R.bind_ok.1 h
  have hb := fun n => reasonCycle_blank n h1
  rw [look_blank] at hb
  cases m with
  | none =>
    cases h
    exact ⟨rfl, rfl, rfl, rfl, rfl, none, by simp, hb⟩
  | some m =>
    simp only [sendMsg] at h
    split at h
    · cases h
      exact ⟨rfl, rfl, rfl, rfl, rfl, some m, rfl, hb⟩
    · cases h

theorem Twin.cycle {env : Env} {r r' s s' : Reasoner} (h : Twin r r') {v v' : Rat} (h1 : Nar.cycle env r v = .ok s)
    (h2 : Nar.cycle env r' v' = .ok s') : Twin s s' := by
  obtain ⟨a1, a2, a3, a4, a5, m, a6, a7⟩ := cycle_frame h1
  obtain ⟨b1, b2, b3, b4, b5, m', b6, b7⟩ := cycle_frame h2
  have k1 := a7 0
  have k2 := b7 0
  rw [h.cfg env, ← h.sh, ← h.time] at k2
  have k2' : thinkCycle { r.cfg env with nGlobal := 0 } (r.currentTime + 1) r.sh.blank = .ok (s'.sh.blank, m') := k2
  obtain ⟨e1, e2⟩ := Prod.mk.inj (Except.ok.inj (k1.symm.trans k2'))
  subst e2
  exact ⟨e1, by rw [a6, b6, h.queue], by rw [a2, b2, h.alive], by rw [a3, b3, h.time], by rw [a1, b1, h.steps],
    by rw [a1, b1, h.ops], by rw [a4, b4, h.beliefs], by rw [a5, b5, h.complexity]⟩

theorem Twin.declWork {r r' : Reasoner} (h : Twin r r') (env : Env) : Twin (declWork env r) (declWork env r') := by
  unfold Nar.declWork
  rw [← h.alive, ← h.queue]
  split
  · cases r.queue with
    | nil => exact h
    | cons m rest =>
      simp only
      have hw := work_blank (r.cfg env) r'.nGlobal r.sh r'.sh h.sh m
      rw [← h.cfg env] at hw
      cases ha : work (r.cfg env) r.sh m with
      | error e =>
        rw [ha] at hw
        cases hb : work (r'.cfg env) r'.sh m with
        | error e' => exact ⟨h.sh, rfl, rfl, h.time, h.steps, h.ops, h.beliefs, h.complexity⟩
        | ok y => rw [hb] at hw; cases hw
      | ok x =>
        rw [ha] at hw
        cases hb : work (r'.cfg env) r'.sh m with
        | error e' => rw [hb] at hw; cases hw
        | ok y =>
          rw [hb] at hw
          obtain ⟨x1, x2⟩ := x
          obtain ⟨y1, y2⟩ := y
          exact ⟨(Except.ok.inj hw).symm, rfl, rfl, h.time, h.steps, h.ops, h.beliefs, h.complexity⟩
  · exact h

theorem Twin.declWorkN (env : Env) (n : Nat) : ∀ {r r' : Reasoner}, Twin r r' → Twin (declWorkN env r n) (declWorkN env r' n) := by
  induction n with
  | zero => intro r r' h; exact h
  | succ n ih => intro r r' h; exact ih (h.declWork env)

theorem Twin.cycles (env : Env) {c c' : Nat → Rat × Nat} (hc : ∀ i, (c i).2 = (c' i).2) (n : Nat) : ∀ (i : Nat) {r r' s s' : Reasoner},
    Twin r r' → cyclesLoop env c n i r = .ok s → cyclesLoop env c' n i r' = .ok s' → Twin s s' := by
  induction n with
  | zero => intro i r r' s s' h h1 h2; cases h1; cases h2; exact h
  | succ n ih =>
    intro i r r' s s' h h1 h2
    obtain ⟨x, k1, h1⟩ := R.bind_ok.1 h1
    obtain ⟨y, k2, h2⟩ := R.bind_ok.1 h2
    rw [← hc i] at k2
    exact ih (i + 1) ((h.declWorkN env _).cycle k1 k2) h1 h2

theorem Twin.inputN {env : Env} {r r' : Reasoner} (h : Twin r r') {l : List Char} {rng rng' : List Nat} {s s' : Reasoner × Bool}
    (h1 : inputN env r l rng = .ok s) (h2 : inputN env r' l rng' = .ok s') : Twin s.1 s'.1 := by
  unfold Nar.inputN at h1 h2
  obtain ⟨p, hp, h1⟩ := R.bind_ok.1 h1
  obtain ⟨p', hp', h2⟩ := R.bind_ok.1 h2
  cases Except.ok.inj (hp.symm.trans hp')
  cases p with
  | none => cases h1; cases h2; exact h
  | some p =>
    obtain ⟨t, tv, punct, ev⟩ := p
    obtain ⟨x, k1, h1⟩ := R.bind_ok.1 h1
    obtain ⟨y, k2, h2⟩ := R.bind_ok.1 h2
    cases h1; cases h2
    exact h.input k1 k2 (.inl ⟨rfl, rfl, rfl, rfl⟩)

theorem Twin.nlp {env : Env} {rng rng' : List Nat} (rels : List Relation) : ∀ {r r' s s' : Reasoner}, Twin r r' →
    nlpProcess env r rels rng = .ok s → nlpProcess env r' rels rng' = .ok s' → Twin s s' := by
  unfold nlpProcess
  induction rels with
  | nil => intro r r' s s' h h1 h2; cases h1; cases h2; exact h
  | cons rel rels ih =>
    intro r r' s s' h h1 h2
    obtain ⟨x, k1, h1⟩ := foldlM_cons_ok.1 h1
    obtain ⟨y, k2, h2⟩ := foldlM_cons_ok.1 h2
    obtain ⟨l, hl, k1⟩ := R.bind_ok.1 k1
    obtain ⟨l', hl', k2⟩ := R.bind_ok.1 k2
    cases Except.ok.inj (hl.symm.trans hl')
    obtain ⟨x', e1, hx⟩ := R.bind_ok.1 k1
    obtain ⟨y', e2, hy⟩ := R.bind_ok.1 k2
    cases hx; cases hy
    exact ih (h.inputN e1 e2) h1 h2

/-! ## acting -/

theorem forall₂_right {α β : Type} {P : α → β → Prop} {l : List α} {m : List β} (h : List.Forall₂ P l m) {b : β} (hb : b ∈ m) :
    ∃ a, P a b := by
  induction h with
  | nil => cases hb
  | cons h1 _ ih =>
    rcases List.mem_cons.1 hb with rfl | hb
    · exact ⟨_, h1⟩
    · exact ih hb

theorem callOp_noReports {ops : List Op} (hn : NoReports ops) (n : Nat) : ∀ {op : Op} {args : List Term} {effs : List OpEffect},
    op ∈ ops → callOp ops n op args = .ok effs → ∀ e ∈ effs, ∃ t, e = .inject t := by
  induction n with
  | zero => intro op args effs _ h; cases h
  | succ n ih =>
    intro op args effs ho h e he
    simp only [callOp] at h
    split at h
    · cases h; cases he
    · rename_i hb
      split at h
      · unfold execAndInject at h
        split at h
        · obtain ⟨l, hl, h⟩ := R.bind_ok.1 h
          cases h
          rcases List.mem_append.1 he with he | he
          · obtain ⟨es, hes, he⟩ := List.mem_flatten.1 he
            have hl := mapM_ok_iff.1 hl
            obtain ⟨t, ht⟩ := forall₂_right hl hes
            unfold execOne at ht
            split at ht
            · split at ht
              · rename_i op' hop'
                obtain ⟨_, _, ht⟩ := R.bind_ok.1 ht
                exact ih (List.mem_of_find?_eq_some hop') ht e he
              · cases ht; cases he
            · cases ht; cases he
          · rw [List.mem_singleton.1 he]; exact ⟨_, rfl⟩
        · cases h; cases he
      · split at h
        · rename_i hname
          rcases hn op ho with k | k
          · exact absurd k hb
          · exact absurd (by simpa using hname) k
        · cases h; cases he

theorem declEffects_noReports {env : Env} {r s : Reasoner} {ops : List Op} (hn : NoReports ops) {t : Int} {act : Option Term}
    (h : declEffects env r ops t act = .ok s) : s = r := by
  unfold declEffects at h
  cases act with
  | none => cases h; rfl
  | some term =>
    simp only at h
    split at h
    · cases h; rfl
    · obtain ⟨effs, h1, h⟩ := R.bind_ok.1 h
      obtain ⟨sh, h2, h⟩ := R.bind_ok.1 h
      have he : ∀ e ∈ effs, ∃ t, e = .inject t := by
        unfold opEffects at h1
        split at h1
        · rename_i op hop
          exact callOp_noReports hn _ (List.mem_of_find?_eq_some hop) h1
        · cases h1; intro e he; cases he
      have : sh = r.sh := by
        refine foldlM_inv (fun x => x = r.sh) h2 rfl ?_
        intro e hm x x' hx hxx
        obtain ⟨t', rfl⟩ := he e hm
        cases hxx
        exact hx
      cases h
      rw [this]

theorem procStep1_frame {env : Env} {r s : Reasoner} {d : LineDraws} (hn : NoReports r.proc.ops) (h : procStep1 env r d = .ok s) :
    ∃ p, s = { r with proc := p } ∧ p.t = r.proc.t + 1 ∧ p.ops = r.proc.ops := by
  unfold procStep1 at h
  obtain ⟨⟨p, act⟩, h1, h⟩ := R.bind_ok.1 h
  have := declEffects_noReports hn h
  obtain ⟨g, g2, an, evs, concepts, goals, had, hdec, _, rfl, _⟩ := narStep1_spec libCall_reports h1
  exact ⟨_, this, rfl, rfl⟩

theorem procStep1_ops {env : Env} {r s : Reasoner} {d : LineDraws} (h : procStep1 env r d = .ok s) : s.proc.ops = r.proc.ops := by
  unfold procStep1 at h
  obtain ⟨⟨p, act⟩, h1, h⟩ := R.bind_ok.1 h
  have := declEffects_proc h
  obtain ⟨g, g2, an, evs, concepts, goals, had, hdec, _, rfl, _⟩ := narStep1_spec libCall_reports h1
  rw [this]

theorem between_frame (l : List (List Nat)) : ∀ r : Reasoner, ∃ p, l.foldl procWork r = { r with proc := p } ∧ p.t = r.proc.t ∧
    p.ops = r.proc.ops := by
  induction l with
  | nil => intro r; exact ⟨r.proc, rfl, rfl, rfl⟩
  | cons a l ih =>
    intro r
    obtain ⟨p, hp, h1, h2⟩ := ih (procWork r a)
    have hr := workerStep_rest r.proc a
    exact ⟨p, hp, h1.trans hr.2.1, h2.trans hr.2.2.1⟩

theorem procStep_frame {env : Env} {r s : Reasoner} {d : LineDraws} (hn : NoReports r.proc.ops) (h : procStep env r d = .ok s) :
    ∃ p, s = { r with proc := p } ∧ p.t = r.proc.t + 1 ∧ p.ops = r.proc.ops := by
  unfold procStep at h
  obtain ⟨p0, h0, h⟩ := R.bind_ok.1 h
  obtain ⟨heap, new, rfl, _⟩ := narStep0_spec h0
  obtain ⟨p1, hp1, k1, k2⟩ := between_frame d.between { r with proc := _ }
  rw [hp1] at h
  obtain ⟨p2, hp2, k3, k4⟩ := procStep1_frame (show NoReports p1.ops by rw [k2]; exact hn) h
  exact ⟨p2, hp2, by rw [k3]; show p1.t + 1 = _; rw [k1], by rw [k4]; show p1.ops = _; rw [k2]⟩

theorem procStep_ops {env : Env} {r s : Reasoner} {d : LineDraws} (h : procStep env r d = .ok s) : s.proc.ops = r.proc.ops := by
  unfold procStep at h
  obtain ⟨p0, h0, h⟩ := R.bind_ok.1 h
  obtain ⟨heap, new, rfl, _⟩ := narStep0_spec h0
  obtain ⟨p1, hp1, k1, k2⟩ := between_frame d.between { r with proc := _ }
  rw [hp1] at h
  rw [procStep1_ops h]
  exact k2

theorem Twin.proc {r r' : Reasoner} (h : Twin r r') {p p' : Proc} (ht : p.t = p'.t) (ho : p.ops = p'.ops) :
    Twin { r with proc := p } { r' with proc := p' } := ⟨h.sh, h.queue, h.alive, h.time, ht, ho, h.beliefs, h.complexity⟩

/-- a line adds the operator which it registers -/
theorem input_registers {env : Env} {r : Reasoner} {l : List Char} {d : LineDraws} {x : Reasoner × Bool × List (List Char)}
    (h : Nar.input env r l d = .ok x) : ∃ new, x.1.proc.ops = r.proc.ops ++ new ∧
      ∀ op ∈ new, ∃ arg, dispatch (trimNewline l) = .ok (.register arg) ∧ registeredOp (splitWhitespace arg []) = some op := by
  have inN : ∀ {r : Reasoner} {l : List Char} {rng : List Nat} {y : Reasoner × Bool}, Nar.inputN env r l rng = .ok y →
      y.1.proc.ops = r.proc.ops := by
    intro r l rng y hy
    unfold Nar.inputN at hy
    obtain ⟨p, hp, hy⟩ := R.bind_ok.1 hy
    cases p with
    | none => cases hy; rfl
    | some p =>
      obtain ⟨t, tv, punct, ev⟩ := p
      obtain ⟨z, k1, hy⟩ := R.bind_ok.1 hy
      cases hy
      exact (inputT2_frame k1).2.2.1
  unfold Nar.input at h
  obtain ⟨c, hc, h⟩ := R.bind_ok.1 h
  obtain ⟨⟨s, out⟩, h1, h⟩ := R.bind_ok.1 h
  cases h
  have same : s.proc.ops = r.proc.ops → ∃ new, s.proc.ops = r.proc.ops ++ new ∧
      ∀ op ∈ new, ∃ arg, dispatch (trimNewline l) = .ok (.register arg) ∧ registeredOp (splitWhitespace arg []) = some op :=
    fun e => ⟨[], by simp [e], fun op k => by cases k⟩
  show ∃ new, s.proc.ops = r.proc.ops ++ new ∧
      ∀ op ∈ new, ∃ arg, dispatch (trimNewline l) = .ok (.register arg) ∧ registeredOp (splitWhitespace arg []) = some op
  cases c with
  | comment => cases h1; exact same rfl
  | quit => cases h1; exact same rfl
  | empty => cases h1; exact same rfl
  | showEvidence => obtain ⟨_, _, h1⟩ := R.bind_ok.1 h1; cases h1; exact same rfl
  | step => obtain ⟨_, k, h1⟩ := R.bind_ok.1 h1; cases h1; exact same (procStep_ops k)
  | stepA =>
    obtain ⟨_, k, h1⟩ := R.bind_ok.1 h1; cases h1
    obtain ⟨heap, new, rfl, _⟩ := narStep0_spec k
    exact same rfl
  | stepB => obtain ⟨_, k, h1⟩ := R.bind_ok.1 h1; cases h1; exact same (procStep1_ops k)
  | cycles arg =>
    obtain ⟨n, _, h1⟩ := R.bind_ok.1 h1
    obtain ⟨s', k, h1⟩ := R.bind_ok.1 h1
    cases h1
    exact same (by rw [cyclesLoop_proc k])
  | flush => cases h1; exact same rfl
  | register arg =>
    simp only [runCommand] at h1
    split at h1
    · rename_i op hop
      cases h1
      exact ⟨[op], rfl, fun o k => by rw [List.mem_singleton.1 k]; exact ⟨arg, hc, hop⟩⟩
    · cases h1; exact same rfl
  | babbleOff => cases h1; exact same rfl
  | babbleOn => cases h1; exact same rfl
  | nlp text =>
    obtain ⟨s', k, h1⟩ := R.bind_ok.1 h1
    cases h1
    refine same (foldlM_inv (fun x : Reasoner => x.proc.ops = r.proc.ops) k rfl ?_)
    intro rel _ x x' hx hxx
    obtain ⟨l, hl, hxx⟩ := R.bind_ok.1 hxx
    obtain ⟨y, hy, hxx⟩ := R.bind_ok.1 hxx
    cases hxx
    rw [inN hy]
    exact hx
  | debugTasks => obtain ⟨_, _, h1⟩ := R.bind_ok.1 h1; cases h1; exact same rfl
  | debugMemory => cases h1; exact same rfl
  | narsese =>
    obtain ⟨y, k, h1⟩ := R.bind_ok.1 h1
    cases h1
    exact same (inN k)

/-- registered operators stay registered -/
theorem input_ops {env : Env} {r : Reasoner} {l : List Char} {d : LineDraws} {x : Reasoner × Bool × List (List Char)}
    (h : Nar.input env r l d = .ok x) : ∀ op ∈ r.proc.ops, op ∈ x.1.proc.ops := by
  obtain ⟨new, h1, _⟩ := input_registers h
  rw [h1]
  exact fun op k => List.mem_append_left _ k

theorem NarOp.run_ops {env : Env} {r s : Reasoner} {op : NarOp} (h : op.run env r = .ok s) : ∀ o ∈ r.proc.ops, o ∈ s.proc.ops := by
  cases op with
  | line l d =>
    obtain ⟨x, hx, rfl⟩ := R.map_ok.1 h
    exact input_ops hx
  | tell t punct tv ev rng => rw [(inputT2_frame h).2.2.1]; exact fun _ k => k
  | cycle v => rw [(cycle_frame h).1]; exact fun _ k => k
  | declWork =>
    cases h
    have : (Nar.declWork env r).proc = r.proc := by
      unfold Nar.declWork
      split
      · split
        · rfl
        · split <;> rfl
      · rfl
    rw [this]; exact fun _ k => k
  | procWork rng =>
    cases h
    show ∀ o ∈ r.proc.ops, o ∈ (workerStep r.proc rng).ops
    rw [(workerStep_rest r.proc rng).2.2.1]; exact fun _ k => k
  | handlers n => cases h; exact fun _ k => k
  | verbosity n => cases h; exact fun _ k => k
  | workerLost => cases h; exact fun _ k => k
  | link => cases h; exact fun _ k => k

theorem Twin.line {env : Env} {r r' : Reasoner} (h : Twin r r') {l : List Char} {d d' : LineDraws} (hd : d.rels = d'.rels)
    (hc : ∀ i, (d.cycles i).2 = (d'.cycles i).2) (hn : NoReports r.proc.ops)
    {x x' : Reasoner × Bool × List (List Char)} (h1 : Nar.input env r l d = .ok x) (h2 : Nar.input env r' l d' = .ok x') :
    Twin x.1 x'.1 := by
  unfold Nar.input at h1 h2
  obtain ⟨c, hc1, h1⟩ := R.bind_ok.1 h1
  obtain ⟨c', hc2, h2⟩ := R.bind_ok.1 h2
  cases Except.ok.inj (hc1.symm.trans hc2)
  obtain ⟨⟨s, out⟩, g1, k⟩ := R.bind_ok.1 h1
  obtain ⟨⟨s', out'⟩, g2, k'⟩ := R.bind_ok.1 h2
  cases k; cases k'
  clear h1 h2
  show Twin s s'
  have hn' : NoReports r'.proc.ops := by rw [← h.ops]; exact hn
  cases c with
  | comment => cases g1; cases g2; exact h
  | quit => cases g1; cases g2; exact h
  | empty => cases g1; cases g2; exact h
  | showEvidence =>
    obtain ⟨_, _, g1⟩ := R.bind_ok.1 g1; cases g1
    obtain ⟨_, _, g2⟩ := R.bind_ok.1 g2; cases g2
    exact h
  | step =>
    obtain ⟨_, k1, g1⟩ := R.bind_ok.1 g1; cases g1
    obtain ⟨_, k2, g2⟩ := R.bind_ok.1 g2; cases g2
    obtain ⟨p, rfl, p1, p2⟩ := procStep_frame hn k1
    obtain ⟨p', rfl, p3, p4⟩ := procStep_frame hn' k2
    exact h.proc (by rw [p1, p3, h.steps]) (by rw [p2, p4, h.ops])
  | stepA =>
    obtain ⟨_, k1, g1⟩ := R.bind_ok.1 g1; cases g1
    obtain ⟨_, k2, g2⟩ := R.bind_ok.1 g2; cases g2
    obtain ⟨_, _, rfl, _⟩ := narStep0_spec k1
    obtain ⟨_, _, rfl, _⟩ := narStep0_spec k2
    exact h.proc h.steps h.ops
  | stepB =>
    obtain ⟨_, k1, g1⟩ := R.bind_ok.1 g1; cases g1
    obtain ⟨_, k2, g2⟩ := R.bind_ok.1 g2; cases g2
    obtain ⟨p, rfl, p1, p2⟩ := procStep1_frame hn k1
    obtain ⟨p', rfl, p3, p4⟩ := procStep1_frame hn' k2
    exact h.proc (by rw [p1, p3, h.steps]) (by rw [p2, p4, h.ops])
  | cycles arg =>
    obtain ⟨n, e1, g1⟩ := R.bind_ok.1 g1
    obtain ⟨n', e2, g2⟩ := R.bind_ok.1 g2
    cases Except.ok.inj (e1.symm.trans e2)
    obtain ⟨_, k1, g1⟩ := R.bind_ok.1 g1; cases g1
    obtain ⟨_, k2, g2⟩ := R.bind_ok.1 g2; cases g2
    exact Twin.cycles env hc _ _ h k1 k2
  | flush =>
    cases g1; cases g2
    refine ⟨?_, h.queue, h.alive, h.time, h.steps, h.ops, h.beliefs, h.complexity⟩
    show (flushTasks r.sh).blank = (flushTasks r'.sh).blank
    have e : ∀ z : Shared, (flushTasks z).blank = flushTasks z.blank := fun _ => rfl
    rw [e, e, h.sh]
  | register arg =>
    simp only [runCommand] at g1 g2
    split at g1
    · rename_i op hop
      rw [hop] at g2
      cases g1; cases g2
      exact ⟨h.sh, h.queue, h.alive, h.time, h.steps, by show _ ++ _ = _ ++ _; rw [h.ops], h.beliefs, h.complexity⟩
    · rename_i hop
      rw [hop] at g2
      cases g1; cases g2
      exact h
  | babbleOff => cases g1; cases g2; exact h.proc h.steps h.ops
  | babbleOn => cases g1; cases g2; exact h.proc h.steps h.ops
  | nlp text =>
    obtain ⟨_, k1, g1⟩ := R.bind_ok.1 g1; cases g1
    obtain ⟨_, k2, g2⟩ := R.bind_ok.1 g2; cases g2
    rw [← hd] at k2
    exact Twin.nlp _ h k1 k2
  | debugTasks =>
    obtain ⟨_, _, g1⟩ := R.bind_ok.1 g1; cases g1
    obtain ⟨_, _, g2⟩ := R.bind_ok.1 g2; cases g2
    exact h
  | debugMemory => cases g1; cases g2; exact h
  | narsese =>
    obtain ⟨x, k1, g1⟩ := R.bind_ok.1 g1; cases g1
    obtain ⟨y, k2, g2⟩ := R.bind_ok.1 g2; cases g2
    exact h.inputN k1 k2

theorem Twin.lineActing {env : Env} {r r' : Reasoner} (h : Twin r r') {l l' : List Char} {d d' : LineDraws} (hl : LineForActing env l)
    (hl' : LineForActing env l') {x x' : Reasoner × Bool × List (List Char)} (h1 : Nar.input env r l d = .ok x)
    (h2 : Nar.input env r' l' d' = .ok x') : Twin x.1 x'.1 := by
  have key : ∀ {r : Reasoner} {l : List Char} {d : LineDraws} {x : Reasoner × Bool × List (List Char)}, LineForActing env l →
      Nar.input env r l d = .ok x → ∃ t tv punct ev, ForActing t punct ev ∧ inputT2 env r t punct tv ev d.rng = .ok x.1 := by
    intro r l d x hl h
    obtain ⟨hd, t, tv, punct, ev, hp, hf⟩ := hl
    unfold Nar.input at h
    obtain ⟨c, hc, h⟩ := R.bind_ok.1 h
    cases Except.ok.inj (hd.symm.trans hc)
    obtain ⟨⟨s, out⟩, g, k⟩ := R.bind_ok.1 h
    cases k
    clear h
    obtain ⟨y, k, g⟩ := R.bind_ok.1 g
    cases g
    unfold Nar.inputN at k
    rw [hp] at k
    obtain ⟨z, e, hz⟩ := R.bind_ok.1 k
    cases Except.ok.inj e
    obtain ⟨w, e, hz⟩ := R.bind_ok.1 hz
    cases hz
    exact ⟨t, tv, punct, ev, hf, e⟩
  obtain ⟨t, tv, punct, ev, hf, k⟩ := key hl h1
  obtain ⟨t', tv', punct', ev', hf', k'⟩ := key hl' h2
  exact h.input k k' (.inr ⟨hf, hf'⟩)

theorem Twin.step {env : Env} {r r' s s' : Reasoner} (h : Twin r r') {op op' : NarOp} (ho : SameThoughts env op op')
    (hn : NoReports r.proc.ops) (h1 : op.run env r = .ok s) (h2 : op'.run env r' = .ok s') : Twin s s' := by
  cases ho with
  | line l hd hc =>
    obtain ⟨x, hx, rfl⟩ := R.map_ok.1 h1
    obtain ⟨y, hy, rfl⟩ := R.map_ok.1 h2
    exact h.line hd hc hn hx hy
  | acting d d' hl hl' =>
    obtain ⟨x, hx, rfl⟩ := R.map_ok.1 h1
    obtain ⟨y, hy, rfl⟩ := R.map_ok.1 h2
    exact h.lineActing hl hl' hx hy
  | tell t punct tv ev rng rng' => exact h.input h1 h2 (.inl ⟨rfl, rfl, rfl, rfl⟩)
  | tellActing tv tv' rng rng' hf hf' => exact h.input h1 h2 (.inr ⟨hf, hf'⟩)
  | cycle v v' => exact h.cycle h1 h2
  | declWork => cases h1; cases h2; exact h.declWork env
  | procWork rng rng' =>
    cases h1; cases h2
    have a := workerStep_rest r.proc rng
    have b := workerStep_rest r'.proc rng'
    exact h.proc (by rw [a.2.1, b.2.1, h.steps]) (by rw [a.2.2.1, b.2.2.1, h.ops])
  | handlers n n' => cases h1; cases h2; exact ⟨h.sh, h.queue, h.alive, h.time, h.steps, h.ops, h.beliefs, h.complexity⟩
  | verbosity n n' => cases h1; cases h2; exact ⟨h.sh, h.queue, h.alive, h.time, h.steps, h.ops, h.beliefs, h.complexity⟩
  | workerLost => cases h1; cases h2; exact ⟨h.sh, h.queue, rfl, h.time, h.steps, h.ops, h.beliefs, h.complexity⟩
  | link => cases h1; cases h2; exact ⟨h.sh, h.queue, h.alive, h.time, h.steps, h.ops, h.beliefs, h.complexity⟩

theorem Twin.more {env : Env} {ops ops' : List NarOp} (ho : List.Forall₂ (SameThoughts env) ops ops') : ∀ {r r' s s' : Reasoner},
    Twin r r' → moreNar env r ops = .ok s → moreNar env r' ops' = .ok s' → NoReports s.proc.ops → Twin s s' := by
  induction ho with
  | nil => intro r r' s s' h h1 h2 _; cases h1; cases h2; exact h
  | cons ha hl ih =>
    intro r r' s s' h h1 h2 hn
    obtain ⟨x, k1, h1⟩ := foldlM_cons_ok.1 h1
    obtain ⟨y, k2, h2⟩ := foldlM_cons_ok.1 h2
    have hx : NoReports x.proc.ops := by
      have := foldlM_inv (fun z : Reasoner => ∀ o ∈ x.proc.ops, o ∈ z.proc.ops) h1 (fun _ k => k)
        (fun op _ z z' hz hzz o k => NarOp.run_ops hzz o (hz o k))
      exact fun o k => hn o (this o k)
    have hr : NoReports r.proc.ops := fun o k => hx o (NarOp.run_ops k1 o k)
    exact ih (h.step ha hr k1 k2) h1 h2 hn

end Nar
