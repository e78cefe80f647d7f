import Verif.Lemmas.Decl3
import Verif.Lemmas.Whole3
import Verif.Lemmas.Channel
import Verif.Lemmas.Nar2
import Verif.Props.Whole
import Verif.Lemmas.Parser4
import Mathlib.Tactic.Tauto
/-! # Histories of sane input never crash -/
namespace Nar
open Term

/-! ## the declarative system -/

theorem HasExp.iff {s : Sentence} : HasExp s ↔ ∃ e, Expectation s e := by
  unfold HasExp
  constructor
  · rintro ⟨e, h⟩; exact ⟨e, (expOf_iff s e).1 h⟩
  · rintro ⟨e, h⟩; exact ⟨e, (expOf_iff s e).2 h⟩

theorem SysOp.step_total {cfg : Cfg} {s : Sys} {op : SysOp} (hd : DInv cfg s.sh) (hq : QueueOk s.sh s.queue) (hs : op.Sane) :
    ∃ s', op.run cfg s = .ok s' ∧ DInv cfg s'.sh ∧ QueueOk s'.sh s'.queue := by
  cases op with
  | input x cc mc now =>
    have hx : x.punct = .JUGEMENT → Good x := fun hj => by
      obtain ⟨tv, h1, h2, h3⟩ := hs hj
      exact ⟨hj, ⟨tv, h1, h3⟩, h2⟩
    obtain ⟨sh', h⟩ := memAddTask_total (cc := cc) (mc := mc) (now := now) hd.inv hd.good hx
    have hr : (TaskOp.add x cc mc now).run cfg s.sh = .ok (sh', []) := by simp only [TaskOp.run]; rw [h]; rfl
    exact ⟨{ s with sh := sh' }, by simp only [SysOp.run, h]; rfl, hd.step hr hx, hq.mono (TaskOp.run_heap hr)⟩
  | cycle v now =>
    obtain ⟨sh', msg, calls, h, h1, h2⟩ := reasonCycle_total hd v now
    refine ⟨⟨sh', s.queue ++ msg.toList, s.log ++ calls⟩, by simp only [SysOp.run, h]; rfl, h1, ?_⟩
    intro m hm
    rcases List.mem_append.1 hm with hm | hm
    · exact (hq m hm).mono (reasonCycle_heap h)
    · exact h2 m (by simpa using hm)
  | work =>
    cases hqq : s.queue with
    | nil => exact ⟨s, by simp only [SysOp.run, hqq], hd, hq⟩
    | cons m rest =>
      obtain ⟨sh', calls, h, h1⟩ := work_total hd (hq m (by rw [hqq]; simp))
      refine ⟨⟨sh', rest, s.log ++ calls⟩, by simp only [SysOp.run, hqq, h]; rfl, h1, ?_⟩
      intro m' hm'
      exact (hq m' (by rw [hqq]; simp [hm'])).mono (work_heap h)
  | flush =>
    exact ⟨_, rfl, hd.step (op := .flush) (calls := []) rfl trivial, hq.mono (TaskOp.run_heap (cfg := cfg) (op := .flush) (calls := []) rfl)⟩
  | newStampId =>
    exact ⟨_, rfl, hd.step (op := .newStampId) (calls := []) rfl trivial, hq⟩
  | procMem m =>
    refine ⟨_, rfl, hd.step (op := .procMem m) (calls := []) rfl ?_, hq⟩
    intro c hc
    exact ⟨fun b hb => HasExp.iff.2 ((hs c hc).1 b hb), fun b hb => HasExp.iff.2 ((hs c hc).2 b hb)⟩

theorem runSys_total {cfg : Cfg} {ops : List SysOp} (hs : ∀ op ∈ ops, op.Sane) :
    ∃ s, runSys cfg ops = .ok s ∧ DInv cfg s.sh ∧ QueueOk s.sh s.queue := by
  unfold runSys
  generalize h0 : (⟨createShared, [], []⟩ : Sys) = s0
  have h1 : DInv cfg s0.sh := by rw [← h0]; exact DInv.init cfg
  have h2 : QueueOk s0.sh s0.queue := by rw [← h0]; intro m hm; cases hm
  clear h0
  induction ops generalizing s0 with
  | nil => exact ⟨s0, rfl, h1, h2⟩
  | cons op ops ih =>
    obtain ⟨s1, k1, k2, k3⟩ := SysOp.step_total h1 h2 (hs op (by simp))
    obtain ⟨s2, k4, k5⟩ := ih (fun op h => hs op (by simp [h])) s1 k2 k3
    exact ⟨s2, foldlM_cons_ok.2 ⟨s1, k1, k4⟩, k5⟩

/-! ## the whole reasoner -/

theorem DeclMore.heap {env : Env} {sh0 sh : Shared} {log0 log : List AnswerCall} (h : DeclMore env sh0 log0 sh log) :
    sh0.heap.length ≤ sh.heap.length := by
  induction h with
  | start => exact le_refl _
  | act cfg op _ _ _ _ hr ih => exact le_trans ih (TaskOp.run_heap hr)

/-- the declarative side of the reasoner is in order -/
structure Safe (env : Env) (r : Reasoner) : Prop where
  inv : Inv (r.cfg env) r.sh
  good : AllP Good HasExp r.sh
  rules : ∀ s, KnowsRule r s → HasExp s
  queue : QueueOk r.sh r.queue

theorem Inv.link {cfg : Cfg} {sh : Shared} (h : Inv cfg sh) (m : Mem) : Inv cfg { sh with procMem := m } :=
  ⟨h.valid, h.ids, h.fresh, h.nodup, h.complexity, h.diff, h.sound, h.complete, h.keys⟩

theorem Safe.decl {env : Env} {r : Reasoner} (h : Safe env r) : DInv (r.cfg env) r.sh := ⟨h.inv, h.good⟩

theorem Safe.look {env : Env} {r : Reasoner} (h : Safe env r) : DInv (r.cfg env) r.look := by
  unfold Reasoner.look
  split
  · exact ⟨h.inv.link _, h.good.1, h.good.2.1, view_MemP h.rules⟩
  · exact h.decl

theorem look_heap (r : Reasoner) : r.look.heap = r.sh.heap := by unfold Reasoner.look; split <;> rfl

theorem cycle_total {env : Env} {r : Reasoner} (h : Safe env r) (ha : r.workerAlive = true ∨ r.sh.judgementTasks = []) (v : Rat) :
    ∃ r', cycle env r v = .ok r' := by
  obtain ⟨sh', msg, calls, h1, h2, h3⟩ := reasonCycle_total h.look v (r.currentTime + 1)
  unfold cycle
  simp only [bind, Except.bind, h1]
  cases msg with
  | none => exact ⟨_, rfl⟩
  | some m =>
    have : r.workerAlive = true := by
      rcases ha with ha | ha
      · exact ha
      · rcases reasonCycle_msg h1 with ⟨_, hm⟩ | ⟨hm, _⟩
        · cases hm
        · exact absurd (by unfold Reasoner.look; split <;> exact ha) hm
    simp only [sendMsg]
    rw [if_pos this]
    exact ⟨_, rfl⟩

theorem cycle_safe {env : Env} {r r' : Reasoner} {v : Rat} (h : Safe env r) (hc : cycle env r v = .ok r') :
    Safe env r' ∧ r'.workerAlive = r.workerAlive := by
  refine ⟨?_, (cycle_queue hc).1⟩
  have hp := (cycle_same hc).1
  obtain ⟨sh', msg, calls, h1, h2, h3⟩ := reasonCycle_total h.look v (r.currentTime + 1)
  unfold cycle at hc
  simp only [bind, Except.bind, h1] at hc
  have hl : r.sh.heap.length ≤ sh'.heap.length := by rw [← look_heap r]; exact reasonCycle_heap h1
  have hsh : r'.sh = { sh' with procMem := r.sh.procMem } ∧ r'.cfg env = r.cfg env ∧ r'.queue = r.queue ++ msg.toList := by
    cases msg with
    | none => cases hc; exact ⟨rfl, rfl, by simp⟩
    | some m =>
      simp only [sendMsg] at hc
      split at hc
      · cases hc; exact ⟨rfl, rfl, rfl⟩
      · cases hc
  obtain ⟨e1, e2, e3⟩ := hsh
  refine ⟨?_, ?_, fun s hs => h.rules s (knowsRule_proc hp hs), ?_⟩
  · rw [e1, e2]; exact h2.inv.link _
  · rw [e1]; exact ⟨h2.good.1, h2.good.2.1, h.good.2.2⟩
  · rw [e1, e3]
    intro m hm
    rcases List.mem_append.1 hm with hm | hm
    · exact (h.queue m hm).mono hl
    · exact h3 m (by simpa using hm)

theorem declWork_safe {env : Env} {r : Reasoner} (h : Safe env r) :
    Safe env (declWork env r) ∧ (declWork env r).workerAlive = r.workerAlive := by
  unfold declWork
  split
  · rename_i ha
    split
    · exact ⟨h, rfl⟩
    · rename_i m rest hq
      obtain ⟨sh', calls, h1, h2⟩ := work_total h.decl (h.queue m (by rw [hq]; simp))
      rw [h1]
      refine ⟨⟨h2.inv, h2.good, h.rules, ?_⟩, rfl⟩
      intro m' hm'
      exact (h.queue m' (by rw [hq]; simp [hm'])).mono (work_heap h1)
  · exact ⟨h, rfl⟩

theorem declWorkN_safe {env : Env} (n : Nat) {r : Reasoner} (h : Safe env r) :
    Safe env (declWorkN env r n) ∧ (declWorkN env r n).workerAlive = r.workerAlive := by
  induction n generalizing r with
  | zero => exact ⟨h, rfl⟩
  | succ n ih =>
    obtain ⟨h1, h2⟩ := declWork_safe h
    obtain ⟨h3, h4⟩ := ih h1
    exact ⟨h3, h4.trans h2⟩

theorem cyclesLoop_safe {env : Env} {draws : Nat → Rat × Nat} {n i : Nat} {r r' : Reasoner} (h : Safe env r)
    (hc : cyclesLoop env draws n i r = .ok r') : Safe env r' ∧ r'.workerAlive = r.workerAlive := by
  induction n generalizing r i with
  | zero => cases hc; exact ⟨h, rfl⟩
  | succ n ih =>
    unfold cyclesLoop at hc
    obtain ⟨r1, h1, hc⟩ := R.bind_ok.1 hc
    obtain ⟨k1, k2⟩ := declWorkN_safe (draws i).2 h
    obtain ⟨k3, k4⟩ := cycle_safe k1 h1
    obtain ⟨k5, k6⟩ := ih k3 hc
    exact ⟨k5, by rw [k6, k4, k2]⟩

theorem cyclesLoop_total {env : Env} {draws : Nat → Rat × Nat} {n i : Nat} {r : Reasoner} (h : Safe env r)
    (ha : r.workerAlive = true) : ∃ r', cyclesLoop env draws n i r = .ok r' := by
  induction n generalizing r i with
  | zero => exact ⟨r, rfl⟩
  | succ n ih =>
    obtain ⟨k1, k2⟩ := declWorkN_safe (draws i).2 h
    obtain ⟨r1, h1⟩ := cycle_total k1 (.inl (k2.trans ha)) (draws i).1
    obtain ⟨k3, k4⟩ := cycle_safe k1 h1
    obtain ⟨r2, h2⟩ := ih k3 (by rw [k4, k2, ha])
    exact ⟨r2, by unfold cyclesLoop; exact R.bind_ok.2 ⟨r1, h1, h2⟩⟩

theorem good_id : IdClosed (fun _ => Good) := ⟨fun _ => good_closed, fun _ _ _ _ h => h⟩

theorem expOf_of_truth {b : Sentence} {tv : Tv} (h : HasTruth b tv) : HasExp b := HasExp.iff.2 ⟨_, tv, h, rfl⟩

/-- the waiting work stays in order, and the worker stays as it is -/
theorem NarOp.run_queue {env : Env} {r r' : Reasoner} {op : NarOp} (h : op.run env r = .ok r') (hs : Safe env r)
    (hl : r.sh.heap.length ≤ r'.sh.heap.length) :
    QueueOk r'.sh r'.queue ∧ (op ≠ .workerLost → r'.workerAlive = r.workerAlive) := by
  have same : r'.queue = r.queue ∧ r'.workerAlive = r.workerAlive →
      QueueOk r'.sh r'.queue ∧ (op ≠ .workerLost → r'.workerAlive = r.workerAlive) := by
    rintro ⟨h1, h2⟩
    exact ⟨by rw [h1]; exact hs.queue.mono hl, fun _ => h2⟩
  cases op with
  | line l d =>
    obtain ⟨⟨r1, q, out⟩, h1, rfl⟩ := R.map_ok.1 h
    obtain ⟨_, hr, _⟩ := input_ok h1
    generalize commandOf (trimNewline l) = c at hr
    by_cases hc : ∃ arg, c = .cycles arg
    · obtain ⟨arg, rfl⟩ := hc
      obtain ⟨n, _, hr⟩ := R.bind_ok.1 hr
      obtain ⟨r2, h2, hr⟩ := R.bind_ok.1 hr
      cases hr
      obtain ⟨k1, k2⟩ := cyclesLoop_safe hs h2
      exact ⟨k1.queue, fun _ => k2⟩
    · exact same (runCommand_queue hr (fun arg e => hc ⟨arg, e⟩))
  | tell term punct tv e rng => exact same ⟨(inputT2_cases h).1, (inputT2_cases h).2.1⟩
  | cycle v => obtain ⟨k1, k2⟩ := cycle_safe hs h; exact ⟨k1.queue, fun _ => k2⟩
  | declWork => cases h; obtain ⟨k1, k2⟩ := declWork_safe hs; exact ⟨k1.queue, fun _ => k2⟩
  | procWork rng => cases h; exact same ⟨rfl, rfl⟩
  | handlers n => cases h; exact same ⟨rfl, rfl⟩
  | verbosity v => cases h; exact same ⟨rfl, rfl⟩
  | workerLost => cases h; exact ⟨hs.queue, fun h => absurd rfl h⟩
  | link => cases h; exact same ⟨rfl, rfl⟩

theorem SaneTelling.prefix {env : Env} {pre post : List NarOp} (h : SaneTelling env (pre ++ post)) : SaneTelling env pre := by
  intro a op b r term tv e
  exact h a op (b ++ post) r term tv (by rw [e]; simp)

theorem moreNar_append {env : Env} {r r' : Reasoner} {a b : List NarOp} :
    moreNar env r (a ++ b) = .ok r' ↔ ∃ r1, moreNar env r a = .ok r1 ∧ moreNar env r1 b = .ok r' := by
  unfold moreNar
  rw [List.foldlM_append, R.bind_ok]

/-- everything but the waiting work -/
theorem runNar_parts {env : Env} {ops : List NarOp} {r : Reasoner} (h : runNar env ops = .ok r) (hs : SaneTelling env ops) :
    Inv (r.cfg env) r.sh ∧ AllP Good HasExp r.sh ∧ ∀ s, KnowsRule r s → HasExp s := by
  have hr := (moreNar_RInv (Q := fun _ => True) good_id h (fun pre post op r0 he h0 term tv ht n _ => by
      obtain ⟨h1, h2⟩ := hs pre op post r0 term tv he h0 ht
      exact ⟨rfl, ⟨tv, rfl, h2⟩, h1⟩) (fun _ _ _ _ _ _ _ => trivial) (createNar_RInv _ _)).1
  have hw := runNar_WDecl h
  refine ⟨Props.whole_inv env ops r h _ hw.complexity, ⟨hr.all.1, hr.all.2.1, fun c hc => ?_⟩, ?_⟩
  · obtain ⟨h1, h2⟩ := hr.all.2.2 c hc
    exact ⟨fun b hb => (h1 b hb).elim, fun b hb => (h2 b hb).elim⟩
  · rintro s ⟨c, _, ref, _, hb⟩
    obtain ⟨_, _, tv, ht, _⟩ := Props.C71_rules env ops r h s (List.mem_of_getElem? hb)
    exact expOf_of_truth ht

theorem runNar_safe {env : Env} {ops : List NarOp} {r : Reasoner} (h : runNar env ops = .ok r) (hs : SaneTelling env ops) :
    Safe env r ∧ (NarOp.workerLost ∉ ops → r.workerAlive = true) := by
  obtain ⟨h1, h2, h3⟩ := runNar_parts h hs
  suffices hq : QueueOk r.sh r.queue ∧ (NarOp.workerLost ∉ ops → r.workerAlive = true) from ⟨⟨h1, h2, h3, hq.1⟩, hq.2⟩
  clear h1 h2 h3
  induction ops using List.reverseRecOn generalizing r with
  | nil => cases h; exact ⟨(by intro m hm; cases hm), fun _ => rfl⟩
  | append_singleton ops op ih =>
    obtain ⟨r0, h0, h1⟩ := moreNar_append.1 h
    obtain ⟨k1, k2⟩ := ih h0 hs.prefix
    obtain ⟨p1, p2, p3⟩ := runNar_parts h0 hs.prefix
    have hrun : op.run env r0 = .ok r := by
      obtain ⟨r2, h2, h3⟩ := foldlM_cons_ok.1 h1
      cases h3; exact h2
    obtain ⟨q1, q2⟩ := NarOp.run_queue hrun ⟨p1, p2, p3, k1⟩ (runNar_more h0 h1).heap
    refine ⟨q1, fun hl => ?_⟩
    simp only [List.mem_append, List.mem_singleton, not_or] at hl
    rw [q2 (fun e => hl.2 e.symm)]
    exact k2 hl.1

theorem isTemporalQuestion_not {t : Term} (h : ¬ IsTemporal t) : isTemporalQuestion t = false := by
  cases ht : isTemporalQuestion t with
  | false => rfl
  | true => exact absurd ((isTemporal_iff t).1 ht) h

theorem inputT2_total {env : Env} {r : Reasoner} (h : Safe env r) {term : Term} {punct : Punct} {tv : Tv} {isEvent : Bool}
    {rng : List Nat} (hi : SafeInput term punct tv isEvent) : ∃ r', inputT2 env r term punct tv isEvent rng = .ok r' := by
  obtain ⟨⟨txt, h1⟩, h2, h3⟩ := hi
  obtain ⟨s, hs⟩ : ∃ s, s = newEternalSentenceByTv term punct tv ⟨[r.sh.stampIdCounter]⟩ := ⟨_, rfl⟩
  obtain ⟨r1, hr1⟩ : ∃ r1 : Reasoner, r1 = { r with sh := { r.sh with stampIdCounter := r.sh.stampIdCounter + 1 } } := ⟨_, rfl⟩
  have he : echo env r1 s = .ok () := by
    unfold echo
    split
    · rw [hs]
      unfold convSentenceTermPunctToStr
      cases punct <;> simp [bind, Except.bind, newEternalSentenceByTv, h1, retTv, unwrap]
    · rfl
  have hadd : (s.punct = .JUGEMENT → Good s) → ∃ r', addInputTask env r1 s = .ok r' := by
    intro hg
    have hd := h.decl.step (op := .newStampId) (calls := []) rfl trivial
    obtain ⟨sh', h4⟩ := memAddTask_total (cc := true) (mc := 1) (now := r.proc.t) hd.inv hd.good hg
    refine ⟨{ r1 with sh := sh' }, ?_⟩
    unfold addInputTask
    rw [hr1]
    exact R.bind_ok.2 ⟨sh', h4, rfl⟩
  have key : ∃ r', (if isEvent then inputEventT env r1 s else inputEternalT env r1 s rng) = .ok r' := by
    cases isEvent with
    | true =>
      simp only [if_true]
      unfold inputEventT
      cases punct with
      | GOAL => exact absurd (h3 rfl) (by simp)
      | QUESTION =>
        have hp : s.punct = .QUESTION := by rw [hs]; rfl
        rw [hp]
        exact hadd (by rw [hp]; intro hc; cases hc)
      | JUGEMENT =>
        have hp : s.punct = .JUGEMENT := by rw [hs]; rfl
        rw [hp]
        exact ⟨_, rfl⟩
    | false =>
      simp only [Bool.false_eq_true, if_false]
      unfold inputEternalT
      have hp : s.punct = punct := by rw [hs]; rfl
      have ht : s.term = term := by rw [hs]; rfl
      rw [hp, ht]
      cases punct with
      | GOAL => split <;> exact ⟨_, rfl⟩
      | QUESTION => split <;> exact ⟨_, rfl⟩
      | JUGEMENT =>
        obtain ⟨g1, g2, g3⟩ := h2 rfl rfl
        rw [isTemporalQuestion_not g1]
        simp only [Bool.false_eq_true, if_false]
        exact hadd (fun _ => by rw [hs]; exact ⟨rfl, ⟨tv, rfl, g3⟩, g2⟩)
  obtain ⟨r', hk⟩ := key
  refine ⟨r', ?_⟩
  unfold inputT2
  simp only
  rw [← hs, ← hr1, he]
  exact hk

theorem joinStr_total {sep : List Char} {ts : List Term} (hn : ts ≠ []) (h : ∀ t ∈ ts, ∃ s, convTermToStr t = some s) :
    ∃ s, joinStr sep ts = some s := by
  induction ts with
  | nil => exact absurd rfl hn
  | cons a ts ih =>
    obtain ⟨x, hx⟩ := h a (by simp)
    cases ts with
    | nil => exact ⟨x, by simp [joinStr, hx]⟩
    | cons b ts =>
      obtain ⟨y, hy⟩ := ih (by simp) (fun t ht => h t (by simp at ht ⊢; tauto))
      exact ⟨x ++ sep ++ y, by simp [joinStr, hx, hy]⟩

theorem Readable.wf {t : Term} (h : Readable t) : WellFormed t := by
  induction h with
  | name _ | qvar _ | depvar _ | indepvar _ => rw [wf_iff]; simp [Shaped, parts]
  | stmt _ _ h1 h2 => exact wf_stmt.2 ⟨h1, h2⟩
  | setExt _ h | setInt _ h => rw [wf_iff]; simpa [Shaped, parts] using h
  | neg _ h => rw [wf_iff]; simpa [Shaped, parts] using h
  | seq hl _ h => rw [wf_iff]; exact ⟨by simp only [Shaped]; rintro rfl; simp at hl, by simpa [parts] using h⟩
  | prod hl _ h => rw [wf_iff]; exact ⟨hl, by simpa [parts] using h⟩
  | conj hl _ _ h => rw [wf_iff]; exact ⟨hl, by simpa [parts] using h⟩
  | intInt _ _ h1 h2 | extInt _ _ h1 h2 => rw [wf_iff]; simp [Shaped, parts, h1, h2]
  | img _ _ _ h1 h2 => rw [wf_iff]; simp [Shaped, parts, h1, h2]

theorem Readable.printable {t : Term} (h : Readable t) : ∃ s, convTermToStr t = some s := by
  induction h with
  | name _ | qvar _ | depvar _ | indepvar _ => exact ⟨_, rfl⟩
  | stmt _ _ h1 h2 => obtain ⟨a, ha⟩ := h1; obtain ⟨b, hb⟩ := h2; exact ⟨_, by simp [convTermToStr, ha, hb]; rfl⟩
  | setExt _ h | setInt _ h => obtain ⟨a, ha⟩ := h; exact ⟨_, by simp [convTermToStr, joinStr, ha]; rfl⟩
  | neg _ h => obtain ⟨a, ha⟩ := h; exact ⟨_, by simp [convTermToStr, ha]; rfl⟩
  | seq hl _ h | prod hl _ h =>
    obtain ⟨a, ha⟩ := joinStr_total (sep := _) (by rintro rfl; simp at hl) h
    exact ⟨_, by simp only [convTermToStr]; rw [ha]; rfl⟩
  | conj hl _ _ h =>
    obtain ⟨a, ha⟩ := joinStr_total (sep := _) (by rintro rfl; simp at hl) h
    exact ⟨_, by simp only [convTermToStr]; rw [ha]; rfl⟩
  | intInt _ _ h1 h2 | extInt _ _ h1 h2 =>
    obtain ⟨a, ha⟩ := h1; obtain ⟨b, hb⟩ := h2; exact ⟨_, by simp [convTermToStr, joinStr, ha, hb]; rfl⟩
  | img _ _ _ h1 h2 => obtain ⟨a, ha⟩ := h1; obtain ⟨b, hb⟩ := h2; exact ⟨_, by simp [convTermToStr, joinStr, ha, hb]; rfl⟩

theorem safeInput_of_text {pf : List Char → Option Rat} {s : List Char} {term : Term} {tv : Tv} {punct : Punct} {isEvent : Bool}
    (h : parseNarsese pf s = .ok (some (term, tv, punct, isEvent)))
    (hx : (punct = .JUGEMENT → isEvent = false → ¬ IsTemporal term ∧ Tv.Sane tv) ∧ (punct = .GOAL → isEvent = false)) :
    SafeInput term punct tv isEvent := by
  have hr := (parseNarsese_ok h).2.1
  exact ⟨hr.printable, fun h1 h2 => ⟨(hx.1 h1 h2).1, hr.wf, (hx.1 h1 h2).2⟩, hx.2⟩

theorem runCommand_total {env : Env} {r : Reasoner} {d : LineDraws} {s : List Char} {c : Command} (h : Safe env r)
    (ha : r.workerAlive = true) (hs : SafeLine env s) (hc : dispatch s = .ok c) : ∃ x, runCommand env r d s c = .ok x := by
  obtain ⟨c', hc', hm⟩ := hs
  rw [hc] at hc'
  cases hc'
  cases c with
  | comment | quit | empty | flush | babbleOff | babbleOn | debugMemory => exact ⟨_, rfl⟩
  | register arg => simp only [runCommand]; split <;> exact ⟨_, rfl⟩
  | cycles arg =>
    have hn : ∃ n, nCycles arg = .ok n := by
      unfold nCycles
      rcases hm with rfl | ⟨n, hn⟩
      · exact ⟨1, by simp [byteLen]⟩
      · rw [hn]; split <;> exact ⟨_, rfl⟩
    obtain ⟨n, hn⟩ := hn
    obtain ⟨r', hr⟩ := cyclesLoop_total (draws := d.cycles) (n := n.toNat) (i := 0) h ha
    exact ⟨(r', []), R.bind_ok.2 ⟨n, hn, R.bind_ok.2 ⟨r', hr, rfl⟩⟩⟩
  | narsese =>
    obtain ⟨⟨x, hm⟩, hx⟩ := hm
    rcases x with _ | ⟨term, tv, punct, isEvent⟩
    · exact ⟨(r, []), R.bind_ok.2 ⟨(r, false), by unfold inputN; exact R.bind_ok.2 ⟨_, hm, rfl⟩, rfl⟩⟩
    · obtain ⟨r', hr⟩ := inputT2_total (rng := d.rng) h (safeInput_of_text hm (hx _ _ _ _ hm))
      exact ⟨(r', []), R.bind_ok.2 ⟨(r', true), by
        unfold inputN; exact R.bind_ok.2 ⟨_, hm, R.bind_ok.2 ⟨r', hr, rfl⟩⟩, rfl⟩⟩
  | showEvidence | step | stepA | stepB | nlp _ | debugTasks => exact hm.elim

theorem NarOp.run_total {env : Env} {r : Reasoner} {op : NarOp} (h : Safe env r) (ha : r.workerAlive = true)
    (hs : SafeUse env op) : ∃ r', op.run env r = .ok r' := by
  cases op with
  | line l d =>
    obtain ⟨c, hc, hm⟩ := id hs
    obtain ⟨x, hx⟩ := runCommand_total (d := d) h ha hs hc
    refine ⟨x.1, ?_⟩
    simp only [NarOp.run]
    rw [input_of_dispatch hc, hx]
    rfl
  | tell term punct tv e rng => exact inputT2_total h hs
  | cycle v => exact cycle_total h (.inl ha) v
  | declWork | procWork _ | handlers _ | verbosity _ | link => exact ⟨_, rfl⟩
  | workerLost => exact hs.elim

theorem Told.sane {env : Env} {r : Reasoner} {op : NarOp} {term : Term} {tv : Tv} (h : Told env r op term tv)
    (hs : SafeUse env op) : SaneStatement term tv := by
  cases op with
  | tell t p v e rng =>
    obtain ⟨rfl, rfl, rfl, rfl, ht⟩ := h
    exact (hs.2.1 rfl rfl).2
  | line l d =>
    obtain ⟨c, hc, hm⟩ := hs
    rcases h with ⟨h1, h2, h3⟩ | ⟨⟨text, h1⟩, _⟩ | ⟨h1, _⟩
    · rw [hc] at h1
      cases h1
      exact ((safeInput_of_text h2 (hm.2 _ _ _ _ h2)).2.1 rfl rfl).2
    · rw [hc] at h1; cases h1; exact hm.elim
    · rw [hc] at h1; cases h1; exact hm.elim
  | cycle v => exact h.elim
  | declWork | procWork _ | handlers _ | verbosity _ | link | workerLost => exact h.elim

theorem SafeUse.telling {env : Env} {ops : List NarOp} (h : ∀ op ∈ ops, SafeUse env op) : SaneTelling env ops := by
  intro pre op post r term tv e _ ht
  exact ht.sane (h op (by rw [e]; simp))

end Nar
