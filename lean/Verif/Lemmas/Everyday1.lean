import Verif.Spec.Everyday
import Verif.Lemmas.Decl4
import Verif.Lemmas.Chance2
import Verif.Lemmas.Proc8
import Verif.Lemmas.Programs3
/-! # Everyday use of the whole reasoner does not crash -/
namespace Nar
open Term

/-- no operator does anything but being executed -/
def NopOps (ops : List Op) : Prop := ∀ op ∈ ops, op.babbleable = true ∧ 1 ≤ op.eviCnt

theorem nop_effects {ops : List Op} (h : NopOps ops) (name : String) (args : List Term) : opEffects ops name args = .ok [] := by
  unfold opEffects
  split
  · rename_i op hop
    simp only [callDepth, callOp, (h op (List.mem_of_find?_eq_some hop)).1, if_true]
  · rfl

theorem nop_call {p : Proc} (h : NopOps p.ops) (name : String) (args : List Term) : libCall name args p = envCall name args p := by
  unfold libCall envCall
  rw [nop_effects h]
  rfl

theorem nop_execute {p : Proc} (h : NopOps p.ops) (picked : Option Term) : execute libCall p picked = execute envCall p picked := by
  unfold execute
  simp only [nop_call h]

theorem nop_step1 {p : Proc} (h : NopOps p.ops) (decay : Int → Rat) (rng : List Nat) (infs : List (Rat × Rat × List Nat)) :
    narStep1 libCall decay p rng infs = narStep1 envCall decay p rng infs := by
  unfold narStep1
  cases h1 : decideAction p rng with
  | error e => rfl
  | ok x =>
    obtain ⟨p1, picked, rng1⟩ := x
    have hp1 : p1.ops = p.ops := by
      obtain ⟨g, hg, hd⟩ := decideAction_spec h1
      rcases hd with ⟨e, i, r, b, iv, k1, k2, k3, k4, k5, k6, k7, k8⟩ | ⟨k1, k2, k3⟩
      · rw [k8]
      · rw [k2]
    have := nop_execute (p := p1) (by rw [hp1]; exact h) picked
    simp only [bind, Except.bind, this]

/-- the procedural side of the reasoner is in order, for all operators which are ever registered -/
structure PInv (names : List Op) (p : Proc) : Prop where
  safe : PSafe p
  one : p.nOpsMax = 1
  ops : ∀ o ∈ p.ops, o ∈ names
  trace : ∀ e ∈ p.trace, PlainEvent names e.name
  queue : ∀ m ∈ p.queue, ∃ cond acts effect, m.1.term = rule cond acts effect ∧ PlainEvent names cond ∧
    ∀ a ∈ acts, RegisteredCall p.ops a

theorem PlainEvent.fewer {names ops : List Op} {t : Term} (h : PlainEvent names t) (ho : ∀ o ∈ ops, o ∈ names) : PlainEvent ops t := by
  refine ⟨h.1, fun x ps e hc => h.2 x ps e ?_⟩
  rcases hc with k | k | k | ⟨o, k, e⟩
  · exact .inl k
  · exact .inr (.inl k)
  · exact .inr (.inr (.inl k))
  · exact .inr (.inr (.inr ⟨o, ho o k, e⟩))

theorem PInv.event {names : List Op} {p : Proc} (h : PInv names p) {t : Term} (ht : PlainEvent names t) :
    PInv names (eventHappened p ⟨t, p.t, p.t⟩) := by
  have hp := h.safe
  refine ⟨⟨hp.heap, hp.queue, hp.refs, hp.antic, hp.goals, ?_, hp.time, hp.table, hp.alive, hp.weights⟩, h.one, h.ops, ?_, h.queue⟩
  · intro e he
    rcases List.mem_append.1 he with he | he
    · exact hp.trace e he
    · rw [List.mem_singleton] at he; subst he; exact ⟨hp.time, ht.fewer h.ops⟩
  · intro e he
    rcases List.mem_append.1 he with he | he
    · exact h.trace e he
    · rw [List.mem_singleton] at he; subst he; exact ht

theorem PInv.goal {names : List Op} {p : Proc} (h : PInv names p) {t : Term} (ht : Printable t) (tv : Tv) (st : Stamp) :
    ∃ g, addEntry p.goals p.t (newEternalSentenceByTv t .GOAL tv st) none 0 = .ok g ∧ PInv names { p with goals := g } := by
  have hp := h.safe
  obtain ⟨g, h1, h2⟩ := hp.goals.add (t := p.t) (goal := newEternalSentenceByTv t .GOAL tv st) (ev := none) (d := 0)
    rfl ⟨tv, rfl⟩ (le_refl _) (by intro r h; cases h) ht
  exact ⟨g, h1, ⟨⟨hp.heap, hp.queue, hp.refs, hp.antic, h2, hp.trace, hp.time, hp.table, hp.alive, hp.weights⟩, h.one, h.ops,
    h.trace, h.queue⟩⟩

theorem PInv.work {names : List Op} {p : Proc} (h : PInv names p) {rng : List Nat} (hr : NameDraws rng) : PInv names (workerStep p rng) := by
  obtain ⟨r1, r2, r3, r4, r5⟩ := workerStep_rest p rng
  refine ⟨workerStep_safe h.safe hr, by rw [r4]; exact h.one, by rw [r3]; exact h.ops, by rw [r1]; exact h.trace, ?_⟩
  rw [r3]
  exact fun m hm => h.queue m (r5 m hm)

theorem PInv.works {names : List Op} (l : List (List Nat)) : ∀ {r : Reasoner}, PInv names r.proc → (∀ rng ∈ l, NameDraws rng) →
    PInv names (l.foldl procWork r).proc := by
  induction l with
  | nil => intro r h _; exact h
  | cons a l ih =>
    intro r h hl
    exact ih (r := procWork r a) (h.work (hl a (by simp))) (fun rng k => hl rng (by simp [k]))

theorem PInv.step0 {names : List Op} {p : Proc} (h : PInv names p) {draws : Nat → SampleDraws} (hd : ∀ i, (draws i).ops ≠ []) :
    ∃ p', narStep0 p draws = .ok p' ∧ PInv names p' := by
  rcases narStep0_safe h.safe draws with ⟨p', h1, h2, h3, h4⟩ | ⟨_, h2⟩
  · refine ⟨p', h1, h2, by rw [h4]; exact h.one, by rw [h3]; exact h.ops, ?_, ?_⟩
    · obtain ⟨heap, new, rfl, _⟩ := narStep0_spec h1
      exact h.trace
    · rw [h3]
      obtain ⟨heap, new, rfl, k1, _⟩ := narStep0_spec h1
      intro m hm
      rcases List.mem_append.1 hm with hm | hm
      · exact h.queue m hm
      · obtain ⟨_, first, acts, act, last, n, args, name, hsub, hacts, _, _, _, hterm, _⟩ := k1 m hm
        refine ⟨first.name, (acts ++ [act]).map (·.name), last.name, hterm, h.trace first (hsub.subset (by simp)), ?_⟩
        intro a ha
        obtain ⟨e, he, rfl⟩ := List.mem_map.1 ha
        exact hacts e he
  · obtain ⟨i, hi⟩ := h2 h.one
    exact absurd hi (hd i)

theorem PInv.step1 {names : List Op} (hn : NopOps names) {p : Proc} (h : PInv names p) {decay : Int → Rat} (rng : List Nat)
    {infs : List (Rat × Rat × List Nat)} (hi : ∀ d ∈ infs, 0 ≤ d.2.1) :
    ∃ p' act, narStep1 libCall decay p rng infs = .ok (p', act) ∧ PInv names p' := by
  have hnop : NopOps p.ops := fun o ho => hn o (h.ops o ho)
  rw [nop_step1 hnop]
  obtain ⟨p', act, h1, h2, h3, h4⟩ := narStep1_safe (decay := decay) (envCall_wellBehaved p.ops) h.safe rng hi
  obtain ⟨k1, k2, k3, k4, k5, k6, k7, k8, k9⟩ := narStep1_env h1
  refine ⟨p', act, h1, h2, by rw [h4]; exact h.one, by rw [h3]; exact h.ops, ?_, by rw [k4, k3]; exact h.queue⟩
  intro e he
  have hpl := (h2.trace e he).2.1
  rw [k1] at he
  have he := (newest_suffix _ _).subset he
  rcases List.mem_append.1 he with he | he
  · exact h.trace e he
  · cases act with
    | none => cases he
    | some t =>
      rw [actionEvent, List.mem_singleton] at he
      subst he
      obtain ⟨args, name, hc, _⟩ := k9 t rfl
      exact call_plain hc hpl

theorem PInv.register {names : List Op} {p : Proc} (h : PInv names p) {op : Op} (ho : op ∈ names) (hn : NopOps names) :
    PInv names { p with ops := p.ops ++ [op] } := by
  have hp := h.safe
  have hops : ∀ o ∈ p.ops ++ [op], o ∈ names := by
    intro o k
    rcases List.mem_append.1 k with k | k
    · exact h.ops o k
    · rw [List.mem_singleton.1 k]; exact ho
  have hreg : ∀ {a : Term}, RegisteredCall p.ops a → RegisteredCall (p.ops ++ [op]) a := by
    rintro a ⟨args, name, k1, o, k2, k3⟩
    exact ⟨args, name, k1, o, List.mem_append_left _ k2, k3⟩
  refine ⟨⟨hp.heap, ?_, hp.refs, hp.antic, hp.goals, ?_, hp.time, hp.table, hp.alive, fun o k => (hn o (hops o k)).2⟩, h.one, hops,
    h.trace, ?_⟩
  · intro m hm
    obtain ⟨cond, acts, effect, k1, k2, k3⟩ := h.queue m hm
    exact ⟨(hp.queue m hm).rule, cond, acts, effect, k1, k2.fewer hops, fun a ha => hreg (k3 a ha)⟩
  · intro e he
    exact ⟨(hp.trace e he).1, (h.trace e he).fewer hops⟩
  · intro m hm
    obtain ⟨cond, acts, effect, k1, k2, k3⟩ := h.queue m hm
    exact ⟨cond, acts, effect, k1, k2, fun a ha => hreg (k3 a ha)⟩

theorem PInv.frame {names : List Op} {p : Proc} (h : PInv names p) (b : Bool) : PInv names { p with enBabbling := b } := by
  have hp := h.safe
  exact ⟨⟨hp.heap, hp.queue, hp.refs, hp.antic, hp.goals, hp.trace, hp.time, hp.table, hp.alive, hp.weights⟩, h.one, h.ops,
    h.trace, h.queue⟩

/-! ## listings -/

theorem wf_printable (t : Term) : WellFormed t → Printable t := by
  refine parts_ind (P := fun t => WellFormed t → Printable t) (fun t ih h => ?_) t
  obtain ⟨h1, h2⟩ := wf_iff.1 h
  refine printable_iff.2 ⟨?_, fun x hx => ih x hx (h2 x hx)⟩
  cases t
  all_goals first
    | trivial
    | (rintro rfl; simp [Shaped] at h1)

theorem debugEvidence_total {names : List Op} {p : Proc} (h : PInv names p) : debugEvidence p.mem = .ok () := by
  have hp := h.safe
  have : ∃ l, (p.mem.concepts.flatMap (fun c => c.byExp ++ c.byUsage)).mapM (debugCell p.mem) = .ok l := by
    refine mapM_total fun ref href => ?_
    obtain ⟨c, hc, hr⟩ := List.mem_flatMap.1 href
    have hlt := hp.refs c hc ref (List.mem_append.1 hr)
    have hok := hp.heap _ (List.getElem_mem hlt)
    obtain ⟨txt, ht⟩ := hok.text
    obtain ⟨_, _, pos, cnt, hcnt, _⟩ := hok.sane
    refine ⟨(), ?_⟩
    unfold debugCell
    rw [indexAt_ok.2 (List.getElem?_eq_getElem hlt)]
    unfold Counts at hcnt
    simp only [bind, Except.bind, printed, ht, cntOf, hcnt, unwrap]
  obtain ⟨l, hl⟩ := this
  unfold debugEvidence
  rw [hl]
  rfl

theorem debugTasks_total {env : Env} {r : Reasoner} (h : Safe env r) (hst : RInv StampOk (fun _ => True) r) :
    ∃ l, r.sh.judgementTasks.mapM (debugTask env r) = .ok l := by
  refine mapM_total fun ref href => ?_
  have hlt : ref < r.sh.heap.length := h.inv.valid ref href
  have hm : r.sh.heap[ref] ∈ r.sh.heap := List.getElem_mem hlt
  obtain ⟨g1, ⟨tv, g2, _⟩, g3⟩ := h.good.1 _ hm
  obtain ⟨txt, ht⟩ := wf_printable _ g3
  have hs := (hst.all.1 _ hm).1
  obtain ⟨i, is, hi⟩ := List.exists_cons_of_ne_nil hs
  unfold debugTask
  rw [indexAt_ok.2 (List.getElem?_eq_getElem hlt)]
  simp only [bind, Except.bind, convSentenceTermPunctToStr, ht, g1, retTv, g2, unwrap, stampToStr, hi]
  simp

/-! ## sentences -/

theorem echo_total {env : Env} (r : Reasoner) {term : Term} (ht : Printable term) (punct : Punct) (tv : Tv) (st : Stamp) :
    echo env r (newEternalSentenceByTv term punct tv st) = .ok () := by
  obtain ⟨txt, ht⟩ := ht
  unfold echo
  split
  · unfold convSentenceTermPunctToStr
    cases punct <;> simp [bind, Except.bind, newEternalSentenceByTv, ht, retTv, unwrap]
  · rfl

theorem inputT2_proc {env : Env} {r r' : Reasoner} {term : Term} {punct : Punct} {tv : Tv} {isEvent : Bool} {rng : List Nat}
    (h : inputT2 env r term punct tv isEvent rng = .ok r') (hg : ¬ (punct = .GOAL ∧ isEvent = true))
    (ht : punct = .JUGEMENT → isEvent = false → ¬ IsTemporal term) :
    r'.proc = if punct = .JUGEMENT ∧ isEvent = true then eventHappened r.proc ⟨term, r.proc.t, r.proc.t⟩ else r.proc := by
  unfold inputT2 at h
  obtain ⟨_, _, h⟩ := R.bind_ok.1 h
  cases isEvent with
  | true =>
    simp only [if_true] at h
    unfold inputEventT at h
    cases punct with
    | GOAL => exact absurd ⟨rfl, rfl⟩ hg
    | QUESTION =>
      simp only [newEternalSentenceByTv] at h
      unfold addInputTask at h
      obtain ⟨sh, hs, h⟩ := R.bind_ok.1 h
      cases h
      rfl
    | JUGEMENT => cases h; rfl
  | false =>
    simp only [Bool.false_eq_true, if_false] at h
    unfold inputEternalT at h
    cases punct with
    | GOAL => split at h <;> (cases h; rfl)
    | QUESTION => split at h <;> (cases h; rfl)
    | JUGEMENT =>
      have hn := isTemporalQuestion_not (ht rfl rfl)
      simp only [newEternalSentenceByTv, hn, Bool.false_eq_true, if_false] at h
      unfold addInputTask at h
      obtain ⟨sh, hs, h⟩ := R.bind_ok.1 h
      cases h
      rfl

theorem everyday_input {env : Env} {names : List Op} {r : Reasoner} (h : Safe env r) (hp : PInv names r.proc) {term : Term}
    {punct : Punct} {tv : Tv} {isEvent : Bool} {rng : List Nat} (h1 : Printable term)
    (h2 : EverydaySentence names term punct tv isEvent) (h3 : punct = .JUGEMENT → isEvent = false → WellFormed term) :
    ∃ r', inputT2 env r term punct tv isEvent rng = .ok r' ∧ PInv names r'.proc := by
  by_cases hg : punct = .GOAL ∧ isEvent = true
  · obtain ⟨rfl, rfl⟩ := hg
    obtain ⟨g, k1, k2⟩ := hp.goal h1 tv ⟨[r.sh.stampIdCounter]⟩
    refine ⟨{ r with sh := { r.sh with stampIdCounter := r.sh.stampIdCounter + 1 }, proc := { r.proc with goals := g } }, ?_, k2⟩
    unfold inputT2
    simp only
    rw [echo_total _ h1]
    show (addEntry r.proc.goals r.proc.t (newEternalSentenceByTv term .GOAL tv ⟨[r.sh.stampIdCounter]⟩) none 0 >>= _) = _
    rw [k1]
    rfl
  · have hs : SafeInput term punct tv isEvent := by
      refine ⟨h1, ?_, ?_⟩
      · rintro rfl rfl
        have := h2 rfl
        simp only [Bool.false_eq_true, if_false] at this
        exact ⟨this.1, h3 rfl rfl, this.2⟩
      · rintro rfl
        cases isEvent with
        | false => rfl
        | true => exact absurd ⟨rfl, rfl⟩ hg
    obtain ⟨r', hr⟩ := inputT2_total (rng := rng) h hs
    refine ⟨r', hr, ?_⟩
    rw [inputT2_proc hr hg (fun e1 e2 => (hs.2.1 e1 e2).1)]
    split
    · rename_i hj
      obtain ⟨rfl, rfl⟩ := hj
      have := h2 rfl
      simp only [if_true] at this
      exact hp.event this
    · exact hp

/-! ## actions -/

theorem procStep1_total {env : Env} {names : List Op} (hn : NopOps names) {r : Reasoner} (hp : PInv names r.proc) {d : LineDraws}
    (hi : ∀ x ∈ d.infs, 0 ≤ x.2.1) : ∃ r', procStep1 env r d = .ok r' ∧ PInv names r'.proc := by
  obtain ⟨p', act, h1, h2⟩ := hp.step1 hn (decay := env.goalDecay) d.decide hi
  have hnop : NopOps r.proc.ops := fun o ho => hn o (hp.ops o ho)
  refine ⟨{ r with proc := p' }, ?_, h2⟩
  unfold procStep1
  rw [h1]
  show declEffects env { r with proc := p' } r.proc.ops r.proc.t act = _
  unfold declEffects
  cases act with
  | none => rfl
  | some t =>
    simp only
    cases decodeOp t with
    | none => rfl
    | some x =>
      obtain ⟨args, name⟩ := x
      simp only [nop_effects hnop]
      rfl

theorem procStep_total {env : Env} {names : List Op} (hn : NopOps names) {r : Reasoner} (hp : PInv names r.proc) {d : LineDraws}
    (hd : StepDraws d) : ∃ r', procStep env r d = .ok r' ∧ PInv names r'.proc := by
  obtain ⟨p0, h0, hp0⟩ := hp.step0 hd.1
  have hw := PInv.works d.between (r := { r with proc := p0 }) hp0 hd.2.1
  obtain ⟨r', h1, h2⟩ := procStep1_total (env := env) hn hw hd.2.2
  exact ⟨r', R.bind_ok.2 ⟨p0, h0, h1⟩, h2⟩

theorem everyday_ops {env : Env} {names : List Op} {r r' : Reasoner} {op : NarOp} (ho : Everyday env names op)
    (h : op.run env r = .ok r') (hr : ∀ o ∈ r.proc.ops, o ∈ names) : ∀ o ∈ r'.proc.ops, o ∈ names := by
  cases op with
  | line l d =>
    obtain ⟨x, hx, rfl⟩ := R.map_ok.1 h
    obtain ⟨new, h1, h2⟩ := input_registers hx
    rw [h1]
    intro o k
    rcases List.mem_append.1 k with k | k
    · exact hr o k
    · obtain ⟨arg, h3, h4⟩ := h2 o k
      obtain ⟨c, hc, hm⟩ := ho
      rw [h3] at hc
      cases hc
      exact hm o h4
  | tell t punct tv ev rng => rw [(inputT2_frame h).2.2.1]; exact hr
  | cycle v => rw [(cycle_frame h).1]; exact hr
  | declWork =>
    cases h
    have := (declWork_same env r).1
    rw [this]; exact hr
  | procWork rng =>
    cases h
    show ∀ o ∈ (workerStep r.proc rng).ops, o ∈ names
    rw [(workerStep_rest r.proc rng).2.2.1]; exact hr
  | handlers n => cases h; exact hr
  | verbosity n => cases h; exact hr
  | workerLost => cases h; exact hr
  | link => cases h; exact hr

theorem everyday_told {env : Env} {names : List Op} (hn : NopOps names) {r : Reasoner} {op : NarOp} {term : Term} {tv : Tv}
    (ho : Everyday env names op) (hr : ∀ o ∈ r.proc.ops, o ∈ names) (h : Told env r op term tv) : SaneStatement term tv := by
  cases op with
  | tell t p v e rng =>
    obtain ⟨rfl, rfl, rfl, rfl, ht⟩ := h
    have := ho.2.1 rfl
    simp only [Bool.false_eq_true, if_false] at this
    exact ⟨ho.2.2 rfl rfl, this.2⟩
  | line l d =>
    obtain ⟨c, hc, hm⟩ := ho
    rcases h with ⟨h1, h2, h3⟩ | ⟨⟨text, h1⟩, h1'⟩ | ⟨h1, h2, p0, p1, p2, act, args, name, effs, k1, k2, k3, k4, k5, k6⟩
    · rw [hc] at h1
      cases h1
      have := hm.2 _ _ _ _ h2 rfl
      simp only [Bool.false_eq_true, if_false] at this
      exact ⟨((parseNarsese_ok h2).2.1).wf, this.2⟩
    · obtain ⟨rel, hrel, txt, k1, k2, _⟩ := h1'
      rw [hc] at h1
      cases h1
      obtain ⟨txt', k3, k4⟩ := hm rel hrel
      rw [k1] at k3
      cases k3
      have := k4.2 _ _ _ _ k2 rfl
      simp only [Bool.false_eq_true, if_false] at this
      exact ⟨((parseNarsese_ok k2).2.1).wf, this.2⟩
    · have e1 : p1.ops = r.proc.ops := by
        obtain ⟨heap, new, rfl, _⟩ := narStep0_spec k1
        have : ∀ (l : List (List Nat)) (p : Proc), (l.foldl workerStep p).ops = p.ops := by
          intro l
          induction l with
          | nil => intro p; rfl
          | cons a l ih => intro p; exact (ih _).trans (workerStep_rest p a).2.2.1
        rw [← k2, this]
      have hnop : NopOps p1.ops := fun o k => hn o (hr o (by rw [← e1]; exact k))
      rw [nop_effects hnop] at k5
      cases k5
      cases k6
  | cycle v => exact h.elim
  | declWork | procWork _ | handlers _ | verbosity _ | link | workerLost => exact h.elim

theorem everyday_telling {env : Env} {names : List Op} (hn : NopOps names) {ops : List NarOp} (h : ∀ op ∈ ops, Everyday env names op) :
    SaneTelling env ops := by
  intro pre op post r term tv e hr ht
  refine everyday_told hn (h op (by rw [e]; simp)) ?_ ht
  refine foldlM_inv (fun z : Reasoner => ∀ o ∈ z.proc.ops, o ∈ names) hr (fun o k => by cases k) ?_
  intro op' hm z z' hz hzz
  exact everyday_ops (h op' (by rw [e]; simp [hm])) hzz hz

theorem everyday_text {env : Env} {names : List Op} {r : Reasoner} (h : Safe env r) (hp : PInv names r.proc) {s : List Char}
    {rng : List Nat} (hs : EverydayText env names s) : ∃ x, inputN env r s rng = .ok x ∧ PInv names x.1.proc ∧
      (x.1 = r ∨ ∃ op, Everyday env names op ∧ op.run env r = .ok x.1) := by
  obtain ⟨⟨x, hm⟩, hx⟩ := hs
  rcases x with _ | ⟨term, tv, punct, isEvent⟩
  · exact ⟨(r, false), by unfold inputN; exact R.bind_ok.2 ⟨_, hm, rfl⟩, hp, .inl rfl⟩
  · have hr := (parseNarsese_ok hm).2.1
    obtain ⟨r', k1, k2⟩ := everyday_input (rng := rng) h hp hr.printable (hx _ _ _ _ hm) (fun _ _ => hr.wf)
    exact ⟨(r', true), by unfold inputN; exact R.bind_ok.2 ⟨_, hm, R.bind_ok.2 ⟨r', k1, rfl⟩⟩, k2,
      .inr ⟨.tell term punct tv isEvent rng, ⟨hr.printable, hx _ _ _ _ hm, fun _ _ => hr.wf⟩, k1⟩⟩

theorem everyday_rels {env : Env} {names : List Op} (hn : NopOps names) {rng : List Nat} : ∀ (rels : List Relation) (ops : List NarOp)
    (r : Reasoner), runNar env ops = .ok r → (∀ op ∈ ops, Everyday env names op) → PInv names r.proc →
    (∀ rel ∈ rels, ∃ txt, convRelToNarsese env.sf rel = .ok txt ∧ EverydayText env names txt) →
    ∃ r', nlpProcess env r rels rng = .ok r' ∧ PInv names r'.proc := by
  intro rels
  induction rels with
  | nil => intro ops r _ _ hp _; exact ⟨r, rfl, hp⟩
  | cons rel rels ih =>
    intro ops r hr ho hp hrel
    obtain ⟨txt, h1, h2⟩ := hrel rel (by simp)
    obtain ⟨x, k1, k2, k3⟩ := everyday_text (rng := rng) (runNar_safe hr (everyday_telling hn ho)).1 hp h2
    have : ∃ ops', runNar env ops' = .ok x.1 ∧ ∀ op ∈ ops', Everyday env names op := by
      rcases k3 with k3 | ⟨op, k3, k4⟩
      · rw [k3]; exact ⟨ops, hr, ho⟩
      · refine ⟨ops ++ [op], moreNar_append.2 ⟨r, hr, foldlM_cons_ok.2 ⟨_, k4, rfl⟩⟩, ?_⟩
        intro o hm
        rcases List.mem_append.1 hm with hm | hm
        · exact ho o hm
        · rw [List.mem_singleton.1 hm]; exact k3
    obtain ⟨ops', j1, j2⟩ := this
    obtain ⟨r', g1, g2⟩ := ih ops' x.1 j1 j2 k2 (fun rel' hm => hrel rel' (by simp [hm]))
    exact ⟨r', foldlM_cons_ok.2 ⟨x.1, R.bind_ok.2 ⟨txt, h1, R.bind_ok.2 ⟨x, k1, rfl⟩⟩, g1⟩, g2⟩

theorem everyday_command {env : Env} {names : List Op} (hn : NopOps names) {ops : List NarOp} {r : Reasoner}
    (hr : runNar env ops = .ok r) (hops : ∀ op ∈ ops, Everyday env names op) (h : Safe env r)
    (ha : r.workerAlive = true) (hp : PInv names r.proc) {d : LineDraws} {s : List Char}
    {c : Command} (hs : EverydayLine env names s d) (hc : dispatch s = .ok c) :
    ∃ x, runCommand env r d s c = .ok x ∧ PInv names x.1.proc := by
  obtain ⟨c', hc', hm⟩ := hs
  rw [hc] at hc'
  cases hc'
  cases c with
  | comment | quit | empty | flush | debugMemory => exact ⟨_, rfl, hp⟩
  | babbleOff | babbleOn => exact ⟨_, rfl, hp.frame _⟩
  | register arg =>
    simp only [runCommand]
    split
    · rename_i op hop
      exact ⟨_, rfl, hp.register (hm op hop) hn⟩
    · exact ⟨_, rfl, hp⟩
  | cycles arg =>
    have hk : ∃ n, nCycles arg = .ok n := by
      unfold nCycles
      rcases hm with rfl | ⟨n, hk⟩
      · exact ⟨1, by simp [byteLen]⟩
      · rw [hk]; split <;> exact ⟨_, rfl⟩
    obtain ⟨n, hk⟩ := hk
    obtain ⟨r', hr⟩ := cyclesLoop_total (draws := d.cycles) (n := n.toNat) (i := 0) h ha
    refine ⟨(r', []), R.bind_ok.2 ⟨n, hk, R.bind_ok.2 ⟨r', hr, rfl⟩⟩, ?_⟩
    show PInv names r'.proc
    rw [cyclesLoop_proc hr]
    exact hp
  | narsese =>
    obtain ⟨x, k1, k2, _⟩ := everyday_text (rng := d.rng) h hp hm
    exact ⟨(x.1, []), R.bind_ok.2 ⟨x, k1, rfl⟩, k2⟩
  | showEvidence =>
    exact ⟨(r, []), R.bind_ok.2 ⟨(), debugEvidence_total hp, rfl⟩, hp⟩
  | debugTasks =>
    obtain ⟨l, hl⟩ := debugTasks_total h (runNar_stamps hr)
    exact ⟨(r, l), R.bind_ok.2 ⟨l, hl, rfl⟩, hp⟩
  | step =>
    obtain ⟨r', h1, h2⟩ := procStep_total (env := env) hn hp hm
    exact ⟨(r', []), R.bind_ok.2 ⟨r', h1, rfl⟩, h2⟩
  | stepA =>
    obtain ⟨p0, h0, hp0⟩ := hp.step0 hm.1
    exact ⟨({ r with proc := p0 }, []), R.bind_ok.2 ⟨p0, h0, rfl⟩, hp0⟩
  | stepB =>
    obtain ⟨r', h1, h2⟩ := procStep1_total (env := env) hn hp hm.2.2
    exact ⟨(r', []), R.bind_ok.2 ⟨r', h1, rfl⟩, h2⟩
  | nlp _ =>
    obtain ⟨r', h1, h2⟩ := everyday_rels hn (rng := d.rng) d.rels ops r hr hops hp hm
    exact ⟨(r', []), R.bind_ok.2 ⟨r', h1, rfl⟩, h2⟩

theorem everyday_run {env : Env} {names : List Op} (hn : NopOps names) {ops : List NarOp} {r : Reasoner}
    (hr : runNar env ops = .ok r) (hops : ∀ op ∈ ops, Everyday env names op) (h : Safe env r)
    (ha : r.workerAlive = true) (hp : PInv names r.proc) {op : NarOp}
    (ho : Everyday env names op) : ∃ r', op.run env r = .ok r' ∧ PInv names r'.proc := by
  cases op with
  | line l d =>
    obtain ⟨c, hc, hm⟩ := id ho
    obtain ⟨x, hx, hpx⟩ := everyday_command hn hr hops h ha hp ho hc
    refine ⟨x.1, ?_, hpx⟩
    simp only [NarOp.run]
    rw [input_of_dispatch hc, hx]
    rfl
  | tell term punct tv e rng => exact everyday_input h hp ho.1 ho.2.1 ho.2.2
  | cycle v =>
    obtain ⟨r', hr⟩ := cycle_total h (.inl ha) v
    exact ⟨r', hr, by rw [(cycle_frame hr).1]; exact hp⟩
  | declWork =>
    refine ⟨_, rfl, ?_⟩
    have := (declWork_same env r).1
    rw [this]
    exact hp
  | procWork rng => exact ⟨_, rfl, hp.work ho⟩
  | handlers _ | verbosity _ | link => exact ⟨_, rfl, hp⟩
  | workerLost => exact ho.elim

theorem createNar_pinv (names : List Op) : PInv names createNar.proc := by
  have hs : Started createNar.proc :=
    ⟨⟨rfl, rfl, rfl⟩, rfl, rfl, (by decide), (by decide +kernel), ⟨20, 8, by decide, by decide, rfl⟩, fun o k => by
      have : createNar.proc.ops = [] := rfl
      rw [this] at k; cases k⟩
  refine ⟨hs.safe, rfl, ?_, ?_, ?_⟩
  · intro o k
    have : createNar.proc.ops = [] := rfl
    rw [this] at k; cases k
  · intro o k
    have : createNar.proc.trace = [] := rfl
    rw [this] at k; cases k
  · intro o k
    have : createNar.proc.queue = [] := rfl
    rw [this] at k; cases k

theorem everyday_history {env : Env} {names : List Op} (hn : NopOps names) (ops : List NarOp) (h : ∀ op ∈ ops, Everyday env names op) :
    ∃ r, runNar env ops = .ok r ∧ r.workerAlive = true ∧ PInv names r.proc := by
  have hl : NarOp.workerLost ∉ ops := fun hm => h _ hm
  suffices hr : ∃ r, runNar env ops = .ok r ∧ PInv names r.proc by
    obtain ⟨r, hr, hp⟩ := hr
    exact ⟨r, hr, (runNar_safe hr (everyday_telling hn h)).2 hl, hp⟩
  induction ops using List.reverseRecOn with
  | nil => exact ⟨_, rfl, createNar_pinv names⟩
  | append_singleton ops op ih =>
    have h' : ∀ op ∈ ops, Everyday env names op := fun x hx => h x (by simp [hx])
    have hl' : NarOp.workerLost ∉ ops := fun hm => hl (by simp [hm])
    obtain ⟨r, hr, hp⟩ := ih h' hl'
    obtain ⟨hs, ha⟩ := runNar_safe hr (everyday_telling hn h')
    obtain ⟨r', h1, h2⟩ := everyday_run hn hr h' hs (ha hl') hp (h op (by simp))
    exact ⟨r', moreNar_append.2 ⟨r, hr, foldlM_cons_ok.2 ⟨r', h1, rfl⟩⟩, h2⟩

end Nar
