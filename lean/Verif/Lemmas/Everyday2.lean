import Verif.Lemmas.Unprompted
import Verif.Lemmas.Everyday1
/-! # Everyday use does not crash either if operators of the library are registered but not mentioned -/
namespace Nar
open Term

/-- operators whose name has the property do nothing but being executed -/
def IdleOps (ok : String → Prop) (ops : List Op) : Prop := ∀ op ∈ ops, (ok op.name ↔ op.babbleable = true) ∧ 1 ≤ op.eviCnt

/-- an action of everyday use which gives only names with the property -/
def EverydayOf (env : Env) (ok : String → Prop) (names : List Op) (op : NarOp) : Prop :=
  Everyday env names op ∧ ∀ t, GivesForActing env op t → MentionsOnly ok t

variable {ok : String → Prop}

theorem IdleOps.sub {ops ops' : List Op} (h : IdleOps ok ops) (hs : ∀ o ∈ ops', o ∈ ops) : IdleOps ok ops' := fun o ho => h o (hs o ho)

theorem idle_effects {ops : List Op} (h : IdleOps ok ops) {name : String} (hok : ok name) (args : List Term) :
    opEffects ops name args = .ok [] := by
  unfold opEffects
  split
  · rename_i op hop
    have hb : op.babbleable = true := by
      refine (h op (List.mem_of_find?_eq_some hop)).1.1 ?_
      have := List.find?_some hop
      rw [beq_iff_eq.1 this]; exact hok
    simp only [callDepth, callOp, hb, if_true]
  · rfl

theorem idle_execute {p : Proc} (h : IdleOps ok p.ops) {picked : Option Term} (hp : ∀ t, picked = some t → MentionsOnly ok t) :
    execute libCall p picked = execute envCall p picked := by
  cases picked with
  | none => rfl
  | some t =>
    cases hd : decodeOp t with
    | none => unfold execute; simp only [hd]; rfl
    | some x =>
      obtain ⟨args, name⟩ := x
      have hn := (mentionsOnly_call ((decodeOp_iff _ _ _).1 hd) (hp t rfl)).2
      have : libCall name args p = envCall name args p := by
        unfold libCall envCall
        rw [idle_effects h hn]
        rfl
      unfold execute
      simp only [hd, unwrap, bind, Except.bind, this]

theorem idle_step1 {p : Proc} (h : IdleOps ok p.ops) (hself : ok "SELF") (hm : PMentions ok p) (decay : Int → Rat) (rng : List Nat)
    (infs : List (Rat × Rat × List Nat)) : narStep1 libCall decay p rng infs = narStep1 envCall decay p rng infs := by
  unfold narStep1
  cases h1 : decideAction p rng with
  | error e => rfl
  | ok x =>
    obtain ⟨p1, picked, rng1⟩ := x
    have hp1 : p1.ops = p.ops ∧ ∀ t, picked = some t → MentionsOnly ok t := by
      obtain ⟨g, hg, hd⟩ := decideAction_spec h1
      rcases hd with ⟨e, i, r, b, iv, k1, k2, k3, k4, k5, k6, k7, k8⟩ | ⟨k1, k2, k3⟩
      · refine ⟨by rw [k8], fun t ht => ?_⟩
        rw [k7] at ht
        rw [← Option.some.inj ht]
        exact hg.mentions hm e (.inl (List.mem_of_getElem? k1))
      · refine ⟨by rw [k2], fun t ht => ?_⟩
        rcases k3 with k3 | ⟨_, op, ho, hb, k3⟩
        · rw [k3] at ht; cases ht
        · rw [k3] at ht
          rw [← Option.some.inj ht]
          refine mentionsOnly_encode.2 ⟨?_, hm.ops op ho hb⟩
          intro a ha
          rw [List.mem_singleton.1 ha]
          exact mentionsOnly_self hself
    have := idle_execute (p := p1) (by rw [hp1.1]; exact h) hp1.2
    simp only [bind, Except.bind, this]

theorem PInv.step1_idle {names : List Op} (hn : IdleOps ok names) (hself : ok "SELF") {p : Proc} (h : PInv names p)
    (hm : PMentions ok p) {decay : Int → Rat} (rng : List Nat) {infs : List (Rat × Rat × List Nat)} (hi : ∀ d ∈ infs, 0 ≤ d.2.1) :
    ∃ p' act, narStep1 libCall decay p rng infs = .ok (p', act) ∧ PInv names p' := by
  rw [idle_step1 (hn.sub h.ops) hself hm]
  obtain ⟨p', act, h1, h2, h3, h4⟩ := narStep1_safe (decay := decay) (envCall_wellBehaved p.ops) h.safe rng hi
  obtain ⟨k1, k2, k3, k4, k5, k6, k7, k8, k9⟩ := narStep1_env h1
  refine ⟨p', act, h1, h2, by rw [h4]; exact h.one, by rw [h3]; exact h.ops, ?_, by rw [k4, k3]; exact h.queue⟩
  intro e he
  have hpl := (h2.trace e he).2.1
  rw [k1] at he
  have he := (newest_suffix _ _).subset he
  rcases List.mem_append.1 he with he | he
  · exact h.trace e he
  · cases act with
    | none => cases he
    | some t =>
      rw [actionEvent, List.mem_singleton] at he
      subst he
      obtain ⟨args, name, hc, _⟩ := k9 t rfl
      exact call_plain hc hpl

theorem PInv.register_idle {names : List Op} {p : Proc} (h : PInv names p) {op : Op} (ho : op ∈ names) (hn : IdleOps ok names) :
    PInv names { p with ops := p.ops ++ [op] } := by
  have hp := h.safe
  have hops : ∀ o ∈ p.ops ++ [op], o ∈ names := by
    intro o k
    rcases List.mem_append.1 k with k | k
    · exact h.ops o k
    · rw [List.mem_singleton.1 k]; exact ho
  have hreg : ∀ {a : Term}, RegisteredCall p.ops a → RegisteredCall (p.ops ++ [op]) a := by
    rintro a ⟨args, name, k1, o, k2, k3⟩
    exact ⟨args, name, k1, o, List.mem_append_left _ k2, k3⟩
  refine ⟨⟨hp.heap, ?_, hp.refs, hp.antic, hp.goals, ?_, hp.time, hp.table, hp.alive, fun o k => (hn o (hops o k)).2⟩, h.one, hops,
    h.trace, ?_⟩
  · intro m hm
    obtain ⟨cond, acts, effect, k1, k2, k3⟩ := h.queue m hm
    exact ⟨(hp.queue m hm).rule, cond, acts, effect, k1, k2.fewer hops, fun a ha => hreg (k3 a ha)⟩
  · intro e he
    exact ⟨(hp.trace e he).1, (h.trace e he).fewer hops⟩
  · intro m hm
    obtain ⟨cond, acts, effect, k1, k2, k3⟩ := h.queue m hm
    exact ⟨cond, acts, effect, k1, k2, fun a ha => hreg (k3 a ha)⟩

theorem procStep1_idle {env : Env} {names : List Op} (hn : IdleOps ok names) (hself : ok "SELF") {r : Reasoner} (hp : PInv names r.proc)
    (hm : PMentions ok r.proc) {d : LineDraws} (hi : ∀ x ∈ d.infs, 0 ≤ x.2.1) :
    ∃ r', procStep1 env r d = .ok r' ∧ PInv names r'.proc := by
  obtain ⟨p', act, h1, h2⟩ := hp.step1_idle hn hself hm (decay := env.goalDecay) d.decide hi
  have hact := (narStep1_mentions (libCall_mentions ok) hself hm h1).2
  refine ⟨{ r with proc := p' }, ?_, h2⟩
  unfold procStep1
  rw [h1]
  show declEffects env { r with proc := p' } r.proc.ops r.proc.t act = _
  unfold declEffects
  cases act with
  | none => rfl
  | some t =>
    simp only
    cases hd : decodeOp t with
    | none => rfl
    | some x =>
      obtain ⟨args, name⟩ := x
      simp only [idle_effects (hn.sub hp.ops) (mentionsOnly_call ((decodeOp_iff _ _ _).1 hd) (hact t rfl)).2]
      rfl

theorem procWorks_mention (l : List (List Nat)) : ∀ {r : Reasoner}, PMentions ok r.proc → PMentions ok (l.foldl procWork r).proc := by
  induction l with
  | nil => intro r h; exact h
  | cons a l ih => intro r h; exact ih (r := procWork r a) (workerStep_mentions h a)

theorem procStep_idle {env : Env} {names : List Op} (hn : IdleOps ok names) (hself : ok "SELF") {r : Reasoner} (hp : PInv names r.proc)
    (hm : PMentions ok r.proc) {d : LineDraws} (hd : StepDraws d) : ∃ r', procStep env r d = .ok r' ∧ PInv names r'.proc := by
  obtain ⟨p0, h0, hp0⟩ := hp.step0 hd.1
  have hw := PInv.works d.between (r := { r with proc := p0 }) hp0 hd.2.1
  have hmw := procWorks_mention d.between (r := { r with proc := p0 }) (narStep0_mentions hm h0)
  obtain ⟨r', h1, h2⟩ := procStep1_idle (env := env) hn hself hw hmw hd.2.2
  exact ⟨r', R.bind_ok.2 ⟨p0, h0, h1⟩, h2⟩

theorem idle_permits {env : Env} {names : List Op} (hn : IdleOps ok names) {op : NarOp} (h : Everyday env names op) {n : String}
    (hp : Permits op n) : ok n := by
  cases op with
  | line l d =>
    obtain ⟨arg, o, h1, h2, h3, h4⟩ := hp
    obtain ⟨c, hc, hm⟩ := h
    rw [h1] at hc
    cases hc
    rw [← h4]
    exact (hn o (hm o h2)).1.2 h3
  | _ => exact hp.elim

theorem idle_mentions {env : Env} {names : List Op} (hn : IdleOps ok names) (hself : ok "SELF") {ops : List NarOp} {r : Reasoner}
    (hr : runNar env ops = .ok r) (h : ∀ op ∈ ops, EverydayOf env ok names op) : PMentions ok r.proc :=
  runNar_mentions hself hr (fun op ho => (h op ho).2) (fun op ho _ hp => idle_permits hn (h op ho).1 hp)

theorem idle_told {env : Env} {names : List Op} (hn : IdleOps ok names) (hself : ok "SELF") {r : Reasoner} {op : NarOp} {term : Term}
    {tv : Tv} (ho : Everyday env names op) (hr : ∀ o ∈ r.proc.ops, o ∈ names) (hmen : PMentions ok r.proc) (h : Told env r op term tv) :
    SaneStatement term tv := by
  cases op with
  | tell t p v e rng =>
    obtain ⟨rfl, rfl, rfl, rfl, ht⟩ := h
    have := ho.2.1 rfl
    simp only [Bool.false_eq_true, if_false] at this
    exact ⟨ho.2.2 rfl rfl, this.2⟩
  | line l d =>
    obtain ⟨c, hc, hm⟩ := ho
    rcases h with ⟨h1, h2, h3⟩ | ⟨⟨text, h1⟩, h1'⟩ | ⟨h1, h2, p0, p1, p2, act, args, name, effs, k1, k2, k3, k4, k5, k6⟩
    · rw [hc] at h1
      cases h1
      have := hm.2 _ _ _ _ h2 rfl
      simp only [Bool.false_eq_true, if_false] at this
      exact ⟨((parseNarsese_ok h2).2.1).wf, this.2⟩
    · obtain ⟨rel, hrel, txt, k1, k2, _⟩ := h1'
      rw [hc] at h1
      cases h1
      obtain ⟨txt', k3, k4⟩ := hm rel hrel
      rw [k1] at k3
      cases k3
      have := k4.2 _ _ _ _ k2 rfl
      simp only [Bool.false_eq_true, if_false] at this
      exact ⟨((parseNarsese_ok k2).2.1).wf, this.2⟩
    · have e1 : p1.ops = r.proc.ops := by
        obtain ⟨heap, new, rfl, _⟩ := narStep0_spec k1
        have : ∀ (l : List (List Nat)) (p : Proc), (l.foldl workerStep p).ops = p.ops := by
          intro l
          induction l with
          | nil => intro p; rfl
          | cons a l ih => intro p; exact (ih _).trans (workerStep_rest p a).2.2.1
        rw [← k2, this]
      have hp1 : PMentions ok p1 := by
        rw [← k2]
        exact workers_mention _ (narStep0_mentions hmen k1)
      have hnop : IdleOps ok p1.ops := hn.sub (fun o k => hr o (by rw [← e1]; exact k))
      have hact := (narStep1_mentions (libCall_mentions ok) hself hp1 k3).2 act rfl
      rw [idle_effects hnop (mentionsOnly_call ((decodeOp_iff _ _ _).1 k4) hact).2] at k5
      cases k5
      cases k6
  | cycle v => exact h.elim
  | declWork | procWork _ | handlers _ | verbosity _ | link | workerLost => exact h.elim

theorem idle_telling {env : Env} {names : List Op} (hn : IdleOps ok names) (hself : ok "SELF") {ops : List NarOp}
    (h : ∀ op ∈ ops, EverydayOf env ok names op) : SaneTelling env ops := by
  intro pre op post r term tv e hr ht
  refine idle_told hn hself (h op (by rw [e]; simp)).1 ?_ (idle_mentions hn hself hr (fun o ho => h o (by rw [e]; simp [ho]))) ht
  refine foldlM_inv (fun z : Reasoner => ∀ o ∈ z.proc.ops, o ∈ names) hr (fun o k => by cases k) ?_
  intro op' hm z z' hz hzz
  exact everyday_ops (h op' (by rw [e]; simp [hm])).1 hzz hz

theorem idle_text {env : Env} {names : List Op} {r : Reasoner} (h : Safe env r) (hp : PInv names r.proc) {s : List Char}
    {rng : List Nat} (hs : EverydayText env names s)
    (hq : ∀ t tv punct isEvent, parseNarsese env.pf s = .ok (some (t, tv, punct, isEvent)) → BearsOnActing t punct isEvent →
      MentionsOnly ok t) : ∃ x, inputN env r s rng = .ok x ∧ PInv names x.1.proc ∧
      (x.1 = r ∨ ∃ op, EverydayOf env ok names op ∧ op.run env r = .ok x.1) := by
  obtain ⟨⟨x, hm⟩, hx⟩ := hs
  rcases x with _ | ⟨term, tv, punct, isEvent⟩
  · exact ⟨(r, false), by unfold inputN; exact R.bind_ok.2 ⟨_, hm, rfl⟩, hp, .inl rfl⟩
  · have hr := (parseNarsese_ok hm).2.1
    obtain ⟨r', k1, k2⟩ := everyday_input (rng := rng) h hp hr.printable (hx _ _ _ _ hm) (fun _ _ => hr.wf)
    refine ⟨(r', true), by unfold inputN; exact R.bind_ok.2 ⟨_, hm, R.bind_ok.2 ⟨r', k1, rfl⟩⟩, k2,
      .inr ⟨.tell term punct tv isEvent rng, ⟨⟨hr.printable, hx _ _ _ _ hm, fun _ _ => hr.wf⟩, ?_⟩, k1⟩⟩
    rintro t ⟨rfl, ht⟩
    exact hq _ _ _ _ hm ht

theorem idle_rels {env : Env} {names : List Op} (hn : IdleOps ok names) (hself : ok "SELF") {rng : List Nat} :
    ∀ (rels : List Relation) (ops : List NarOp) (r : Reasoner), runNar env ops = .ok r → (∀ op ∈ ops, EverydayOf env ok names op) →
    PInv names r.proc → (∀ rel ∈ rels, ∃ txt, convRelToNarsese env.sf rel = .ok txt ∧ EverydayText env names txt ∧
      ∀ t tv punct isEvent, parseNarsese env.pf txt = .ok (some (t, tv, punct, isEvent)) → BearsOnActing t punct isEvent →
        MentionsOnly ok t) →
    ∃ r', nlpProcess env r rels rng = .ok r' ∧ PInv names r'.proc := by
  intro rels
  induction rels with
  | nil => intro ops r _ _ hp _; exact ⟨r, rfl, hp⟩
  | cons rel rels ih =>
    intro ops r hr ho hp hrel
    obtain ⟨txt, h1, h2, h3⟩ := hrel rel (by simp)
    obtain ⟨x, k1, k2, k3⟩ := idle_text (rng := rng) (runNar_safe hr (idle_telling hn hself ho)).1 hp h2 h3
    have : ∃ ops', runNar env ops' = .ok x.1 ∧ ∀ op ∈ ops', EverydayOf env ok names op := by
      rcases k3 with k3 | ⟨op, k3, k4⟩
      · rw [k3]; exact ⟨ops, hr, ho⟩
      · refine ⟨ops ++ [op], moreNar_append.2 ⟨r, hr, foldlM_cons_ok.2 ⟨_, k4, rfl⟩⟩, ?_⟩
        intro o hm
        rcases List.mem_append.1 hm with hm | hm
        · exact ho o hm
        · rw [List.mem_singleton.1 hm]; exact k3
    obtain ⟨ops', j1, j2⟩ := this
    obtain ⟨r', g1, g2⟩ := ih ops' x.1 j1 j2 k2 (fun rel' hm => hrel rel' (by simp [hm]))
    exact ⟨r', foldlM_cons_ok.2 ⟨x.1, R.bind_ok.2 ⟨txt, h1, R.bind_ok.2 ⟨x, k1, rfl⟩⟩, g1⟩, g2⟩

theorem idle_run {env : Env} {names : List Op} (hn : IdleOps ok names) (hself : ok "SELF") {ops : List NarOp} {r : Reasoner}
    (hr : runNar env ops = .ok r) (hops : ∀ op ∈ ops, EverydayOf env ok names op) (h : Safe env r)
    (ha : r.workerAlive = true) (hp : PInv names r.proc) {op : NarOp}
    (ho : EverydayOf env ok names op) : ∃ r', op.run env r = .ok r' ∧ PInv names r'.proc := by
  have hmen := idle_mentions hn hself hr hops
  cases op with
  | line l d =>
    obtain ⟨⟨c, hc, hm⟩, hg⟩ := ho
    suffices hx : ∃ x, runCommand env r d (trimNewline l) c = .ok x ∧ PInv names x.1.proc by
      obtain ⟨x, hx, hpx⟩ := hx
      refine ⟨x.1, ?_, hpx⟩
      simp only [NarOp.run]
      rw [input_of_dispatch hc, hx]
      rfl
    cases c with
    | comment | quit | empty | flush | debugMemory => exact ⟨_, rfl, hp⟩
    | babbleOff | babbleOn => exact ⟨_, rfl, hp.frame _⟩
    | register arg =>
      simp only [runCommand]
      split
      · rename_i op hop
        exact ⟨_, rfl, hp.register_idle (hm op hop) hn⟩
      · exact ⟨_, rfl, hp⟩
    | cycles arg =>
      have hk : ∃ n, nCycles arg = .ok n := by
        unfold nCycles
        rcases hm with rfl | ⟨n, hk⟩
        · exact ⟨1, by simp [byteLen]⟩
        · rw [hk]; split <;> exact ⟨_, rfl⟩
      obtain ⟨n, hk⟩ := hk
      obtain ⟨r', hr⟩ := cyclesLoop_total (draws := d.cycles) (n := n.toNat) (i := 0) h ha
      refine ⟨(r', []), R.bind_ok.2 ⟨n, hk, R.bind_ok.2 ⟨r', hr, rfl⟩⟩, ?_⟩
      show PInv names r'.proc
      rw [cyclesLoop_proc hr]
      exact hp
    | narsese =>
      obtain ⟨x, k1, k2, _⟩ := idle_text (ok := ok) (rng := d.rng) h hp hm
        (fun t tv punct isEvent hpa hb => hg t (.inl ⟨hc, tv, punct, isEvent, hpa, hb⟩))
      exact ⟨(x.1, []), R.bind_ok.2 ⟨x, k1, rfl⟩, k2⟩
    | showEvidence =>
      exact ⟨(r, []), R.bind_ok.2 ⟨(), debugEvidence_total hp, rfl⟩, hp⟩
    | debugTasks =>
      obtain ⟨l, hl⟩ := debugTasks_total h (runNar_stamps hr)
      exact ⟨(r, l), R.bind_ok.2 ⟨l, hl, rfl⟩, hp⟩
    | step =>
      obtain ⟨r', h1, h2⟩ := procStep_idle (env := env) hn hself hp hmen hm
      exact ⟨(r', []), R.bind_ok.2 ⟨r', h1, rfl⟩, h2⟩
    | stepA =>
      obtain ⟨p0, h0, hp0⟩ := hp.step0 hm.1
      exact ⟨({ r with proc := p0 }, []), R.bind_ok.2 ⟨p0, h0, rfl⟩, hp0⟩
    | stepB =>
      obtain ⟨r', h1, h2⟩ := procStep1_idle (env := env) hn hself hp hmen hm.2.2
      exact ⟨(r', []), R.bind_ok.2 ⟨r', h1, rfl⟩, h2⟩
    | nlp text =>
      obtain ⟨r', h1, h2⟩ := idle_rels hn hself (rng := d.rng) d.rels ops r hr hops hp (fun rel hrel => by
        obtain ⟨txt, k1, k2⟩ := hm rel hrel
        exact ⟨txt, k1, k2, fun t tv punct isEvent hpa hb =>
          hg t (.inr ⟨⟨text, hc⟩, rel, hrel, txt, tv, punct, isEvent, k1, hpa, hb⟩)⟩)
      exact ⟨(r', []), R.bind_ok.2 ⟨r', h1, rfl⟩, h2⟩
  | tell term punct tv e rng => exact everyday_input h hp ho.1.1 ho.1.2.1 ho.1.2.2
  | cycle v =>
    obtain ⟨r', hr⟩ := cycle_total h (.inl ha) v
    exact ⟨r', hr, by rw [(cycle_frame hr).1]; exact hp⟩
  | declWork =>
    refine ⟨_, rfl, ?_⟩
    have := (declWork_same env r).1
    rw [this]
    exact hp
  | procWork rng => exact ⟨_, rfl, hp.work ho.1⟩
  | handlers _ | verbosity _ | link => exact ⟨_, rfl, hp⟩
  | workerLost => exact ho.1.elim

theorem idle_history {env : Env} {names : List Op} (hn : IdleOps ok names) (hself : ok "SELF") (ops : List NarOp)
    (h : ∀ op ∈ ops, EverydayOf env ok names op) :
    ∃ r, runNar env ops = .ok r ∧ r.workerAlive = true ∧ PInv names r.proc := by
  have hl : NarOp.workerLost ∉ ops := fun hm => (h _ hm).1
  suffices hr : ∃ r, runNar env ops = .ok r ∧ PInv names r.proc by
    obtain ⟨r, hr, hp⟩ := hr
    exact ⟨r, hr, (runNar_safe hr (idle_telling hn hself h)).2 hl, hp⟩
  induction ops using List.reverseRecOn with
  | nil => exact ⟨_, rfl, createNar_pinv names⟩
  | append_singleton ops op ih =>
    have h' : ∀ op ∈ ops, EverydayOf env ok names op := fun x hx => h x (by simp [hx])
    have hl' : NarOp.workerLost ∉ ops := fun hm => hl (by simp [hm])
    obtain ⟨r, hr, hp⟩ := ih h' hl'
    obtain ⟨hs, ha⟩ := runNar_safe hr (idle_telling hn hself h')
    obtain ⟨r', h1, h2⟩ := idle_run hn hself hr h' hs (ha hl') hp (h op (by simp))
    exact ⟨r', moreNar_append.2 ⟨r, hr, foldlM_cons_ok.2 ⟨r', h1, rfl⟩⟩, h2⟩

end Nar
