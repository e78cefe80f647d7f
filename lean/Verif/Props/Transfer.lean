import Verif.Lemmas.Transfer
import Verif.Props.Ways
import Verif.Props.Rename
/-! # Properties about doing with one thing what was learned about another (C117) -/
namespace Nar.Props
open Nar Nar.Term

/-- C117: Take any history of plain events, printable goals, steps and rounds of the worker.  If then a stored goal wants a
sequence of a condition and an action, and a recent event is an instance of the condition, then the next step acts, whatever
is drawn, and what it does promises at least as much as that goal (provided that whatever it may consider is sound and no
executable goal is left over). -/
theorem C117_instance_acted_on (call : Call) (decay : Int → Rat) (p0 p : Proc) (hp : Started p0)
    (hcall : WellBehaved p0.ops call) (ops : List ProcOp) (ho : ∀ op ∈ ops, op.Harmless p0.ops)
    (hrun : runProc call decay p0 ops = .ok p) (hth : 0 ≤ p.threshold) (e : Entry) (he : Stored p.goals e) (cond op : Term)
    (ht : e.sentence.term = .Seq [cond, op]) (event : Event) (hev : Recent p.perceptWindow p.trace event)
    (hground : Ground event.name) (θ : Term → Term) (hθ : inst θ cond = event.name)
    (hvars : ∀ v, IsVar v → IsSubterm v op → IsSubterm v cond)
    (x : Rat) (hx : Expectation e.sentence x) (hxt : p.threshold < x)
    (hsound : ∀ seq y ev, Considered p seq y ev → p.threshold < y → SoundChoice p seq ev)
    (hact : p.goals.activeSet = []) (rng : List Nat) (infs : List (Rat × Rat × List Nat)) (hi : ∀ d ∈ infs, 0 ≤ d.2.1) :
    Considered p (.Seq [event.name, inst θ op]) x e.evidence ∧
    ∃ p' acts op' y ev, narStep1 call decay p rng infs = .ok (p', some op') ∧
      Considered p (.Seq (acts ++ [op'])) y ev ∧ x ≤ y := by
  obtain ⟨hs, hops⟩ := reached hp hcall ho hrun
  obtain ⟨σ, hu, hsub⟩ := unifySubst_seq hground hθ hvars
  refine ⟨.inl ⟨e, event, cond, [op], σ, he, hev, ht, hu, by rw [ht]; exact hsub.symm, hx, rfl⟩, ?_⟩
  obtain ⟨p', act, h, _⟩ := narStep1_safe (decay := decay) (hops ▸ hcall) hs rng hi
  obtain ⟨p1, picked, rng1, hd, _⟩ := decideAction_total hs rng
  have hd0 := hd
  unfold decideAction at hd
  obtain ⟨b0, h0, hd⟩ := R.bind_ok.1 hd
  obtain ⟨⟨b1, rng2⟩, h1, hd⟩ := R.bind_ok.1 hd
  obtain ⟨p2, h2, hd⟩ := R.bind_ok.1 hd
  obtain ⟨a, h3, hd⟩ := R.bind_ok.1 hd
  obtain ⟨⟨p4, pk⟩, h4, hd⟩ := R.bind_ok.1 hd
  obtain ⟨⟨pk', rng3⟩, h5, hd⟩ := R.bind_ok.1 hd
  cases hd
  have hc0 : ChoiceOk p b0 := foldlM_inv (ChoiceOk p) h0 (by intro b hb; cases hb)
    (fun i him _ _ hx hs => bestByState_choice (List.mem_range.1 him) hs hx)
  obtain ⟨i, hiw, hie⟩ := recent_iff.1 hev
  have hb0 : AtLeast x b0 := foldBest_reaches (List.mem_range.2 hiw) hie he
    (seq := unifySubst σ e.sentence.term) ⟨cond, [op], σ, ht, hu, rfl⟩ hx (by linarith) h0
  obtain ⟨b, rfl, hbx⟩ := predictAll_atLeast hb0 h1
  have hcons := predictAll_choice hc0 h1 b rfl
  have hok : ActiveOk p p.goals := by intro e he; rw [hact] at he; cases he
  have hx' : p.threshold < b.exp := lt_of_lt_of_le hxt hbx
  obtain ⟨op', rfl, hreg, hops2, hterm⟩ := decide_sound hs.goals.inv hth hok hx' (hsound _ _ _ hcons hx') h2 h3 h4 h5
  have hact' := step_acts (reports_of_wellBehaved hcall) h hd0 (by rw [hops2]; exact hreg)
  subst hact'
  rcases hterm with ⟨acts, hacts⟩ | ⟨e, he, _⟩
  · rw [hacts] at hcons
    exact ⟨p', acts, op', b.exp, b.evidence, h, hcons, hbx⟩
  · rw [hact] at he; cases he

/-- C117: if nothing else promises as much, it is the action of the goal, applied to the thing the event is about, which is
executed. -/
theorem C117_done_with_the_thing_seen (call : Call) (decay : Int → Rat) (p0 p : Proc) (hp : Started p0)
    (hcall : WellBehaved p0.ops call) (ops : List ProcOp) (ho : ∀ op ∈ ops, op.Harmless p0.ops)
    (hrun : runProc call decay p0 ops = .ok p) (hth : 0 ≤ p.threshold) (e : Entry) (he : Stored p.goals e) (cond op : Term)
    (ht : e.sentence.term = .Seq [cond, op]) (event : Event) (hev : Recent p.perceptWindow p.trace event)
    (hground : Ground event.name) (θ : Term → Term) (hθ : inst θ cond = event.name)
    (hvars : ∀ v, IsVar v → IsSubterm v op → IsSubterm v cond)
    (x : Rat) (hx : Expectation e.sentence x) (hxt : p.threshold < x)
    (hsound : ∀ seq y ev, Considered p seq y ev → p.threshold < y → SoundChoice p seq ev)
    (hact : p.goals.activeSet = []) (hbest : ∀ seq y ev, Considered p seq y ev → x ≤ y → seq = .Seq [event.name, inst θ op])
    (rng : List Nat) (infs : List (Rat × Rat × List Nat)) (hi : ∀ d ∈ infs, 0 ≤ d.2.1) :
    ∃ p', narStep1 call decay p rng infs = .ok (p', some (inst θ op)) := by
  obtain ⟨_, p', acts, op', y, ev, h, hc, hy⟩ := C117_instance_acted_on call decay p0 p hp hcall ops ho hrun hth e he cond op ht
    event hev hground θ hθ hvars x hx hxt hsound hact rng infs hi
  have := hbest _ _ _ hc hy
  injection this with this
  obtain ⟨_, h6⟩ := List.append_inj' (t₁ := [op']) (s₂ := [event.name]) (t₂ := [inst θ op]) this rfl
  cases h6
  exact ⟨p', h⟩

/-! ## a concrete case -/

/-- the variable of the rule which is learned -/
def var1 : Term := .IndepVar "Q124567890000000000000000"
/-- a thing is on -/
def isOn (t : Term) : Term := .Stmt .INH t (.SetInt [.Name "on"])
/-- `^l` is applied to the thing -/
def pressed (t : Term) : Term := encodeOp [selfTerm, t] "^l"
/-- once `x` is on, `^l` is applied to it, and it is good; then this is wanted, and `y` is on -/
def otherThing : List ProcOp :=
  [.event (isOn (.Name "x")), .event (pressed (.Name "x")), .event (.Name "good"), .step0 firstDraws,
   .worker [1, 2, 3, 4, 5, 6, 7, 8], .event (.Name "z"), .goal (.Name "good") ⟨1, 9/10⟩ 100, .flush,
   .step1 [] [(0, 0, [2, 0]), (0, 0, [1, 0])], .event (isOn (.Name "y"))]

theorem isOn_plain (n : String) (h1 : n ≠ "^l") (h2 : n ≠ "^r") : PlainEvent calm.ops (isOn (.Name n)) := by
  refine ⟨⟨_, rfl⟩, ?_⟩
  intro x ps h
  injection h with _ h _
  subst h
  rintro (⟨args, name, _, h⟩ | ⟨_, h⟩ | ⟨_, h⟩ | ⟨o, ho, h⟩)
  · cases h
  · cases h
  · cases h
  · injection h with h
    have : o = ⟨"^l", true, 3⟩ ∨ o = ⟨"^r", false, 3⟩ := by simpa [calm, agent] using ho
    rcases this with rfl | rfl
    · exact h1 h
    · exact h2 h

theorem otherThing_harmless : ∀ op ∈ otherThing, op.Harmless calm.ops := by
  intro op hop
  simp only [otherThing, List.mem_cons, List.not_mem_nil, or_false] at hop
  casesm* _ ∨ _
  all_goals subst op
  all_goals first | exact plain_name _ _ | exact printable_name _ | trivial |
    exact call_plain (args := [selfTerm, .Name "x"]) (name := "^l") ⟨by simp, rfl⟩ ⟨_, rfl⟩ |
    exact isOn_plain _ (by decide) (by decide) | (unfold ProcOp.Harmless; decide +kernel)

set_option synthInstance.maxSize 2000 in
/-- the conditions of `C117_done_with_the_thing_seen` are met: the agent applies `^l` to `y` -/
example : ∃ p, runProc noEffect (fun _ => 1) calm otherThing = .ok p ∧ ∀ rng infs, (∀ d ∈ infs, 0 ≤ d.2.1) →
    ∃ p', narStep1 noEffect (fun _ => 1) p rng infs = .ok (p', some (pressed (.Name "y"))) := by
  have h : (runProc noEffect (fun _ => 1) calm otherThing).map (fun p => (p.mem.heap.map (fun b => (b.term, b.evi)),
      (retEntries p.goals).map (fun e => (e.sentence.term, e.sentence.evi, e.evidence)), p.goals.activeSet.length,
      p.trace.map (·.name), p.perceptWindow, p.threshold)) =
      .ok (List.replicate 10 (rule (isOn (.Name "x")) [pressed (.Name "x")] (.Name "good"), some (.CNT 3 3)) ++
          List.replicate 10 (rule (isOn var1) [pressed var1] (.Name "good"), some (.CNT 3 3)),
        [(.Name "good", some (.TV ⟨1, 9/10⟩), none), (.Seq [isOn (.Name "x"), pressed (.Name "x")], some (.TV ⟨1, 27/40⟩), some 8),
          (.Seq [isOn var1, pressed var1], some (.TV ⟨1, 27/40⟩), some 18), (isOn (.Name "x"), some (.TV ⟨1, 27/40⟩), none)],
        0, [isOn (.Name "y")], 2, 29/50) := by decide +kernel
  obtain ⟨p, hp, h⟩ := R.map_ok.1 h
  simp only [Prod.mk.injEq] at h
  obtain ⟨h1, h2, h3, h4, h5, h6⟩ := h
  have hops : p.ops = calm.ops := (reached calm_started (noEffect_wellBehaved _) otherThing_harmless hp).2
  -- the goals
  have hgoals : ∀ e, Stored p.goals e → ∀ ts, e.sentence.term = .Seq ts →
      (ts = [isOn (.Name "x"), pressed (.Name "x")] ∨ ts = [isOn var1, pressed var1] ∧ e.evidence = some 18) ∧
        e.sentence.evi = some (.TV ⟨1, 27/40⟩) := by
    intro e he ts ht
    have := List.mem_map_of_mem (f := fun e : Entry => (e.sentence.term, e.sentence.evi, e.evidence)) ((retEntries_mem _ _).2 he)
    rw [h2, ht] at this
    simp only [List.mem_cons, List.not_mem_nil, or_false, Prod.mk.injEq] at this
    rcases this with ⟨k, _⟩ | ⟨k, k1, _⟩ | ⟨k, k1, k2⟩ | ⟨k, _⟩
    · cases k
    · injection k with k; exact ⟨.inl k, k1⟩
    · injection k with k; exact ⟨.inr ⟨k, k2⟩, k1⟩
    · cases k
  have hgoal : ∃ e, Stored p.goals e ∧ e.sentence.term = .Seq [isOn var1, pressed var1] ∧ e.sentence.evi = some (.TV ⟨1, 27/40⟩) := by
    have : (Term.Seq [isOn var1, pressed var1], some (Evidence.TV ⟨1, 27/40⟩), some 18) ∈
        (retEntries p.goals).map (fun e => (e.sentence.term, e.sentence.evi, e.evidence)) := by rw [h2]; simp
    obtain ⟨e, he, hh⟩ := List.mem_map.1 this
    simp only [Prod.mk.injEq] at hh
    exact ⟨e, (retEntries_mem _ _).1 he, hh.1, hh.2.1⟩
  -- the only event
  have htr : ∃ ev, p.trace = [ev] ∧ ev.name = isOn (.Name "y") := by
    cases ht : p.trace with
    | nil => rw [ht] at h4; cases h4
    | cons ev l =>
      rw [ht] at h4
      cases l with
      | nil => simp only [List.map_cons, List.map_nil, List.cons.injEq, and_true] at h4; exact ⟨ev, rfl, h4⟩
      | cons ev' l => simp at h4
  obtain ⟨ev, ht, hen⟩ := htr
  have hrec : ∀ e, Recent p.perceptWindow p.trace e ↔ e = ev := by
    intro e
    rw [h5, ht]
    unfold Recent newest
    simp
  -- what is considered
  have hcons : ∀ seq y ev', Considered p seq y ev' → seq = .Seq [isOn (.Name "y"), pressed (.Name "y")] ∧ ev' = some 18 := by
    rintro seq y ev' (⟨e, event, first, rest, a, k1, k2, k3, k4, k5, _, k6⟩ |
        ⟨e, last', T, tv, r, rs, b, acts, effect, _, _, _, _, _, hb, hbt, _⟩)
    · obtain ⟨k7 | ⟨k7, k8⟩, _⟩ := hgoals e k1 _ k3
      · obtain ⟨rfl, rfl⟩ := List.cons.inj k7
        rw [(hrec _).1 k2, hen] at k4
        have : unify (retSubSeqAsSeqOrTerm [isOn (Name "x"), pressed (Name "x")].dropLast) (isOn (Name "y")) = none := by decide
        rw [this] at k4; cases k4
      · obtain ⟨rfl, rfl⟩ := List.cons.inj k7
        rw [(hrec _).1 k2, hen] at k4
        have : unify (retSubSeqAsSeqOrTerm [isOn var1, pressed var1].dropLast) (isOn (Name "y")) = some [⟨var1, .Name "y"⟩] := by rfl
        rw [this] at k4
        cases k4
        rw [k5, k3]
        exact ⟨by decide, k6.trans k8⟩
    · have := List.mem_map_of_mem (f := fun b : Sentence => (b.term, b.evi)) (List.mem_of_getElem? hb)
      rename_i hl _ _ _ _
      rw [ht] at hl
      have hl := Option.some.inj hl
      rw [List.getLast_singleton] at hl
      rw [h1, hbt, ← hl, hen] at this
      rcases List.mem_append.1 this with k | k
      · have := (Prod.mk.inj (List.eq_of_mem_replicate k)).1
        simp [rule, isOn] at this
      · have := (Prod.mk.inj (List.eq_of_mem_replicate k)).1
        simp [rule, isOn, var1] at this
  obtain ⟨e, he, het, hee⟩ := hgoal
  have hact : p.goals.activeSet = [] := List.length_eq_zero_iff.1 h3
  have htv : HasTruth e.sentence ⟨1, 27/40⟩ := by unfold HasTruth retTv; rw [hee]
  have hvar : ∀ v t, IsVar v → IsSubterm v (pressed t) → IsSubterm v t := by
    intro v t hv hs
    rw [← mem_retSubterms] at hs
    simp [pressed, encodeOp, selfTerm, retSubterms, retSubtermsL, mem_retSubterms] at hs
    casesm* _ ∨ _
    all_goals first | assumption | (subst v; simp [IsVar] at hv)
  refine ⟨p, hp, fun rng infs hi => ?_⟩
  have := C117_done_with_the_thing_seen noEffect (fun _ => 1) calm p calm_started (noEffect_wellBehaved _) otherThing
    otherThing_harmless hp (by rw [h6]; norm_num) e he (isOn var1) (pressed var1) het ev ((hrec ev).2 rfl)
    (by
      rw [hen]
      intro v hv hs
      rw [← mem_retSubterms] at hs
      simp [isOn, retSubterms, retSubtermsL] at hs
      rcases hs with rfl | rfl | rfl | rfl <;> simp [IsVar] at hv)
    (fun _ => .Name "y") (by rw [hen]; rfl) (fun v hv hs => .inside (by simp [isOn, parts]) (hvar v var1 hv hs))
    ((1 - 1/2) * (27/40) + 1/2) ⟨_, htv, rfl⟩ (by rw [h6]; norm_num)
    (by
      intro seq y ev' hc _
      obtain ⟨rfl, rfl⟩ := hcons _ _ _ hc
      obtain ⟨b, hb⟩ : ∃ b, p.mem.heap[18]? = some b := by
        have := congrArg List.length h1
        simp at this
        exact ⟨_, List.getElem?_eq_getElem (by omega)⟩
      have hbe : b.evi = some (.CNT 3 3) := by
        have := List.mem_map_of_mem (f := fun b : Sentence => (b.term, b.evi)) (List.mem_of_getElem? hb)
        rw [h1] at this
        rcases List.mem_append.1 this with k | k <;> exact (Prod.mk.inj (List.eq_of_mem_replicate k)).2
      refine ⟨18, b, _, [isOn (.Name "y")], pressed (.Name "y"), rfl, hb, ⟨_, counted3 hbe, rfl⟩, by rw [h6]; norm_num, rfl, ?_⟩
      rw [hops]
      exact ⟨[selfTerm, .Name "y"], "^l", ⟨by simp, rfl⟩, ⟨"^l", true, 3⟩, by decide, rfl⟩)
    hact (by
      intro seq y ev' hc _
      rw [(hcons _ _ _ hc).1, hen]
      rfl) rng infs hi
  exact this

/-! ## complete histories, about any things -/

/-- the thing has the quality -/
def isQ (x q : String) : Term := .Stmt .INH (.Name x) (.SetInt [.Name q])
/-- the operator, called with the thing -/
def callOn (x op : String) : Term := encodeOp [selfTerm, .Name x] op
/-- something happens -/
def happens (t : Term) : NarOp := .tell t .JUGEMENT ⟨1, 9/10⟩ true []
/-- a step with rounds of the worker in between, and with inferences about goals -/
def stepWith (between : List (List Nat)) (infs : List (Rat × Rat × List Nat)) : NarOp :=
  .line "!sp".toList { draws between [0] with infs := infs }
/-- once: the thing has the quality, the operator is applied to it, the effect happens; then something else -/
def lesson (x q z op : String) (effect : Term) : List NarOp :=
  [.line ("!por NOP ".toList ++ op.toList) (draws [] [5]), ln "!peb 0", stepWith [] [], stepWith [] [], happens (isQ x q),
   happens (callOn x op), happens effect, stepWith [[1, 2, 3, 4, 5, 6, 7, 8]] [], happens (.Name z)]
/-- a goal is given, the thing has the quality -/
def exam (y q : String) (goal : Term) : List NarOp :=
  [.tell goal .GOAL ⟨1, 9/10⟩ true [], stepWith [] [(0, 0, [2, 0]), (0, 0, [1, 0])], happens (isQ y q), stepWith [] []]

theorem forall₂_append {α β : Type} {r : α → β → Prop} {a c : List α} {b d : List β} (h1 : List.Forall₂ r a b)
    (h2 : List.Forall₂ r c d) : List.Forall₂ r (a ++ c) (b ++ d) := by
  induction h1 with
  | nil => exact h2
  | cons h _ ih => exact .cons h ih

theorem same_lesson {ρ : Renaming} (hf : ρ.Fixes) (x q z op : String) (effect : Term) (h1 : Word op) (h2 : Word (ρ.name op)) :
    List.Forall₂ (ρ.SameAction env0) (lesson x q z op effect)
      (lesson (ρ.name x) (ρ.name q) (ρ.name z) (ρ.name op) (ρ.term effect)) := by
  have k (l : String) (d : LineDraws) (c : Command) (h : dispatch (trimNewline l.toList) = .ok c) (h1 : c ≠ .narsese)
      (h2 : ∀ a, c ≠ .register a) (h3 : ∀ t, c ≠ .nlp t) : ρ.SameAction env0 (.line l.toList d) (.line l.toList d) :=
    .line _ (sameLine_self h h1 h2 h3)
  have sp (a : List (List Nat)) (b : List (Rat × Rat × List Nat)) : ρ.SameAction env0 (stepWith a b) (stepWith a b) :=
    k _ _ .step (by decide +kernel) (by simp) (by simp) (by simp)
  have hap (t t' : Term) (h : ρ.term t = t') : ρ.SameAction env0 (happens t) (happens t') := by
    subst h; exact .tell _ _ _ _ _
  refine .cons (.line _ (ρ.sameLine_register env0 h1 h2 rfl)) (.cons (k "!peb 0" _ .babbleOff (by decide +kernel) (by simp)
    (by simp) (by simp)) (.cons (sp _ _) (.cons (sp _ _) (.cons (hap _ _ ?_) (.cons (hap _ _ ?_) (.cons (hap _ _ rfl)
    (.cons (sp _ _) (.cons (hap _ _ ?_) .nil))))))))
  all_goals simp [isQ, callOn, encodeOp, selfTerm, Renaming.term, Renaming.terms, hf.self]

theorem same_exam {ρ : Renaming} (y q : String) (goal : Term) :
    List.Forall₂ (ρ.SameAction env0) (exam y q goal) (exam (ρ.name y) (ρ.name q) (ρ.term goal)) := by
  have sp (a : List (List Nat)) (b : List (Rat × Rat × List Nat)) : ρ.SameAction env0 (stepWith a b) (stepWith a b) :=
    .line _ (sameLine_self (c := .step) (by decide +kernel) (by simp) (by simp) (by simp))
  refine .cons (.tell _ _ _ _ _) (.cons (sp _ _) (.cons ?_ (.cons (sp _ _) .nil)))
  have : isQ (ρ.name y) (ρ.name q) = ρ.term (isQ y q) := by simp [isQ, Renaming.term, Renaming.terms]
  unfold happens
  rw [this]
  exact .tell _ _ _ _ _

/-- C117: One thing is seen to have a quality, an operator is applied to it, and an effect follows.  When the effect is wanted
later and another thing has the quality, the operator is applied to that other thing, whatever the things, the quality, the
effect and the operator are called. -/
theorem C117_transferred (x y q z good op : String) (hd : [x, y, q, z, good, op].Nodup) (hw : Word op)
    (hr : ∀ n ∈ [x, y, q, z, good, op], n ∉ Renaming.reserved) :
    ∃ r, runNar env0 (lesson x q z op (.Name good) ++ exam y q (.Name good)) = .ok r ∧
      r.proc.trace.map (·.name) = [isQ x q, callOn x op, .Name good, .Name z, isQ y q, callOn y op] := by
  obtain ⟨ρ, hf, hn⟩ := C95_any_names ["x", "y", "on", "z", "good", "^l"] [x, y, q, z, good, op] (by decide) hd rfl (by decide) hr
  simp only [List.map_cons, List.map_nil, List.cons.injEq, and_true] at hn
  obtain ⟨rfl, rfl, rfl, rfl, rfl, rfl⟩ := hn
  have run : (runNar env0 (lesson "x" "on" "z" "^l" (.Name "good") ++ exam "y" "on" (.Name "good"))).map
      (fun r => r.proc.trace.map (·.name)) =
      .ok [isQ "x" "on", callOn "x" "^l", .Name "good", .Name "z", isQ "y" "on", callOn "y" "^l"] := by decide +kernel
  obtain ⟨r, h1, h2⟩ := R.map_ok.1 run
  refine ⟨ρ.reasoner r, ?_, ?_⟩
  · have hs := forall₂_append (same_lesson hf "x" "on" "z" "^l" (.Name "good") (by decide) hw) (same_exam (ρ := ρ) "y" "on" (.Name "good"))
    have := C95_whole_reasoner ρ hf env0 _ _ hs
    rw [h1] at this
    exact this
  · have := congrArg (List.map ρ.term) h2
    simp only [Renaming.reasoner, Renaming.proc, List.map_map]
    rw [List.map_map] at this
    refine Eq.trans this ?_
    simp [isQ, callOn, encodeOp, selfTerm, Renaming.term, Renaming.terms, hf.self]

example : ∃ r, runNar env0 (lesson "lamp1" "off" "later" "^press" (.Name "bright") ++ exam "lamp2" "off" (.Name "bright")) = .ok r ∧
    r.proc.trace.map (·.name) = [isQ "lamp1" "off", callOn "lamp1" "^press", .Name "bright", .Name "later", isQ "lamp2" "off",
      callOn "lamp2" "^press"] :=
  C117_transferred _ _ _ _ _ _ (by decide) (by decide) (by decide)

/-- C117, violated: if the effect is one on the thing itself, what was learned is not done with another thing: nothing happens when the
same effect is wanted of the other thing, although the general rule was learned. -/
theorem C117_effect_on_the_thing_not_transferred (x y q z good op : String) (hd : [x, y, q, z, good, op].Nodup) (hw : Word op)
    (hr : ∀ n ∈ [x, y, q, z, good, op], n ∉ Renaming.reserved) :
    ∃ r, runNar env0 (lesson x q z op (isQ x good) ++ exam y q (isQ y good)) = .ok r ∧
      r.proc.trace.map (·.name) = [isQ x q, callOn x op, isQ x good, .Name z, isQ y q] ∧
      ∃ b ∈ r.proc.mem.heap, ∃ v, IsVar v ∧
        b.term = rule (.Stmt .INH v (.SetInt [.Name q])) [encodeOp [selfTerm, v] op] (.Stmt .INH v (.SetInt [.Name good])) := by
  obtain ⟨ρ, hf, hn⟩ := C95_any_names ["x", "y", "on", "z", "good", "^l"] [x, y, q, z, good, op] (by decide) hd rfl (by decide) hr
  simp only [List.map_cons, List.map_nil, List.cons.injEq, and_true] at hn
  obtain ⟨rfl, rfl, rfl, rfl, rfl, rfl⟩ := hn
  have run : (runNar env0 (lesson "x" "on" "z" "^l" (isQ "x" "good") ++ exam "y" "on" (isQ "y" "good"))).map
      (fun r => (r.proc.trace.map (·.name), r.proc.mem.heap.getLast?.map (·.term))) =
      .ok ([isQ "x" "on", callOn "x" "^l", isQ "x" "good", .Name "z", isQ "y" "on"],
        some (rule (.Stmt .INH (.IndepVar "Q124567890000000000000000") (.SetInt [.Name "on"]))
          [encodeOp [selfTerm, .IndepVar "Q124567890000000000000000"] "^l"]
          (.Stmt .INH (.IndepVar "Q124567890000000000000000") (.SetInt [.Name "good"])))) := by decide +kernel
  obtain ⟨r, h1, h2⟩ := R.map_ok.1 run
  simp only [Prod.mk.injEq] at h2
  obtain ⟨h2, h3⟩ := h2
  refine ⟨ρ.reasoner r, ?_, ?_, ?_⟩
  · have hs := forall₂_append (same_lesson hf "x" "on" "z" "^l" (isQ "x" "good") (by decide) hw) (same_exam (ρ := ρ) "y" "on" (isQ "y" "good"))
    have := C95_whole_reasoner ρ hf env0 _ _ hs
    rw [h1] at this
    simp only [isQ, Renaming.term, Renaming.terms] at this
    exact this
  · have := congrArg (List.map ρ.term) h2
    simp only [Renaming.reasoner, Renaming.proc, List.map_map]
    rw [List.map_map] at this
    refine Eq.trans this ?_
    simp [isQ, callOn, encodeOp, selfTerm, Renaming.term, Renaming.terms, hf.self]
  · cases hl : r.proc.mem.heap.getLast? with
    | none => rw [hl] at h3; cases h3
    | some b =>
      rw [hl] at h3
      have h3 := Option.some.inj h3
      refine ⟨ρ.sentence b, List.mem_map_of_mem (List.mem_of_getLast? hl), .IndepVar "Q124567890000000000000000", trivial, ?_⟩
      have := congrArg ρ.term h3
      refine Eq.trans this ?_
      simp [rule, encodeOp, selfTerm, Renaming.term, Renaming.terms, hf.self, hf.vars]

/-- C117: with the thing itself it is done again. -/
theorem C117_done_again_with_the_same_thing (x q z good op : String) (hd : [x, q, z, good, op].Nodup) (hw : Word op)
    (hr : ∀ n ∈ [x, q, z, good, op], n ∉ Renaming.reserved) :
    ∃ r, runNar env0 (lesson x q z op (isQ x good) ++ exam x q (isQ x good)) = .ok r ∧
      r.proc.trace.map (·.name) = [isQ x q, callOn x op, isQ x good, .Name z, isQ x q, callOn x op] := by
  obtain ⟨ρ, hf, hn⟩ := C95_any_names ["x", "on", "z", "good", "^l"] [x, q, z, good, op] (by decide) hd rfl (by decide) hr
  simp only [List.map_cons, List.map_nil, List.cons.injEq, and_true] at hn
  obtain ⟨rfl, rfl, rfl, rfl, rfl⟩ := hn
  have run : (runNar env0 (lesson "x" "on" "z" "^l" (isQ "x" "good") ++ exam "x" "on" (isQ "x" "good"))).map
      (fun r => r.proc.trace.map (·.name)) =
      .ok [isQ "x" "on", callOn "x" "^l", isQ "x" "good", .Name "z", isQ "x" "on", callOn "x" "^l"] := by decide +kernel
  obtain ⟨r, h1, h2⟩ := R.map_ok.1 run
  refine ⟨ρ.reasoner r, ?_, ?_⟩
  · have hs := forall₂_append (same_lesson hf "x" "on" "z" "^l" (isQ "x" "good") (by decide) hw) (same_exam (ρ := ρ) "x" "on" (isQ "x" "good"))
    have := C95_whole_reasoner ρ hf env0 _ _ hs
    rw [h1] at this
    simp only [isQ, Renaming.term, Renaming.terms] at this
    exact this
  · have := congrArg (List.map ρ.term) h2
    simp only [Renaming.reasoner, Renaming.proc, List.map_map]
    rw [List.map_map] at this
    refine Eq.trans this ?_
    simp [isQ, callOn, encodeOp, selfTerm, Renaming.term, Renaming.terms, hf.self]

end Nar.Props
